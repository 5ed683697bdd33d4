import Verif.Model.CDumpRestore
import Verif.Spec.CFormat
/-
Vocabulary for statements about the program of c/examples/dump_restore/main.c: where it may
be interrupted, and which files can be met.
-/
namespace Detools

variable [Build]

/-- The files after a run that was interrupted (the process killed, or the power lost).
Data given to `fwrite` reaches the to-file at any later time, as a prefix, and at the latest
when the program ends. With `synced` the to-file holds everything processed before the dump
once state.bin is complete. More is allowed than can happen: the to-file may hold anything
where a later run does not use it. -/
inductive Interrupted (synced : Bool) (fr patch : Bytes) (size : Nat) (d : DumpDisk) : DumpDisk → Prop
  /-- before the to-file was truncated -/
  | early : Interrupted synced fr patch size d d
  /-- before state.bin is opened or removed -/
  | processing {restored s w to} : tryRestore fr patch.length d = some (restored, s, w) → w.arg.out <+: to →
      Interrupted synced fr patch size d { to := to, state := d.state }
  /-- while state.bin is written -/
  | storing {to} : Interrupted synced fr patch size d { to := to, state := some .short }
  /-- after state.bin was written -/
  | stored {restored s w p res s1 w1 dumped to} : tryRestore fr patch.length d = some (restored, s, w) →
      readPatch patch s.patchOffset size = some p → applyPatchProcess (fileEnv fr) s w p = .ok (res, s1, w1) → 0 ≤ res →
      s.patchOffset + size ≠ patch.length → applyPatchDump s1 = (0, dumped) →
      w.arg.out <+: to → (synced = true → w1.arg.out <+: to) →
      Interrupted synced fr patch size d { to := to, state := some (.whole dumped) }
  /-- after state.bin was removed -/
  | removed {to} : Interrupted synced fr patch size d { to := to, state := none }

/-- The files that can be met: there was no state.bin, and any to-file; then the program was
run any number of times, with any sizes, to its end or until it was interrupted. -/
inductive DumpReach (synced : Bool) (fr patch : Bytes) : DumpDisk → Prop
  | first (to : Bytes) : DumpReach synced fr patch { to := to, state := none }
  | ran {d size after status d'} : DumpReach synced fr patch d → dumpRestoreMain fr patch size after d = .ok (status, d') →
      DumpReach synced fr patch d'
  | interrupted {d size d'} : DumpReach synced fr patch d → Interrupted synced fr patch size d d' → DumpReach synced fr patch d'

/-- The offset in the patch at which a run begins. -/
def DumpDisk.offset (d : DumpDisk) : Nat :=
  match d.state with
  | some (.whole dumped) => if dumped.state = .init then 0 else dumped.patchOffset
  | _ => 0

/-- Run after run with the given sizes, as long as the status is 0. -/
def dumpRestoreRuns (fr patch : Bytes) : List Nat → DumpDisk → C (Nat × DumpDisk)
  | [], d => .ok (0, d)
  | size :: sizes, d => do
    let (status, d) ← dumpRestoreMain fr patch size 0 d
    if status ≠ 0 then .ok (status, d) else dumpRestoreRuns fr patch sizes d

/-- The C library applies the patch to the from-file, with a non-empty result `out`, and all
sizes are in range. A patch compressed with LZMA cannot be dumped. -/
structure Applies (fr patch : Bytes) (n : Int) (out : Bytes) : Prop where
  frLen : fr.length < 2 ^ 31
  patchLen : patch.length < 2 ^ 31
  lzma : NotLzmaPatch patch
  accepts : CAccepts fr patch.length [patch] n out
  ne : out ≠ []
  outLen : out.length < 2 ^ 63

end Detools
