import Verif.Model.CDumpRestore
/-
Model of c/examples/dump_restore/main.c on a system on which the calls can fail. Left out: the
parsing of the arguments, messages, and `fclose` and `remove`, whose results the program does not
look at and which are taken to succeed. `Model/CDumpRestore` has the same functions on a system on
which they succeed.
-/
namespace Detools

/-- What the system answers to one run. The callbacks have a state of their own beside the
from-file and the to-file. -/
structure DumpSystem (κ : Type) where
  /-- `from_read`, `from_seek` and `to_write`. c/examples/dump_restore/main.c:125-164. -/
  env : SeqEnv (Files × κ)
  start : κ
  /-- The three files are opened and the size of the patch file is found. -/
  opened : Bool := true
  /-- state.bin is opened for reading, if it is there. -/
  stateFound : Bool := true
  /-- `state_read` succeeds, if state.bin is long enough. -/
  stateRead : Bool := true
  /-- `ftruncate` succeeds. -/
  truncated : Bool := true
  /-- `malloc`, `fseek` and `fread` of `read_file` succeed, as far as the patch is long enough. -/
  patchRead : Bool := true
  /-- The same after the dump. -/
  patchReadAfter : Bool := true
  /-- state.bin is opened for writing. -/
  stateOpened : Bool := true
  /-- `state_write` succeeds. -/
  stateWritten : Bool := true

variable [Build]

/-- `ftruncate` of the to-file, the result of which is not looked at.
c/examples/dump_restore/main.c:336-337. -/
def DumpSystem.truncate (Y : DumpSystem κ) (to : Bytes) (size : Nat) : Bytes :=
  if Y.truncated then truncateTo to size else to

/-- `init` and `try_restore`. c/examples/dump_restore/main.c:239-255, 313-338. -/
def tryRestoreOn (Y : DumpSystem κ) (patchSize : Nat) (d : DumpDisk) : Option (Bool × ApplyPatch × World (Files × κ)) :=
  match if Y.stateFound then d.state else none with
  | none => some (false, applyPatchInit patchSize, { arg := ({ out := Y.truncate d.to (applyPatchInit patchSize).toOffset }, Y.start) })
  | some .short => none
  | some (.whole dumped) =>
    if Y.stateRead then
      let (res, s, w) := applyPatchRestore Y.env (applyPatchInit patchSize) { arg := ({ out := d.to }, Y.start) } dumped
      if res ≠ 0 then none
      else some (decide (dumped.state ≠ .init), s, { w with arg := ({ w.arg.1 with out := Y.truncate d.to s.toOffset }, w.arg.2) })
    else none

/-- `read_file`. c/examples/dump_restore/main.c:166-188. -/
def readPatchOn (succeeds : Bool) (patch : Bytes) (offset size : Nat) : Option Bytes :=
  if succeeds then readPatch patch offset size else none

/-- The last part of a run that has not reached the end of the patch.
c/examples/dump_restore/main.c:295-311, 366-372. -/
def storeAndGoOnOn (Y : DumpSystem κ) (patch : Bytes) (offset after : Nat) (s : ApplyPatch) (w : World (Files × κ)) : C (Nat × DumpDisk) :=
  if Y.stateOpened then
    let (res, dumped) := applyPatchDump s
    if res ≠ 0 ∨ ¬ Y.stateWritten then .ok (cleanAndExit w.arg.1.out)
    else if after = 0 then .ok (0, { to := w.arg.1.out, state := some (.whole dumped) })
    else
      match readPatchOn Y.patchReadAfter patch offset after with
      | none => .ok (cleanAndExit w.arg.1.out)
      | some p => do
        let (res, _, w) ← applyPatchProcess Y.env s w p
        if res < 0 then .ok (cleanAndExit w.arg.1.out)
        else .ok (0, { to := w.arg.1.out, state := some (.whole dumped) })
  else .ok (cleanAndExit w.arg.1.out)

/-- `finalize`. c/examples/dump_restore/main.c:280-293, 362-365. -/
def finalizeAndExitOn (Y : DumpSystem κ) (restored : Bool) (s : ApplyPatch) (w : World (Files × κ)) : C (Nat × DumpDisk) := do
  let (res, _, w) ← if restored then applyPatchFinalizeRestored Y.env s w else applyPatchFinalize Y.env s w
  if res < 0 then .ok (cleanAndExit w.arg.1.out)
  else .ok (0, { to := w.arg.1.out, state := none })

/-- `main`: the exit status and the files afterwards. c/examples/dump_restore/main.c:257-278,
340-379. -/
def dumpRestoreMainOn (Y : DumpSystem κ) (patch : Bytes) (size after : Nat) (d : DumpDisk) : C (Nat × DumpDisk) :=
  if patch = [] ∨ ¬ Y.opened then .ok (cleanAndExit d.to)
  else
    match tryRestoreOn Y patch.length d with
    | none => .ok (cleanAndExit d.to)
    | some (restored, s, w) =>
      let offset := s.patchOffset
      match readPatchOn Y.patchRead patch offset size with
      | none => .ok (cleanAndExit w.arg.1.out)
      | some p => do
        let (res, s, w) ← applyPatchProcess Y.env s w p
        if res < 0 then .ok (cleanAndExit w.arg.1.out)
        else if offset + size = patch.length then finalizeAndExitOn Y restored s w
        else storeAndGoOnOn Y patch (offset + size) after s w

end Detools
