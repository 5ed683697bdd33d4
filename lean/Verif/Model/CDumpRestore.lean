import Verif.Model.CDump
/-
Model of c/examples/dump_restore/main.c, a program that applies a part of a patch per run
and keeps its state in the file state.bin between the runs. The from-file and the patch
file are the same in all runs. Left out: the parsing of the arguments, messages, files that
cannot be opened, writes that fail and memory that cannot be allocated. The size of the
patch file is below 2^31.
-/
namespace Detools

/-- The contents of state.bin: what a dump wrote, or less than that. -/
inductive StateFile where
  | short
  | whole (dumped : ApplyPatch)
deriving DecidableEq, Repr

/-- The files a run changes. `state` is `none` if there is no state.bin. -/
structure DumpDisk where
  to : Bytes := []
  state : Option StateFile := none
deriving DecidableEq, Repr

/-- `ftruncate`, which also makes a file longer. -/
def truncateTo (to : Bytes) (size : Nat) : Bytes := to.take size ++ List.replicate (size - to.length) 0

/-- `remove_state` and the end of the program. c/examples/dump_restore/main.c:46-56. -/
def cleanAndExit (to : Bytes) : Nat × DumpDisk := (1, { to := to, state := none })

variable [Build]

/-- `init` and `try_restore`. Says whether the patch reader was restored, and gives the
object and the files with the to-file truncated. `none` is `clean_and_exit`.
c/examples/dump_restore/main.c:239-255, 313-338, c/detools.c:1437-1474. -/
def tryRestore (fr : Bytes) (patchSize : Nat) (d : DumpDisk) : Option (Bool × ApplyPatch × World Files) :=
  match d.state with
  | none => some (false, applyPatchInit patchSize, { arg := { out := truncateTo d.to (applyPatchInit patchSize).toOffset } })
  | some .short => none
  | some (.whole dumped) =>
    let (res, s, w) := applyPatchRestore (fileEnv fr) (applyPatchInit patchSize) { arg := { out := d.to } } dumped
    if res ≠ 0 then none
    else some (decide (dumped.state ≠ .init), s, { w with arg := { w.arg with out := truncateTo d.to s.toOffset } })

/-- `read_file` on the patch file: `fread` of one item fails if the item is empty or ends
after the file. c/examples/dump_restore/main.c:166-188. -/
def readPatch (patch : Bytes) (offset size : Nat) : Option Bytes :=
  if size = 0 ∨ patch.length < offset + size then none else some ((patch.drop offset).take size)

/-- The last part of a run that has not reached the end of the patch: the state is stored,
then `after` more bytes are processed. c/examples/dump_restore/main.c:295-311, 366-372. -/
def storeAndGoOn (fr patch : Bytes) (offset after : Nat) (s : ApplyPatch) (w : World Files) : C (Nat × DumpDisk) :=
  let (res, dumped) := applyPatchDump s
  if res ≠ 0 then .ok (cleanAndExit w.arg.out)
  else if after = 0 then .ok (0, { to := w.arg.out, state := some (.whole dumped) })
  else
    match readPatch patch offset after with
    | none => .ok (cleanAndExit w.arg.out)
    | some p => do
      let (res, _, w) ← applyPatchProcess (fileEnv fr) s w p
      if res < 0 then .ok (cleanAndExit w.arg.out)
      else .ok (0, { to := w.arg.out, state := some (.whole dumped) })

/-- `finalize`, whether the reader was restored or not. c/examples/dump_restore/main.c:280-293,
362-365. -/
def finalizeAndExit (fr : Bytes) (restored : Bool) (s : ApplyPatch) (w : World Files) : C (Nat × DumpDisk) := do
  let (res, _, w) ← if restored then applyPatchFinalizeRestored (fileEnv fr) s w else applyPatchFinalize (fileEnv fr) s w
  if res < 0 then .ok (cleanAndExit w.arg.out)
  else .ok (0, { to := w.arg.out, state := none })

/-- `main`: the exit status and the files afterwards. `size` and `after` are the arguments
`<size>` and `<size-after-dump>`. c/examples/dump_restore/main.c:257-278, 340-379. -/
def dumpRestoreMain (fr patch : Bytes) (size after : Nat) (d : DumpDisk) : C (Nat × DumpDisk) :=
  if patch = [] then .ok (cleanAndExit d.to)
  else
    match tryRestore fr patch.length d with
    | none => .ok (cleanAndExit d.to)
    | some (restored, s, w) =>
      let offset := s.patchOffset
      match readPatch patch offset size with
      | none => .ok (cleanAndExit w.arg.out)
      | some p => do
        let (res, s, w) ← applyPatchProcess (fileEnv fr) s w p
        if res < 0 then .ok (cleanAndExit w.arg.out)
        else if offset + size = patch.length then finalizeAndExit fr restored s w
        else storeAndGoOn fr patch (offset + size) after s w

end Detools
