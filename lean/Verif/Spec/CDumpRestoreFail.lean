import Verif.Model.CDumpRestoreFail
import Verif.Spec.CDumpRestore
/-
What is said of the system for C54 when calls can fail: a call that succeeds has done what it is
for. Any call may fail.
-/
namespace Detools

variable [Build]

/-- The callbacks, when they succeed, read the from-file at the position, move the position, and
append to the to-file. -/
structure DumpSystem.Honest (Y : DumpSystem κ) (fr : Bytes) : Prop where
  read : ∀ f k n, (Y.env.fromRead (f, k) n).1 = 0 → (n = 0 ∨ f.pos + n ≤ fr.length) ∧
    (Y.env.fromRead (f, k) n).2.1 = (fr.drop f.pos.toNat).take n ∧ (Y.env.fromRead (f, k) n).2.2.1 = { f with pos := f.pos + n }
  seek : ∀ f k off, (Y.env.fromSeek (f, k) off).1 = 0 → 0 ≤ f.pos + off ∧ (Y.env.fromSeek (f, k) off).2.1 = { f with pos := f.pos + off }
  write : ∀ f k d, (Y.env.toWrite (f, k) d).1 = 0 → (Y.env.toWrite (f, k) d).2.1 = { f with out := f.out ++ d }

/-- In addition, no call fails that need not. -/
structure DumpSystem.Works (Y : DumpSystem κ) (fr : Bytes) : Prop extends Y.Honest fr where
  reads : ∀ (f : Files) k (n : Nat), n = 0 ∨ f.pos + n ≤ fr.length → (Y.env.fromRead (f, k) n).1 = 0
  seeks : ∀ (f : Files) k (off : Int), 0 ≤ f.pos + off → (Y.env.fromSeek (f, k) off).1 = 0
  writes : ∀ f k d, (Y.env.toWrite (f, k) d).1 = 0
  opened : Y.opened = true
  stateFound : Y.stateFound = true
  stateRead : Y.stateRead = true
  truncated : Y.truncated = true
  patchRead : Y.patchRead = true
  patchReadAfter : Y.patchReadAfter = true
  stateOpened : Y.stateOpened = true
  stateWritten : Y.stateWritten = true

/-- The files that can be met if calls can fail in any run, but `ftruncate`. Compare
`DumpReach`. -/
inductive DumpReachFailing (fr patch : Bytes) : DumpDisk → Prop
  | first (to : Bytes) : DumpReachFailing fr patch { to := to, state := none }
  | ran {κ : Type} {Y : DumpSystem κ} {d size after status d'} : DumpReachFailing fr patch d → Y.Honest fr → Y.truncated = true →
      dumpRestoreMainOn Y patch size after d = .ok (status, d') → DumpReachFailing fr patch d'
  | interrupted {d size d'} : DumpReachFailing fr patch d → Interrupted true fr patch size d d' → DumpReachFailing fr patch d'

end Detools
