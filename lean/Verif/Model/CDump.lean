import Verif.Model.CSequential
import Verif.Spec.CApi
/-
Model of the sequential C API on an object that was restored. c/detools.c:945-992,
1509-1523.
-/
namespace Detools

variable [Build]

/-- `detools_apply_patch_finalize` on a restored object. Restoring points `decoder_p`
at the decoder inside the object whether or not it was ever reset, so destroying a
heatshrink reader that has not read its header reads uninitialised members.
c/detools.c:343-366, 973-983, 1382-1388. -/
def applyPatchFinalizeRestored (E : SeqEnv σ) (s : ApplyPatch) (w : World σ) : C (SeqRes σ) := do
  let s := { s with chunk := { buf := [], offset := 0 } }
  let (res, s, w) ← finalizeLoop E s.fuel s w
  if s.reader = some (.heatshrink none) then .error .uninit
  else .ok (commonFinalize res s.reader s.toSize, s, w)

/-- Calls on a restored object; process is the same function. -/
def runCallsRestored (E : SeqEnv σ) : ApplyPatch → World σ → List Call → C (List Int × ApplyPatch × World σ)
  | s, w, [] => .ok ([], s, w)
  | s, w, .process p :: cs => do
    let (res, s, w) ← applyPatchProcess E s w p
    let (rs, s, w) ← runCallsRestored E s w cs
    .ok (res :: rs, s, w)
  | s, w, .finalize :: cs => do
    let (res, s, w) ← applyPatchFinalizeRestored E s w
    let (rs, s, w) ← runCallsRestored E s w cs
    .ok (res :: rs, s, w)

/-- Updates that are stopped and taken up again: before each list of calls the object is
dumped and restored into a fresh one of size `other`, with the old image opened anew and
the new image as it is. Gives up when a dump or restore fails. -/
def runCycles (fr : Bytes) (other : Nat) : ApplyPatch → World Files → List (List Call) → C (List Int × ApplyPatch × World Files)
  | s, w, [] => .ok ([], s, w)
  | s, w, seg :: segs => do
    let (res, dumped) := applyPatchDump s
    if res ≠ 0 then .ok ([res], s, w)
    else
      let (res, s, w) := applyPatchRestore (fileEnv fr) (applyPatchInit other) { arg := { pos := 0, out := w.arg.out } } dumped
      if res ≠ 0 then .ok ([res], s, w)
      else
        let (rs, s, w) ← runCallsRestored (fileEnv fr) s w seg
        let (rs', s, w) ← runCycles fr other s w segs
        .ok (rs ++ rs', s, w)

/-- Two outcomes a user cannot tell apart: both undefined for the same reason, or the
same return values and the same user's state. -/
def SameOutcome : C (List Int × ApplyPatch × World σ) → C (List Int × ApplyPatch × World σ) → Prop
  | .error u, .error u' => u = u'
  | .ok (rs, _, w), .ok (rs', _, w') => rs' = rs ∧ w'.arg = w.arg
  | _, _ => False

end Detools
