import Verif.Model.CInPlace
import Verif.Spec.CApi
/-
Vocabulary for statements about the low level in-place API: histories of calls and
what the callbacks returned.
-/
namespace Detools

variable [Build]

/-- Run calls in order on one in-place object, whatever they return; the return values
in order. -/
def runInPlaceCalls (E : MemEnv σ) : InPlace → MWorld σ → List Call → C (List Int × InPlace × MWorld σ)
  | s, w, [] => .ok ([], s, w)
  | s, w, .process p :: cs => do
    let (res, s, w) ← inPlaceProcess E s w p
    let (rs, s, w) ← runInPlaceCalls E s w cs
    .ok (res :: rs, s, w)
  | s, w, .finalize :: cs => do
    let (res, s, w) ← inPlaceFinalize E s w
    let (rs, s, w) ← runInPlaceCalls E s w cs
    .ok (res :: rs, s, w)

/-- The callback reported a failure: a negative value, or any value but 0 for the step
callbacks. -/
def MEv.Failed : MEv → Prop
  | .read _ _ r => r < 0
  | .write _ _ r => r < 0
  | .erase _ _ r => r < 0
  | .stepSet _ r => r ≠ 0
  | .stepGet _ r => r ≠ 0

/-- The number of bytes moved by a callback. -/
def MEv.count : MEv → Nat
  | .read _ n _ => n
  | .write _ d _ => d.length
  | _ => 0

/-- `res` is a possible return value of a memory callback. -/
def MemEnv.Returns (E : MemEnv σ) (res : Int) : Prop :=
  (∃ a addr n, (E.memRead a addr n).1 = res) ∨ (∃ a addr d, (E.memWrite a addr d).1 = res) ∨
    ∃ a addr n, (E.memErase a addr n).1 = res

end Detools
