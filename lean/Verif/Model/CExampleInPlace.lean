import Verif.Model.CInPlace
/-
Model of c/examples/in_place/main.c: an update in place with a patch from a serial line. The
callbacks and `verify_written_data` are empty in the example; here they are arbitrary. Left
out: the parsing of the arguments. `serial_read` does not write outside of the buffer it is
given.
-/
namespace Detools

/-- What one call of `serial_read` gives: bytes, possibly none, which are counted in its
result, or the negative result `-(n + 1)`. c/examples/in_place/main.c:60-63. -/
inductive SerialRead where
  | data (bytes : Bytes)
  | error (n : Nat)
deriving DecidableEq, Repr

/-- How far `update` has come: it waits for more data (`waiting`), or it has left the loop
with a result. -/
inductive LoopEnd (σ : Type) where
  | waiting (s : InPlace) (w : MWorld σ)
  | stopped (res : Int) (s : InPlace) (w : MWorld σ)

/-- The outcome of `update`: it waits for more data, or it has returned. -/
inductive UpdateEnd (σ : Type) where
  | waiting (w : MWorld σ)
  | returned (res : Int) (w : MWorld σ)

variable [Build]

/-- The loop of `update`, with `res == 0` before each pass; `left` is a `size_t`. The list is
what the calls of `serial_read` give. c/examples/in_place/main.c:95-108. -/
def updateLoop (E : MemEnv σ) : (left : Nat) → InPlace → MWorld σ → List SerialRead → C (LoopEnd σ)
  | left, s, w, [] => if left = 0 then .ok (.stopped 0 s w) else .ok (.waiting s w)
  | left, s, w, r :: rs =>
    if left = 0 then .ok (.stopped 0 s w)
    else
      match r with
      | .error n => .ok (.stopped (-((n : Int) + 1)) s w)
      | .data [] => updateLoop E left s w rs
      | .data (b :: bs) => do
        let left := szOfInt ((left : Int) - (b :: bs).length)
        let (res, s, w) ← inPlaceProcess E s w (b :: bs)
        if res ≠ 0 then .ok (.stopped res s w) else updateLoop E left s w rs

/-- `update`. `init` returns 0. c/examples/in_place/main.c:70-120. -/
def exampleUpdate (E : MemEnv σ) (verify : σ → Int → Int) (patchSize : Nat) (w : MWorld σ) (reads : List SerialRead) :
    C (UpdateEnd σ) := do
  match ← updateLoop E patchSize (inPlaceInit patchSize) w reads with
  | .waiting _ w => .ok (.waiting w)
  | .stopped res s w =>
    if res = 0 then do
      let (res, _, w) ← inPlaceFinalize E s w
      if 0 ≤ res then .ok (.returned (verify w.arg res) w) else .ok (.returned res w)
    else do
      let (_, _, w) ← inPlaceFinalize E s w
      .ok (.returned res w)

end Detools
