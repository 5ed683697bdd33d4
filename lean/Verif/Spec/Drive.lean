import Verif.Model.PyStream
/-
A caller of a decompressor: any sequence of `decompress(data, size)` calls, made
until the decompressor reports end of stream.
-/
namespace Detools

/-- Perform the calls in order, stopping at end of stream; returns the final state
and everything delivered, or the first exception. -/
def drive (D : Decompressor) : D.σ → List (Bytes × Nat) → Except PyErr (D.σ × Bytes)
  | st, [] => .ok (st, [])
  | st, (data, size) :: calls =>
    if D.eof st then .ok (st, [])
    else
      match D.decompress st data size with
      | .error e => .error e
      | .ok (st, o) =>
        match drive D st calls with
        | .error e => .error e
        | .ok (st, o') => .ok (st, o ++ o')

/-- All the input handed over by a sequence of calls. -/
def inputOf (calls : List (Bytes × Nat)) : Bytes := (calls.map (·.1)).flatten

end Detools
