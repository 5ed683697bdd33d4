import Verif.Model.CCallbacks
/-
Vocabulary for statements about the callback functions: what `patch_read` supplies.
-/
namespace Detools

variable [Build]

/-- Asked for `n` bytes in parts of 512 bytes (the last part may be shorter), `read`
succeeds every time and returns `pieces`. -/
inductive Supplies (read : PatchRead ρ) : ρ → (n : Nat) → (pieces : List Bytes) → Prop
  | done {r} : Supplies read r 0 []
  | part {r n p r' ps} : 0 < n → read r (min n 512) = (0, p, r') → p.length = min n 512 →
      Supplies read r' (n - min n 512) ps → Supplies read r n (p :: ps)

/-- The patch in parts of 512 bytes. -/
def parts512 (patch : Bytes) : List Bytes :=
  (List.range ((patch.length + 511) / 512)).map fun i => (patch.drop (512 * i)).take 512

end Detools
