import Verif.Spec.Records
import Verif.Model.CSequential
/-
Which patches the C library can represent, on top of the format of Spec/Records.lean.
-/
namespace Detools

/-- The C library reads integers of at most four bytes, and sizes must not be
negative. -/
def Rec.Small (r : Rec) : Prop :=
  0 ≤ r.diffSize ∧ 0 ≤ r.extraSize ∧ r.diffLen ≤ 4 ∧ r.extraLen ≤ 4 ∧ r.adjLen ≤ 4

/-- The positions in the from-data after each adjustment. -/
def seeks : (pos : Int) → List Rec → List Int
  | _, [] => []
  | pos, r :: rs => (pos + r.diff.length + r.adjustment) :: seeks (pos + r.diff.length + r.adjustment) rs

/-- `CBodyMeans fr toSize body out rest`: as `BodyMeans`, within the limits of the C
library; `rest` follows the last record. -/
def CBodyMeans (fr : Bytes) (toSize : Nat) (body out rest : Bytes) : Prop :=
  ∃ d len b recs, unpackSizeWithLength body = .ok (d, len, b) ∧ d ≤ 0 ∧ len ≤ 4 ∧
    Recs toSize b recs rest ∧ (∀ r ∈ recs, r.Small) ∧ (∀ q ∈ seeks 0 recs, q < 2 ^ 31) ∧
    rebuild false fr 0 recs = some out

/-- `CHeader patch c toSize rest`: the header as the C library reads it: at most four
bytes of size, of which the sign is ignored. -/
def CHeader (patch : Bytes) (c : Nat) (toSize : Nat) (rest : Bytes) : Prop :=
  ∃ b t v len, patch = b :: t ∧ b.toNat / 16 % 8 = 0 ∧ b.toNat % 16 = c ∧
    unpackSizeWithLength t = .ok (v, len, rest) ∧ len ≤ 4 ∧ toSize = v.natAbs

/-- The sizes of a CRLE stream take at most four bytes each; `k` bytes of a scattered
segment are still to come. -/
inductive CrleSmall : Nat → Bytes → Prop
  | done : CrleSmall 0 []
  | lit {k b inp} : CrleSmall k inp → CrleSmall (k + 1) (b :: inp)
  | scattered {n inp rest} : crleUnpackSize 0 0 inp = some (n, rest) → inp.length - rest.length ≤ 4 →
      CrleSmall n rest → CrleSmall 0 (0 :: inp)
  | repeated {n b inp rest} : crleUnpackSize 0 0 inp = some (n, b :: rest) → inp.length - (b :: rest).length ≤ 4 →
      CrleSmall 0 rest → CrleSmall 0 (1 :: inp)

/-- The low level C API accepts: init with `patchSize`, process on each of the pieces,
and finalize return no error; finalize returns `n` and the to-file then holds `out`. -/
def CAccepts [Build] (fr : Bytes) (patchSize : Nat) (pieces : List Bytes) (n : Int) (out : Bytes) : Prop :=
  ∃ s w, applyPieces (fileEnv fr) patchSize { arg := {} } pieces = .ok (n, s, w) ∧ 0 ≤ n ∧ w.arg.out = out

/-- If the first byte selects no compression, the header is not split: it is inside
the first non-empty piece, and the announced patch size covers it. -/
def HeaderInFirst (patchSize : Nat) (pieces : List Bytes) : Prop :=
  ∀ b t v len rest, pieces.flatten = b :: t → b.toNat % 16 = 0 →
    unpackSizeWithLength t = .ok (v, len, rest) → len ≤ 4 → 1 + len ≤ patchSize ∧
    ∀ piece, pieces.find? (· ≠ []) = some piece → 1 + len ≤ piece.length

/-- The patch is not compressed with LZMA, or LZMA is not built in. -/
def NotLzmaPatch [Build] (patch : Bytes) : Prop := Build.lzma = none ∨ ∀ b t, patch = b :: t → b.toNat % 16 ≠ 1

end Detools
