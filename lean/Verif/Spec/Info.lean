import Verif.Model.PyInfo
import Verif.Spec.Records
import Verif.Spec.Ops
import Verif.Spec.Segments
/-
What information about a patch should say.
-/
namespace Detools

/-- The information about a list of records making `toSize` bytes: the sizes and
adjustments in order, and the number of bytes their integers take. -/
def describe (toSize : Int) (recs : List Rec) : RecordsInfo where
  toSize := toSize
  diffSizes := recs.map Rec.diffSize
  extraSizes := recs.map Rec.extraSize
  adjustmentSizes := recs.map Rec.adjustment
  numberOfSizeBytes := (recs.map fun r => r.diffLen + r.extraLen + r.adjLen).sum

/-- The same for the records of a created patch. -/
def describeOps (toSize : Int) (ops : List Op) : RecordsInfo where
  toSize := toSize
  diffSizes := ops.map fun op => (op.diff.length : Int)
  extraSizes := ops.map fun op => (op.extra.length : Int)
  adjustmentSizes := ops.map Op.adjustment
  numberOfSizeBytes := (ops.map fun op =>
    (packSize op.diff.length).length + (packSize op.extra.length).length + (packSize op.adjustment).length).sum

/-- The information about the segments of a created in-place patch, from segment `i` on. -/
def describeSegments (seg toSize : Nat) : Nat → List (List Op) → List (Int × Option Int × RecordsInfo)
  | _, [] => []
  | i, ops :: rest => (0, none, describeOps ((min seg (toSize - i * seg) : Nat) : Int) ops) :: describeSegments seg toSize (i + 1) rest

/-- `InfoRecs left body rs rest`: as `Recs`, the records at the beginning of `body`, as
`patch_info` counts: a negative size makes more to-data missing. -/
inductive InfoRecs : (left : Int) → (body : Bytes) → List Rec → (rest : Bytes) → Prop
  | done {left : Int} {rest : Bytes} : left ≤ 0 → InfoRecs left rest [] rest
  | record {left : Int} {body b1 b2 b3 rest : Bytes} {r : Rec} {rs : List Rec} : 0 < left →
      unpackSizeWithLength body = .ok (r.diffSize, r.diffLen, r.diff ++ b1) →
      r.diffSize ≤ left → r.diff.length = r.diffSize.toNat →
      unpackSizeWithLength b1 = .ok (r.extraSize, r.extraLen, r.extra ++ b2) →
      r.extraSize ≤ left - r.diffSize → r.extra.length = r.extraSize.toNat →
      unpackSizeWithLength b2 = .ok (r.adjustment, r.adjLen, b3) →
      InfoRecs (left - r.diffSize - r.extraSize) b3 rs rest →
      InfoRecs left body (r :: rs) rest

/-- What `patch_info` should say of a sequential patch, not compressed or CRLE compressed,
without data format section: the header and all records, with nothing left over. -/
def InfoMeans (patch : Bytes) (info : SequentialInfo) : Prop :=
  ∃ c toSize rest, Header patch c toSize rest ∧ info.patchSize = patch.length ∧ info.compression.toNumber = c ∧ info.dataFormat = none ∧
    ((toSize = 0 ∧ info.dfpatchSize = 0 ∧ info.records = describe 0 []) ∨
     (toSize ≠ 0 ∧ ∃ body len b recs, Payload c rest body ∧ unpackSizeWithLength body = .ok (info.dfpatchSize, len, b) ∧
       info.dfpatchSize ≤ 0 ∧ InfoRecs toSize b recs [] ∧ info.records = describe toSize recs))

end Detools
