import Verif.Model.Varint
import Verif.Spec.Crle
/-
The format of the body of a sequential patch (after decompression), and what it means,
stated without reference to how patches are applied.
-/
namespace Detools

/-- One record of a patch: the two sizes as encoded, the bytes that follow them, the
adjustment, and the number of bytes each of the three integers takes. A negative size
is followed by no bytes. -/
structure Rec where
  diffSize : Int
  diff : Bytes
  extraSize : Int
  extra : Bytes
  adjustment : Int
  diffLen : Nat
  extraLen : Nat
  adjLen : Nat
deriving DecidableEq, Repr

/-- `Recs left body rs rest`: with `left` bytes of to-data missing, `body` starts with
exactly the records `rs`, followed by `rest`. No record gives more than is missing, and
there is no record when nothing is missing. -/
inductive Recs : (left : Int) → (body : Bytes) → List Rec → (rest : Bytes) → Prop
  | done {left : Int} {rest : Bytes} : left ≤ 0 → Recs left rest [] rest
  | record {left : Int} {body b1 b2 b3 rest : Bytes} {r : Rec} {rs : List Rec} : 0 < left →
      unpackSizeWithLength body = .ok (r.diffSize, r.diffLen, r.diff ++ b1) →
      r.diffSize ≤ left → r.diff.length = r.diffSize.toNat →
      unpackSizeWithLength b1 = .ok (r.extraSize, r.extraLen, r.extra ++ b2) →
      r.diff.length + r.extraSize ≤ left → r.extra.length = r.extraSize.toNat →
      unpackSizeWithLength b2 = .ok (r.adjustment, r.adjLen, b3) →
      Recs (left - r.diff.length - r.extra.length) b3 rs rest →
      Recs left body (r :: rs) rest

/-- The to-data of the records, from position `pos` of the from-data: `none` if a diff
reaches beyond the from-data or the position gets negative. (With `clamp` a negative
position becomes 0: the behaviour of `io.BytesIO`.) -/
def rebuild (clamp : Bool) (fr : Bytes) : (pos : Nat) → List Rec → Option Bytes
  | _, [] => some []
  | pos, r :: rs =>
    if r.diff ≠ [] ∧ fr.length < pos + r.diff.length then none
    else if (pos : Int) + r.diff.length + r.adjustment < 0 ∧ clamp = false then none
    else
      (rebuild clamp fr ((pos : Int) + r.diff.length + r.adjustment).toNat rs).map fun out =>
        List.zipWith (· + ·) r.diff (fr.drop pos) ++ r.extra ++ out

/-- `BodyMeans clamp fr toSize body out`: the decompressed `body` of a patch has no
data format section (its first integer, the size of that section, is not positive),
and the rest is exactly a list of records rebuilding `out`, with nothing left over. -/
def BodyMeans (clamp : Bool) (fr : Bytes) (toSize : Int) (body out : Bytes) : Prop :=
  ∃ d len b recs, unpackSizeWithLength body = .ok (d, len, b) ∧ d ≤ 0 ∧
    Recs toSize b recs [] ∧ rebuild clamp fr 0 recs = some out

/-- `Payload c rest body`: with compression number `c`, none or CRLE, the bytes `rest`
decompress to `body`. -/
def Payload (c : Nat) (rest body : Bytes) : Prop :=
  (c = 0 ∧ body = rest) ∨ (c = 2 ∧ CrleDec 0 rest body)

/-- `Header patch c toSize rest`: a sequential patch with compression number `c` and
the given to size; `rest` is what follows. -/
def Header (patch : Bytes) (c : Nat) (toSize : Int) (rest : Bytes) : Prop :=
  ∃ b t len, patch = b :: t ∧ b.toNat / 16 % 8 = 0 ∧ b.toNat % 16 = c ∧ c ≤ 6 ∧
    unpackSizeWithLength t = .ok (toSize, len, rest)

/-- What a patch means. -/
def PatchMeans (clamp : Bool) (fr patch : Bytes) (toSize : Int) (out : Bytes) : Prop :=
  ∃ c rest, Header patch c toSize rest ∧
    ((toSize = 0 ∧ out = []) ∨
     (toSize ≠ 0 ∧ ∃ body, Payload c rest body ∧ BodyMeans clamp fr toSize body out))

end Detools
