import Verif.Spec.Records
import Verif.Model.PyInPlace
/-
What any in-place patch means for the memory, stated without reference to how it is
applied. `fileWrite` is what a memory contains after a write.
-/
namespace Detools

/-- The memory after adding `diff` to the bytes at `src` and storing the sums at `dst`, in
pieces of 4096 bytes (`n` bounds their number): a piece is added to what the memory
contains when all pieces before it are stored. `none` if it reaches beyond the memory. -/
def diffInto : (n : Nat) → (m : Bytes) → (dst : Nat) → (src : Int) → (diff : Bytes) → Option Bytes
  | 0, m, _, _, _ => some m
  | n + 1, m, dst, src, diff =>
    if diff = [] then some m
    else if src < 0 ∨ m.length < src.toNat + (diff.take 4096).length then none
    else diffInto n (fileWrite m dst (List.zipWith (· + ·) (diff.take 4096) (m.drop src.toNat)))
      (dst + (diff.take 4096).length) (src + (diff.take 4096).length) (diff.drop 4096)

/-- The memory after the records, storing at `dst` and reading at `src` on. -/
def recsInto : (m : Bytes) → (dst : Nat) → (src : Int) → List Rec → Option Bytes
  | m, _, _, [] => some m
  | m, dst, src, r :: rs =>
    (diffInto r.diff.length m dst src r.diff).bind fun m =>
      recsInto (fileWrite m (dst + r.diff.length) r.extra) (dst + r.diff.length + r.extra.length)
        (src + r.diff.length + r.adjustment) rs

/-- `SegsInto seg shift toSize left i m body m' rest`: `body` starts with `left` segments,
from segment `i` on, followed by `rest`, and they make `m'` of the memory `m`. A segment
has no data format section, and its records make exactly the bytes of the segment. They
read from the end of the segment on, or from the moved from-data on if that comes later. -/
inductive SegsInto (seg shift toSize : Int) : (left i : Nat) → (m body m' rest : Bytes) → Prop
  | done {i m rest} : SegsInto seg shift toSize 0 i m rest m rest
  | segment {left i : Nat} {m m1 m' body b b' rest : Bytes} {d : Int} {len : Nat} {recs : List Rec} :
      unpackSizeWithLength body = .ok (d, len, b) → d ≤ 0 →
      Recs (min seg (toSize - i * seg)) b recs b' →
      recsInto m (i * seg).toNat (max (seg * (i + 1)) shift) recs = some m1 →
      SegsInto seg shift toSize left (i + 1) m1 b' m' rest →
      SegsInto seg shift toSize (left + 1) i m body m' rest

/-- The header of an in-place patch, and what follows it. -/
def InPlaceHead (patch : Bytes) (c : Nat) (memory seg shift from_ to : Int) (rest : Bytes) : Prop :=
  ∃ b t0 t1 t2 t3 t4 n0 n1 n2 n3 n4, patch = b :: t0 ∧ b.toNat / 16 % 8 = 1 ∧ b.toNat % 16 = c ∧ c ≤ 6 ∧
    unpackSizeWithLength t0 = .ok (memory, n0, t1) ∧ unpackSizeWithLength t1 = .ok (seg, n1, t2) ∧
    unpackSizeWithLength t2 = .ok (shift, n2, t3) ∧ unpackSizeWithLength t3 = .ok (from_, n3, t4) ∧
    unpackSizeWithLength t4 = .ok (to, n4, rest)

/-- The memory after moving the from-data up by `shift` (a negative size is all of the
memory; what does not fit into `memory` bytes is cut off). -/
def moved (m : Bytes) (memory shift from_ : Int) : Bytes :=
  fileWrite m shift.toNat (sliceTo (if from_ < 0 then m else m.take from_.toNat) (memory - shift))

/-- What an in-place patch with to-data, uncompressed or CRLE compressed, means for a
memory. -/
def InPlaceMeans (m patch : Bytes) (toSize : Int) (m' : Bytes) : Prop :=
  ∃ c memory seg shift from_ rest, InPlaceHead patch c memory seg shift from_ toSize rest ∧
    ((toSize ≤ 0 ∧ m' = m) ∨
     (0 < toSize ∧ memory ≤ m.length ∧ 0 ≤ shift ∧ seg ≠ 0 ∧
      ∃ body, Payload c rest body ∧
        SegsInto seg shift toSize (if seg < 0 then 0 else ((toSize + seg - 1) / seg).toNat) 0 (moved m memory shift from_) body m' []))

end Detools
