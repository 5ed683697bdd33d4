import Verif.Spec.Ops
/-
What the body of an in-place patch means.
-/
namespace Detools

/-- `SegOps fr to seg shift i opss`: from segment `i` on, the operations of each segment
rebuild the bytes of `to` in that segment. They use the part of the (moved) from-data `fr`
that writing the segment does not overwrite: with the from-data at address `shift`,
segment `i` is written below address `seg * (i + 1)`. -/
def SegOps (fr to : Bytes) (seg shift : Nat) : Nat → List (List Op) → Prop
  | _, [] => True
  | i, ops :: rest => i * seg < to.length ∧
      Rebuilds (fr.drop (seg * (i + 1) - shift)) 0 ops ((to.drop (i * seg)).take seg) ∧ SegOps fr to seg shift (i + 1) rest

/-- The body of an in-place patch. -/
def encodeSegments (opss : List (List Op)) : Bytes := (opss.map fun ops => packSize 0 ++ encodeOps ops).flatten

end Detools
