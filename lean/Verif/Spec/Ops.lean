import Verif.Model.Bsdiff
/-
Specification of what a list of diff/extra/adjustment triples means, stated
without reference to how patches are created or applied.
-/
namespace Detools

/-- `Rebuilds fr pos ops to`: applying the triples `ops` to the from data `fr`,
with the from cursor at `pos`, rebuilds exactly `to`. Each triple adds its diff
bytes (modulo 256) to the from bytes at the cursor, appends its extra bytes and
moves the cursor. All from bytes used lie inside `fr`, the cursor never leaves
`0..fr.length`, and no triple is left over once all of `to` is rebuilt. -/
def Rebuilds (fr : Bytes) : (pos : Int) → List Op → (to : Bytes) → Prop
  | _, [], to => to = []
  | pos, op :: ops, to =>
    to ≠ [] ∧ 0 ≤ pos ∧ pos + op.diff.length ≤ fr.length ∧
    0 ≤ pos + op.diff.length + op.adjustment ∧
    pos + op.diff.length + op.adjustment ≤ fr.length ∧
    ∃ rest, to = List.zipWith (· + ·) op.diff (fr.drop pos.toNat) ++ op.extra ++ rest ∧
      Rebuilds fr (pos + op.diff.length + op.adjustment) ops rest

/-- The decompressed body of a patch: the concatenation of the packed triples. -/
def encodeOps (ops : List Op) : Bytes := (ops.flatMap Op.chunks).flatten

end Detools
