import Verif.Model.DataFormat
/-
What the data formats assume: difflib's matching blocks and the data segment parameters.
-/
namespace Detools

/-- `difflib`: every matching block `(i, j, n)` says that `a[i:i+n] == b[j:j+n]`, and the
blocks are increasing and do not overlap, neither in `a` nor in `b`. -/
structure Matcher.Ok (sm : Matcher) : Prop where
  genuine : ∀ a b i j n, (i, j, n) ∈ sm a b →
    i + n ≤ a.length ∧ j + n ≤ b.length ∧ (a.drop i).take n = (b.drop j).take n
  increasing : ∀ a b, (sm a b).Pairwise fun x y => x.1 + x.2.2 ≤ y.1 ∧ x.2.1 + x.2.2 ≤ y.2.1

/-- An address `pack_usize` accepts: a 64-bit value (2^63 is the exception of C05). -/
def Address (v : Int) : Prop := 0 ≤ v ∧ v < 2 ^ 64 ∧ v ≠ 2 ^ 63

/-- Parameters that the round trip needs whatever the data format: they are addresses, and
the from-data is as long in the file as it is in memory. -/
structure DataSegment.Ok (seg : DataSegment) : Prop where
  offset : Address seg.from_.offsetBegin
  dataBegin : Address seg.from_.dataBegin
  dataEnd : Address seg.from_.dataEnd
  codeBegin : Address seg.from_.codeBegin
  codeEnd : Address seg.from_.codeEnd
  sameLength : seg.from_.offsetEnd - seg.from_.offsetBegin = seg.from_.dataEnd - seg.from_.dataBegin

/-- For pointers of four bytes: the to-addresses are less than 2^31. Only needed for those
pointers that the from-data has. -/
structure DataSegment.Small (seg : DataSegment) : Prop where
  data : seg.from_.dataEnd ≠ 0 → seg.to.dataEnd ≤ 2 ^ 31
  code : seg.from_.codeEnd ≠ 0 → seg.to.codeEnd ≤ 2 ^ 31

/-- For pointers of eight bytes: from- and to-addresses differ by less than 2^63. -/
structure DataSegment.Near (seg : DataSegment) : Prop where
  data : seg.from_.dataEnd ≠ 0 →
    seg.from_.dataEnd - seg.to.dataBegin ≤ 2 ^ 63 ∧ seg.to.dataEnd - seg.from_.dataBegin ≤ 2 ^ 63
  code : seg.from_.codeEnd ≠ 0 →
    seg.from_.codeEnd - seg.to.codeBegin ≤ 2 ^ 63 ∧ seg.to.codeEnd - seg.from_.codeBegin ≤ 2 ^ 63

end Detools
