import Verif.Model.DataFormatArch
/-
What a table of a data format patch is, for C57.
-/
namespace Detools

/-- The blocks as they are shown: from offset, to address, number of values, values. -/
def shownBlocks (blocks : List Block) : List (Int × Int × Nat × List Int) :=
  blocks.map fun b => (b.fromOffset, b.toAddress, b.values.length, b.values)

/-- The number of bytes the values of blocks take in a patch. -/
def valueBytes (blocks : List Block) : Nat := ((blocks.flatMap Block.values).map fun v => (packSize v).length).sum

end Detools
