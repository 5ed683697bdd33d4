import Verif.Model.Elf
/-
What C53 says about the ranges found in an ELF file.
-/
namespace Detools

/-- A function or object symbol of the file that is not empty. -/
structure ElfSymbol.In (s : ElfSymbol) (elf : Elf) (type : SymbolType) : Prop where
  listed : ∃ sec ∈ elf, ∃ symbols, sec.symbols = some symbols ∧ s ∈ symbols
  type_ : s.type = type
  notEmpty : 0 < s.size

/-- The symbol starts in section `i` of the file, and in no earlier one. -/
def ElfSymbol.StartsIn (s : ElfSymbol) (elf : Elf) (i : Nat) : Prop :=
  (∃ sec, elf[i]? = some sec ∧ sec.addr ≤ s.value ∧ s.value < sec.addr + sec.size) ∧
  ∀ j < i, ∀ sec, elf[j]? = some sec → ¬ (sec.addr ≤ s.value ∧ s.value < sec.addr + sec.size)

/-- No two functions or objects overlap. -/
def NoOverlap (elf : Elf) : Prop :=
  (elfSymbols elf).Pairwise fun s t => s.value + s.size ≤ t.value ∨ t.value + t.size ≤ s.value

/-- The addresses from `b` to `e` are those of the range or some of them. -/
def AddressRange.Contains (r : AddressRange) (b e : Int) : Prop := r.begin_ ≤ b ∧ e ≤ r.end_

/-- The ranges have no address in common. -/
def AddressRange.Disjoint (r : AddressRange) (b e : Int) : Prop := e ≤ r.begin_ ∨ r.end_ ≤ b

end Detools
