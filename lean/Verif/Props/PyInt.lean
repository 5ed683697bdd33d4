import Verif.Proofs.PyInt
import Verif.Props.PyMain
/-
C52: exactly which texts the Python command line tool takes for an integer.
-/
namespace Detools

/-- C52. An option that is a number is accepted exactly if its text stands for an integer
(`IntText`: an integer literal of Python, with or without a sign and white space), and gets
this value. -/
theorem C52_integers_exactly (option : String) (value : List Char) (v : Int) : parseInteger option value = .ok v ↔ IntText value v := by
  rw [← pyInt_iff]
  unfold parseInteger
  cases pyInt value with
  | none => simp
  | some w => simp

/-- C52. The same for a range: two integers with one `-` between them, the first not greater
than the second. -/
theorem C52_ranges_exactly (option : String) (value : List Char) (x y : Int) :
    parseRange option (some value) = .ok (x, y) ↔
      ∃ a b, value = a ++ '-' :: b ∧ '-' ∉ a ∧ '-' ∉ b ∧ IntText a x ∧ IntText b y ∧ x ≤ y := by
  rw [C52_range_iff]
  simp only [pyInt_iff]

-- 0x_1F, and not a decimal number that begins with 0 or ends with an underscore.
theorem example_literal : Literal "0x_1F".toList 31 := by
  have h1 : IsDigit 16 '1' 1 := ⟨by decide, .inl rfl⟩
  have h2 : IsDigit 16 'F' 15 := ⟨by decide, .inr (by decide)⟩
  have h : Digits 16 ['1', 'F'] (16 * 1 + 15) := .more (.one h1) h2
  exact .based (p := 'x') (u := ['_']) (l := ['1', 'F']) (base := 16) (by decide) (.inr rfl) h

example : IntText " -0x_1F\n".toList (-31) :=
  .minus (s := [' ']) (t := ['\n']) (by unfold Blank; decide) example_literal (by unfold Blank; decide)

example : parseInteger "--x" " -0x_1F\n".toList = .ok (-31) ∧ (parseInteger "--x" "010".toList).isOk = false ∧
    (parseInteger "--x" "0x_".toList).isOk = false ∧ (parseInteger "--x" "1_000".toList) = .ok 1000 ∧
    (parseInteger "--x" "1__0".toList).isOk = false ∧ (parseInteger "--x" "- 1".toList).isOk = false := by decide +kernel

end Detools
