/-
Integers on the command line: integer literals of Python, with a sign and white space around
them, in ASCII.
-/
namespace Detools

/-- A digit of a number in the base, with its value. -/
def IsDigit (base : Nat) (c : Char) (v : Nat) : Prop := v < base ∧ (c = Nat.digitChar v ∨ c = (Nat.digitChar v).toUpper)

/-- Digits, with at most one underscore between two of them, and the number they stand for. -/
inductive Digits (base : Nat) : List Char → Nat → Prop
  | one {c v} : IsDigit base c v → Digits base [c] v
  | more {l n c v} : Digits base l n → IsDigit base c v → Digits base (l ++ [c]) (base * n + v)
  | underscore {l n c v} : Digits base l n → IsDigit base c v → Digits base (l ++ ['_', c]) (base * n + v)

/-- An integer literal. -/
inductive Literal : List Char → Nat → Prop
  | decimal {c l n} : Digits 10 (c :: l) n → c ≠ '0' → Literal (c :: l) n
  | zero {l} : Digits 10 l 0 → Literal l 0
  | based {base p u l n} : (base, p) ∈ [(16, 'x'), (16, 'X'), (8, 'o'), (8, 'O'), (2, 'b'), (2, 'B')] → u = [] ∨ u = ['_'] →
      Digits base l n → Literal ('0' :: p :: u ++ l) n

/-- ASCII white space of Python. -/
def Blank (l : List Char) : Prop := ∀ c ∈ l, c.toNat ∈ [9, 10, 11, 12, 13, 28, 29, 30, 31, 32]

/-- The text stands for the integer. -/
inductive IntText : List Char → Int → Prop
  | unsigned {s l n t} : Blank s → Literal l n → Blank t → IntText (s ++ l ++ t) n
  | plus {s l n t} : Blank s → Literal l n → Blank t → IntText (s ++ '+' :: l ++ t) n
  | minus {s l n t} : Blank s → Literal l n → Blank t → IntText (s ++ '-' :: l ++ t) (-n)

end Detools
