import Verif.Model.Varint
/-
What a suffix array is.
-/
namespace Detools

/-- `a` is not after `b` in dictionary order. -/
def LexLe : Bytes → Bytes → Prop
  | [], _ => True
  | _ :: _, [] => False
  | a :: as, b :: bs => a < b ∨ (a = b ∧ LexLe as bs)

/-- All positions of `fr`, including its end, ordered by the suffix found there. -/
structure IsSuffixArray (sa : List Nat) (fr : Bytes) : Prop where
  length : sa.length = fr.length + 1
  all : ∀ p, p ∈ sa ↔ p ≤ fr.length
  nodup : sa.Nodup
  sorted : sa.Pairwise fun p q => LexLe (fr.drop p) (fr.drop q)

/-- `n` bytes of `fr` at `p` are the first `n` bytes of `to`. -/
def MatchAt (fr to : Bytes) (p n : Nat) : Prop :=
  p + n ≤ fr.length ∧ n ≤ to.length ∧ (fr.drop p).take n = to.take n

end Detools
