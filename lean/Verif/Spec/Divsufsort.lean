import Verif.Model.Divsufsort
/-
What is asked of the two sorting functions divsufsort is built on, in words of the text alone.
`<` on lists is dictionary order.
-/
namespace Detools

/-- The positions whose suffix is less than the one after it, while that one is not less than
the one after it. -/
def bStars (t : List Nat) : List Nat :=
  (List.range t.length).filter fun x => decide (t.drop x < t.drop (x + 1) ∧ ¬ t.drop (x + 1) < t.drop (x + 2))

/-- The text from position number `r` of `bStars` to the two characters at the next one, or to
the end of the text. -/
def bStarSub (t : List Nat) (r : Nat) : List Nat :=
  match (bStars t)[r]?, (bStars t)[r + 1]? with
  | some x, some y => (t.drop x).take (y + 2 - x)
  | some x, none => t.drop x
  | none, _ => []

/-- The substrings of all the positions, in the order of the text. -/
def bStarSubs (t : List Nat) : List (List Nat) := (List.range (bStars t).length).map (bStarSub t)

/-- What `sssort` is given: the elements from `i` to `j` of the suffix array are the numbers
`l`, which have two characters in common, with the last of all numbers, if it is there, first;
the positions are the last elements of the suffix array. -/
structure SsGiven (t : List Nat) (sa : List Int) (i j : Nat) (l : List Nat) : Prop where
  length : sa.length = t.length
  positions : ∀ r x : Nat, (bStars t)[r]? = some x → sa[t.length - (bStars t).length + r]? = some (x : Int)
  range : i < j ∧ j ≤ (bStars t).length
  numbers : (sa.drop i).take (j - i) = l.map Int.ofNat
  below : ∀ r, r ∈ l → r < (bStars t).length
  nodup : l.Nodup
  two : ∀ r s, r ∈ l → s ∈ l → (bStarSub t r).take 2 = (bStarSub t s).take 2
  last : (bStars t).length - 1 ∉ l.tail

/-- `out` is the numbers in `l` in the order of their substrings; a number whose substring is
the same as that of the number before it is complemented. -/
def SubstringsSorted (t : List Nat) (l : List Nat) (out : List Int) : Prop :=
  ∃ l' : List Nat, l'.Perm l ∧ (l'.Pairwise fun r s => ¬ bStarSub t s < bStarSub t r) ∧ out.length = l'.length ∧
    ∀ (q r s : Nat), l'[q]? = some r → l'[q - 1]? = some s →
      out[q]? = some (if 0 < q ∧ bStarSub t s = bStarSub t r then -(r : Int) - 1 else (r : Int))

/-- `sssort` sorts the numbers from `i` to `j`, and changes nothing but those elements and the
elements between the first and the last as many as there are positions. -/
def SsSorts (o : Dss.Sorters) : Prop :=
  ∀ (t : List Nat) (sa : List Int) (i j : Nat) (l : List Nat), (∀ c, c ∈ t → c < 256) → t.length < 2 ^ 31 → SsGiven t sa i j l →
    ∃ sa', o.ss t (bStars t).length i j (decide (l.head? = some ((bStars t).length - 1))) sa = .ok sa' ∧ sa'.length = sa.length ∧
      (∀ q : Nat, (q < i ∨ (j ≤ q ∧ q < (bStars t).length) ∨ t.length - (bStars t).length ≤ q) → sa'[q]? = sa[q]?) ∧
      SubstringsSorted t l ((sa'.drop i).take (j - i))

/-- The suffix array `trsort` is given, from index `q` on, for the names `w`: elements in order
that no other is equal to, the first replaced by minus how many they are, and groups of elements
with the same name, which is the index of the last. -/
inductive TrGroups (w : List Nat) (sa : List Int) : Nat → Prop where
  | done : TrGroups w sa w.length
  | sorted (q n : Nat) : 0 < n → sa[q]? = some (-(n : Int)) →
      (∀ p, q ≤ p → p < q + n → ∃ r : Nat, ∀ s : Nat, w[s]? = some p ↔ s = r) → TrGroups w sa (q + n) → TrGroups w sa q
  | group (q e : Nat) (l : List Nat) : q < e → (sa.drop q).take (e + 1 - q) = l.map Int.ofNat → l.Nodup →
      (∀ r : Nat, r ∈ l ↔ w[r]? = some e) → TrGroups w sa (e + 1) → TrGroups w sa q

/-- What `trsort` is given: the names `w`, of which the last is the only one of its kind, and
the suffix array. -/
structure TrGiven (w : List Nat) (sa : List Int) : Prop where
  length : 2 * w.length ≤ sa.length ∧ sa.length < 2 ^ 31
  names : (sa.drop w.length).take w.length = w.map Int.ofNat
  last : ∀ r : Nat, r + 1 < w.length → w[r]? ≠ w[w.length - 1]?
  nonempty : 0 < w.length
  groups : TrGroups w sa 0

/-- `trsort` turns the names into how many suffixes of the sequence of names are less. -/
def TrSorts (o : Dss.Sorters) : Prop :=
  ∀ (w : List Nat) (sa : List Int), TrGiven w sa → ∃ sa', o.tr w.length sa = .ok sa' ∧ sa'.length = sa.length ∧
    (sa'.drop w.length).take w.length =
      (List.range w.length).map fun r => Int.ofNat ((List.range w.length).filter fun s => decide (w.drop s < w.drop r)).length

end Detools
