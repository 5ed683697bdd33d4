import Verif.Proofs.Search
/-
C32: the search for the longest match.
-/
namespace Detools

/-- C32. What the search returns is a match, whatever the order of the suffix array. -/
theorem C32_genuine_match (sa : List Nat) (fr to : Bytes) (hlen : sa.length = fr.length + 1) (hin : ∀ p ∈ sa, p ≤ fr.length) :
    ∃ len pos, search sa fr to (fr.length + 1) 0 fr.length = some (len, pos) ∧ MatchAt fr to pos len := by
  obtain ⟨len, pos, h1, h2, h3, h4⟩ := search_some sa fr to hlen hin (fr.length + 1) 0 fr.length (by omega) (by omega) (by omega)
  have h5 := matchlen_le_left (fr.drop pos) to
  rw [List.length_drop] at h5
  refine ⟨len, pos, h1, by omega, h3, ?_⟩
  rw [h4]
  exact matchlen_match _ _

/-- C32, in full: with a suffix array no longer match exists anywhere. Missing: that holds
only if the to-data does not start with a shorter suffix of the from-data, as shown below. -/
theorem C32_longest_match_partial (sa : List Nat) (fr to : Bytes) (h : IsSuffixArray sa fr)
    (hno : ∀ p, p < fr.length → fr.length - p < to.length → to.take (fr.length - p) ≠ fr.drop p) :
    ∃ len pos, search sa fr to (fr.length + 1) 0 fr.length = some (len, pos) ∧ MatchAt fr to pos len ∧
      ∀ p n, MatchAt fr to p n → n ≤ len := by
  obtain ⟨len, pos, h1, h2, h3, h4⟩ := search_longest h (to := to) (by
      intro p hp hc
      rw [List.length_drop] at hc
      exact hno p hp hc.1 hc.2) (suffix_end h)
    (fr.length + 1) 0 fr.length (Nat.zero_le _) (by have := h.length; omega) (by omega) (.inl rfl) (.inl rfl)
  have h5 := matchlen_le_left (fr.drop pos) to
  rw [List.length_drop] at h5
  refine ⟨len, pos, h1, ⟨by omega, by rw [h3]; exact matchlen_le_right _ _, by rw [h3]; exact matchlen_match _ _⟩, ?_⟩
  intro p n ⟨m1, m2, m3⟩
  obtain ⟨x, hx, rfl⟩ := List.mem_iff_getElem.1 ((h.all p).2 (by omega))
  exact Nat.le_trans (matchlen_longest _ _ _ (by rw [List.length_drop]; omega) m2 m3) (h4 x hx)

instance : ∀ a b, Decidable (LexLe a b)
  | [], _ => .isTrue trivial
  | _ :: _, [] => .isFalse id
  | a :: as, b :: bs => by
    unfold LexLe
    have : Decidable (LexLe as bs) := instDecidableLexLe as bs
    exact inferInstance

/-- The suffix array of `abca`. -/
theorem suffixArray_abca : IsSuffixArray [4, 3, 0, 1, 2] [97, 98, 99, 97] := by
  refine ⟨by decide, ?_, by decide, by decide⟩
  intro p
  constructor
  · intro h
    simp only [List.mem_cons, List.not_mem_nil, or_false] at h
    simp only [List.length_cons, List.length_nil]
    omega
  · intro h
    simp only [List.length_cons, List.length_nil] at h
    simp only [List.mem_cons, List.not_mem_nil, or_false]
    omega

/-- C32 is false as it stands: `abc` is in `abca`, but the search only finds `a`: comparing
`a` with `abc` over the shorter length gives zero, and the search goes on to the left. -/
theorem C32_longest_match_refuted : IsSuffixArray [4, 3, 0, 1, 2] [97, 98, 99, 97] ∧
    search [4, 3, 0, 1, 2] [97, 98, 99, 97] [97, 98, 99] 5 0 4 = some (1, 3) ∧ MatchAt [97, 98, 99, 97] [97, 98, 99] 0 3 :=
  ⟨suffixArray_abca, by decide, by decide, by decide, by decide⟩

-- The hypotheses of the partial theorem are met by `bcx`.
example : (∀ p, p < [97, 98, 99, 97].length → [97, 98, 99, 97].length - p < [98, 99, 120].length →
      [98, 99, 120].take ([97, 98, 99, 97].length - p) ≠ ([97, 98, 99, 97] : Bytes).drop p) ∧
    search [4, 3, 0, 1, 2] [97, 98, 99, 97] [98, 99, 120] 5 0 4 = some (2, 1) := by decide

end Detools
