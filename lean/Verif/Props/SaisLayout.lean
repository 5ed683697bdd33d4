import Verif.Props.Sais
/-
C51: the arrays that sais.c keeps in the unused end of the suffix array.
-/
namespace Detools
open Sais

/-- The possible flags. -/
theorem saisFlags_cases (n k fs : Nat) :
    (saisFlags n k fs = { f1 := true } ∧ k ≤ fs) ∨
    (saisFlags n k fs = { f1 := true, f16 := true } ∧ k ≤ fs) ∨
    (saisFlags n k fs = { f1 := true, f32 := true } ∧ 3 * k ≤ fs) ∨
    (saisFlags n k fs = { f1 := true, f2 := true }) ∨
    (saisFlags n k fs = { f1 := true, f2 := true, f16 := true }) ∨
    (saisFlags n k fs = {} ∧ 2 * k ≤ fs) ∨
    (saisFlags n k fs = { f32 := true } ∧ 4 * k ≤ fs) ∨
    (saisFlags n k fs = { f2 := true } ∧ k ≤ fs) ∨
    (saisFlags n k fs = { f8 := true } ∧ k ≤ fs) ∨
    (saisFlags n k fs = { f4 := true, f8 := true }) := by
  unfold saisFlags bucketFlags
  by_cases h1 : k ≤ 256
  · by_cases h2 : k ≤ fs
    · simp only [if_pos h1, if_pos h2]
      by_cases h3 : n ≤ 0x3fffffff ∧ 2 ≤ n / k
      · by_cases h4 : (k : Int) * 2 ≤ fs - k
        · simp [h3, h4]; omega
        · simp [h3, h4]; omega
      · simp [h3]; omega
    · simp only [if_pos h1, if_neg h2]
      by_cases h3 : n ≤ 0x3fffffff ∧ 2 ≤ n / k
      · have h4 : ¬ (k : Int) * 2 ≤ fs - k := by omega
        simp [h3, h4]
      · simp [h3]
  · by_cases h2 : k ≤ fs
    · by_cases h5 : k ≤ fs - k
      · simp only [if_neg h1, if_pos h2, if_pos h5]
        by_cases h3 : n ≤ 0x3fffffff ∧ 2 ≤ n / k
        · by_cases h4 : (k : Int) * 2 ≤ fs - k * 2
          · simp [h3, h4]; omega
          · simp [h3, h4]; omega
        · simp [h3]; omega
      · by_cases h6 : k ≤ 1024
        · simp only [if_neg h1, if_pos h2, if_neg h5, if_pos h6]
          by_cases h3 : n ≤ 0x3fffffff ∧ 2 ≤ n / k
          · simp [h3]; omega
          · simp [h3]; omega
        · simp only [if_neg h1, if_pos h2, if_neg h5, if_neg h6]
          by_cases h3 : n ≤ 0x3fffffff ∧ 2 ≤ n / k
          · simp [h3]; omega
          · simp [h3]; omega
    · simp only [if_neg h1, if_neg h2]
      by_cases h3 : n ≤ 0x3fffffff ∧ 2 ≤ n / k
      · simp [h3]
      · simp [h3]

/-- C51. The arrays that are not on the heap are in the free elements, after the suffix array,
and do not overlap: the counts (`c_p`, `k` elements), the bucket positions (`b_p`, `k`
elements) and the marks (`d_p`, `2 * k` elements). The counts and the bucket positions may be
the same array, but not if there are marks. -/
theorem C51_layout (n k fs : Nat) :
    (∀ c, cAt n k fs = some c → n ≤ c ∧ c + k ≤ n + fs) ∧
    (∀ b, bAt n k fs = some b → n ≤ b ∧ b + k ≤ n + fs) ∧
    (∀ d, dAt n k fs = some d → n ≤ d ∧ d + 2 * k ≤ n + fs) ∧
    (∀ c b, cAt n k fs = some c → bAt n k fs = some b → if bIsC n k fs then b = c else b + k ≤ c) ∧
    (∀ d b, dAt n k fs = some d → bAt n k fs = some b → d + 2 * k ≤ b) ∧
    (∀ d c, dAt n k fs = some d → cAt n k fs = some c → d + 2 * k ≤ c) ∧
    (useSort2 n k fs = true → bIsC n k fs = false) ∧
    (bIsC n k fs = true → (cAt n k fs = none ↔ bAt n k fs = none)) := by
  unfold dAt bAt cAt bIsC useSort2
  rcases saisFlags_cases n k fs with ⟨h, hk⟩ | ⟨h, hk⟩ | ⟨h, hk⟩ | h | h | ⟨h, hk⟩ | ⟨h, hk⟩ | ⟨h, hk⟩ | ⟨h, hk⟩ | h <;>
    simp [h] <;> omega

/-- C51. While the reduced problem is solved: its suffix array and free elements, and its text
after them, are inside the array, in this order, and the assertion before it holds; the counts are kept after them, or are on the
heap, or are counted again (`f8`, which is set if they are not kept). -/
theorem C51_layout_reduced (n k fs m name : Nat) (hm : 2 * m ≤ n) :
    (m + newFs n k fs m name) + m ≤ n + fs ∧ n / 2 ≤ newFs n k fs m name + m ∧
    (∀ c, cAt n k fs = some c → keepCounts n k fs m name = true → c = (m + newFs n k fs m name) + m ∧ c + k = n + fs ∧ name ≤ newFs n k fs m name) ∧
    (∀ c, cAt n k fs = some c → keepCounts n k fs m name = false → newFs n k fs m name = n + fs - 2 * m) := by
  obtain ⟨h1, h2, h3⟩ := newFs_spec (k := k) (fs := fs) (name := name) hm
  refine ⟨by omega, by omega, fun c hc hk => ?_, fun c hc hk => ?_⟩
  · obtain ⟨g1, g2⟩ := keepCounts_fits hk
    have g3 := h3 hk
    unfold cAt at hc
    simp only [] at hc
    split at hc
    · cases hc
    · injection hc with hc
      omega
  · unfold newFs
    rw [hk]
    rfl

/-- C51. The names are copied in place to the text of the reduced problem: each is read before
it is overwritten. `sa` is followed by `fs` free elements, `m` names are between elements `m`
and `m + n / 2`. -/
theorem C51_copy_in_place (n m fs newfs : Nat) (sa tail : List Int) (hsa : sa.length = n) (htail : tail.length = fs) (hm : 2 * m ≤ n)
    (h1 : 2 * m + newfs ≤ n + fs) (h2 : n ≤ newfs + 2 * m)
    (hnum : (((sa.drop m).take (n / 2)).filter (fun v => v ≠ 0)).length = m)
    (hval : ∀ v ∈ (sa.drop m).take (n / 2), 0 ≤ v ∧ v < 2 ^ 31) :
    ∃ mem, copyNames m (m + newfs) (n / 2) m (sa ++ tail) = .ok mem ∧ mem.length = n + fs ∧ mem.take m = sa.take m ∧
      (mem.drop (m + newfs)).take m = (((sa.drop m).take (n / 2)).filter (fun v => v ≠ 0)).map fun v => v - 1 := by
  have hnamed : named m (n / 2) (sa ++ tail) = ((sa.drop m).take (n / 2)).filter (fun v => v ≠ 0) := by
    unfold named
    rw [List.drop_append_of_le_length (by omega), List.take_append_of_le_length (by rw [List.length_drop]; omega)]
  obtain ⟨mem, m1, m2, m0, m3⟩ := copyNames_ok (m := m) (base := m + newfs) (h := n / 2) (mem0 := sa ++ tail)
    (by omega) (by rw [List.length_append]; omega) (by rw [List.length_append]; omega)
    (by rw [hnamed, hnum])
    (fun q v hv hq hv0 => by
      rw [List.getElem?_append_left (by omega)] at hv
      have hmem : v ∈ (sa.drop m).take (n / 2) := by
        refine List.mem_iff_getElem?.2 ⟨q, ?_⟩
        rw [List.getElem?_take_of_lt hq, List.getElem?_drop, hv]
      have := hval v hmem
      omega)
    (n / 2) m (sa ++ tail) (Nat.le_refl _) (by rw [hnamed, hnum]) rfl (fun _ _ => rfl)
    (fun r v hr hv => by
      rw [hnamed] at hv
      have := get_lt hv
      omega)
  rw [hnamed] at m3
  have hml : mem.length = n + fs := by rw [m2, List.length_append]; omega
  refine ⟨mem, m1, hml, ?_, ?_⟩
  · apply List.ext_getElem?
    intro q
    by_cases hq : q < m
    · rw [List.getElem?_take_of_lt hq, List.getElem?_take_of_lt hq, m0 q hq (by omega), List.getElem?_append_left (by omega)]
    · rw [List.getElem?_eq_none (by rw [List.length_take]; omega), List.getElem?_eq_none (by rw [List.length_take]; omega)]
  · apply List.ext_getElem?
    intro r
    by_cases hr : r < m
    · have hg := List.getElem?_eq_getElem (l := ((sa.drop m).take (n / 2)).filter (fun v => v ≠ 0)) (i := r) (by omega)
      generalize (((sa.drop m).take (n / 2)).filter (fun v => v ≠ 0))[r]'(by omega) = v at hg
      rw [List.getElem?_take_of_lt hr, List.getElem?_drop, m3 r v hg, List.getElem?_map, hg]
      rfl
    · rw [List.getElem?_eq_none (by rw [List.length_take]; omega), List.getElem?_eq_none (by rw [List.length_map]; omega)]

-- the regions are in use: 300 characters, 1200 free elements
example : cAt 700 300 1200 = some 1600 ∧ bAt 700 300 1200 = some 1300 ∧ dAt 700 300 1200 = some 700 ∧ useSort2 700 300 1200 = true ∧
    keepCounts 700 300 1200 350 20 = true ∧ newFs 700 300 1200 350 20 = 900 := by decide +kernel

-- the text is copied over elements the names were in
example : copyNames 2 3 3 2 [5, 3, 1, 0, 2] = .ok [5, 3, 1, 0, 1] := by decide +kernel

end Detools
