import Verif.Model.SsMerge
import Verif.Proofs.SsMintro
/-
ss_isqrt gives a number that is not more than what it is given.
-/
namespace Detools
namespace Dss
open Sais

theorem lgTable_spec {v : Nat} (h : v ≠ 0) : ∃ g : Nat, lgTable v = (g : Int) ∧ 2 ^ g ≤ v ∧ v < 2 ^ (g + 1) := by
  refine ⟨Nat.log2 v, ?_, Nat.log2_self_le h, Nat.lt_log2_self⟩
  unfold lgTable
  rw [if_neg h]

theorem sqq_get : ∀ i : Fin 256, ∃ v, sqqTable[i.val]? = some v ∧ v ≤ 255 ∧ (64 ≤ i.val → 128 ≤ v) ∧ v / 16 ≤ i.val ∧ (2 ≤ i.val → v / 16 < i.val) := by
  have h : ∀ i : Fin 256, sqqTable.getD i.val 0 ≤ 255 ∧ (64 ≤ i.val → 128 ≤ sqqTable.getD i.val 0) ∧ sqqTable.getD i.val 0 / 16 ≤ i.val ∧ (2 ≤ i.val → sqqTable.getD i.val 0 / 16 < i.val) ∧ i.val < sqqTable.length := by decide +kernel
  intro i
  obtain ⟨h1, h2, h3, h6, h4⟩ := h i
  have h5 : sqqTable[i.val]? = some (sqqTable.getD i.val 0) := by
    rw [List.getElem?_eq_getElem h4, List.getD_eq_getElem?_getD, List.getElem?_eq_getElem h4]
    rfl
  exact ⟨_, h5, h1, h2, h3, h6⟩

theorem rd_sqq {i : Nat} (h : i < 256) : ∃ v, rd sqqTable i = .ok v ∧ v ≤ 255 ∧ (64 ≤ i → 128 ≤ v) ∧ v / 16 ≤ i ∧ (2 ≤ i → v / 16 < i) := by
  obtain ⟨v, h1, h2⟩ := sqq_get ⟨i, h⟩
  exact ⟨v, rd_ok h1, h2⟩

theorem shr_div (x s : Nat) : x >>> s = x / 2 ^ s := Nat.shiftRight_eq_div_pow x s

theorem shl_mul (x s : Nat) : x <<< s = x * 2 ^ s := Nat.shiftLeft_eq x s

theorem newton_ok {x y : Nat} (h : 1 ≤ y) : newton x y = .ok ((y + 1 + x / y) / 2) := by
  unfold newton
  rw [if_neg (by omega)]

theorem isqrt_large {x e : Nat} (h1 : 2 ^ e ≤ x) (h2 : x < 2 ^ (e + 1)) (he : 16 ≤ e) (he2 : e ≤ 19) (hx : isqrtExp x = (e : Int)) (hx2 : x < 1048576) : ∃ y, ssIsqrt x = .ok y ∧ y ≤ x ∧ (2 ≤ x → y < x) := by
  have hi : 64 ≤ x >>> ((e - 6) - e % 2) ∧ x >>> ((e - 6) - e % 2) < 256 := by
    rw [shr_div]
    have : e = 16 ∨ e = 17 ∨ e = 18 ∨ e = 19 := by omega
    rcases this with rfl | rfl | rfl | rfl <;> (simp only [Nat.reduceMod, Nat.reduceSub, Nat.reducePow, Nat.reduceAdd] at h1 h2 ⊢; omega)
  obtain ⟨v, g1, g2, g3, g4, g5⟩ := rd_sqq hi.2
  have g3 := g3 hi.1
  have hy : 256 ≤ v <<< (e / 2 - 7) ∧ v <<< (e / 2 - 7) ≤ 1020 := by
    rw [shl_mul]
    have : e = 16 ∨ e = 17 ∨ e = 18 ∨ e = 19 := by omega
    rcases this with rfl | rfl | rfl | rfl <;> (simp only [Nat.reduceDiv, Nat.reduceSub, Nat.reducePow]; omega)
  have hx1 : 65536 ≤ x := Nat.le_trans (show 2 ^ 16 ≤ 2 ^ e from Nat.pow_le_pow_right (by decide) he) h1
  unfold ssIsqrt
  rw [if_neg (by omega)]
  simp only [hx, Int.toNat_natCast]
  rw [if_pos (by omega)]
  simp only [Bind.bind, Except.bind]
  rw [g1]
  simp only []
  rw [newton_ok (by omega)]
  simp only []
  have hq : x / (v <<< (e / 2 - 7)) ≤ x / 256 := Nat.div_le_div_left hy.1 (by decide)
  refine ⟨_, rfl, ?_⟩
  by_cases hlt : x < (v <<< (e / 2 - 7) + 1 + x / (v <<< (e / 2 - 7))) / 2 * ((v <<< (e / 2 - 7) + 1 + x / (v <<< (e / 2 - 7))) / 2)
  · rw [if_pos hlt]; omega
  · rw [if_neg hlt]; omega

theorem isqrt_mid {x e : Nat} (h1 : 2 ^ e ≤ x) (h2 : x < 2 ^ (e + 1)) (he : 8 ≤ e) (he2 : e ≤ 15) (hx : isqrtExp x = (e : Int)) : ∃ y, ssIsqrt x = .ok y ∧ y ≤ x ∧ (2 ≤ x → y < x) := by
  have hi : x >>> ((e - 6) - e % 2) < 256 := by
    rw [shr_div]
    have : e = 8 ∨ e = 9 ∨ e = 10 ∨ e = 11 ∨ e = 12 ∨ e = 13 ∨ e = 14 ∨ e = 15 := by omega
    rcases this with rfl | rfl | rfl | rfl | rfl | rfl | rfl | rfl <;> (simp only [Nat.reduceMod, Nat.reduceSub, Nat.reducePow, Nat.reduceAdd] at h1 h2 ⊢; omega)
  obtain ⟨v, g1, g2, g3, g4, g5⟩ := rd_sqq hi
  have hx1 : 256 ≤ x := Nat.le_trans (show 2 ^ 8 ≤ 2 ^ e from Nat.pow_le_pow_right (by decide) he) h1
  have hx2 : x < 65536 := Nat.lt_of_lt_of_le h2 (show 2 ^ (e + 1) ≤ 2 ^ 16 from Nat.pow_le_pow_right (by decide) (by omega))
  have hv : v >>> (7 - e / 2) ≤ v := by rw [shr_div]; exact Nat.div_le_self _ _
  have hv2 : v >>> (7 - e / 2) + 1 < x := by
    by_cases h14 : 14 ≤ e
    · have : 16384 ≤ x := Nat.le_trans (show 2 ^ 14 ≤ 2 ^ e from Nat.pow_le_pow_right (by decide) h14) h1
      omega
    · rw [shr_div]
      have : v / 2 ^ (7 - e / 2) ≤ v / 2 := Nat.div_le_div_left (show 2 ^ 1 ≤ 2 ^ (7 - e / 2) from Nat.pow_le_pow_right (by decide) (by omega)) (by decide)
      omega
  unfold ssIsqrt
  rw [if_neg (by omega)]
  simp only [hx, Int.toNat_natCast]
  rw [if_neg (by omega), if_pos (by omega)]
  simp only [Bind.bind, Except.bind]
  rw [g1]
  refine ⟨_, rfl, ?_⟩
  by_cases hlt : x < (v >>> (7 - e / 2) + 1) * (v >>> (7 - e / 2) + 1)
  · rw [if_pos hlt]; omega
  · rw [if_neg hlt]; omega

theorem ssIsqrt_ok (x : Nat) : ∃ y, ssIsqrt x = .ok y ∧ y ≤ x ∧ (2 ≤ x → y < x) := by
  by_cases hx : 1024 * 1024 ≤ x
  · refine ⟨1024, ?_, by omega, by omega⟩
    unfold ssIsqrt
    rw [if_pos hx]
  · by_cases h1 : x / 65536 ≠ 0
    · obtain ⟨g, g1, g2, g3⟩ := lgTable_spec (v := x / 65536 % 256) (by omega)
      have hexp : isqrtExp x = ((16 + g : Nat) : Int) := by
        unfold isqrtExp
        rw [if_pos h1, g1]
        omega
      have hm : x / 65536 % 256 = x / 65536 := Nat.mod_eq_of_lt (by omega)
      rw [hm] at g2 g3
      have hg : g ≤ 3 := by
        have : 2 ^ g < 2 ^ 4 := Nat.lt_of_le_of_lt g2 (by omega)
        have := (Nat.pow_lt_pow_iff_right (a := 2) (by decide)).1 this
        omega
      refine isqrt_large (e := 16 + g) ?_ ?_ (by omega) (by omega) hexp (by omega)
      · rw [Nat.pow_add]; omega
      · rw [show 16 + g + 1 = 16 + (g + 1) by omega, Nat.pow_add]; omega
    · by_cases h2 : x / 256 % 256 ≠ 0
      · obtain ⟨g, g1, g2, g3⟩ := lgTable_spec (v := x / 256 % 256) h2
        have hexp : isqrtExp x = ((8 + g : Nat) : Int) := by
          unfold isqrtExp
          rw [if_neg h1, if_pos h2, g1]
          omega
        have hm : x / 256 % 256 = x / 256 := Nat.mod_eq_of_lt (by omega)
        rw [hm] at g2 g3
        have hg : g ≤ 7 := by
          have : 2 ^ g < 2 ^ 8 := Nat.lt_of_le_of_lt g2 (by omega)
          have := (Nat.pow_lt_pow_iff_right (a := 2) (by decide)).1 this
          omega
        refine isqrt_mid (e := 8 + g) ?_ ?_ (by omega) (by omega) hexp
        · rw [Nat.pow_add]; omega
        · rw [show 8 + g + 1 = 8 + (g + 1) by omega, Nat.pow_add]; omega
      · have hx' : x < 256 := by omega
        obtain ⟨v, g1, g2, g3, g4, g5⟩ := rd_sqq hx'
        have hexp : isqrtExp x < 8 := by
          unfold isqrtExp
          rw [if_neg h1, if_neg h2]
          by_cases h0 : x % 256 = 0
          · rw [h0]; decide
          · obtain ⟨g, k1, k2, k3⟩ := lgTable_spec h0
            have : 2 ^ g < 2 ^ 8 := Nat.lt_of_le_of_lt k2 (by omega)
            have := (Nat.pow_lt_pow_iff_right (a := 2) (by decide)).1 this
            omega
        unfold ssIsqrt
        rw [if_neg hx]
        simp only []
        rw [if_neg (by omega), if_neg (by omega)]
        simp only [Bind.bind, Except.bind]
        rw [g1]
        refine ⟨_, rfl, ?_⟩
        rw [shr_div]
        omega

theorem ssLimit_ok (n bufsize : Nat) : ∃ l, ssLimit n bufsize = .ok l ∧ l ≤ n ∧ l ≤ 1024 ∧ (2 ≤ n → l < n) := by
  unfold ssLimit
  by_cases h : bufsize < 1024 ∧ bufsize < n
  · rw [if_pos h]
    obtain ⟨y, hy, hle, hlt⟩ := ssIsqrt_ok n
    simp only [Bind.bind, Except.bind]
    rw [hy]
    refine ⟨_, rfl, ?_⟩
    by_cases h1 : bufsize < y
    · rw [if_pos h1]
      by_cases h2 : 1024 < y
      · rw [if_pos h2]; omega
      · rw [if_neg h2]; omega
    · rw [if_neg h1]; omega
  · rw [if_neg h]
    exact ⟨0, rfl, by omega, by omega, by omega⟩

end Dss
end Detools
