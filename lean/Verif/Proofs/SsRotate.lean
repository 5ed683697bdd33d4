import Verif.Model.SsMerge
import Verif.Proofs.SsMintro
/-
ss_rotate exchanges two parts of an array.
-/
namespace Detools
namespace Dss
open Sais

theorem length_snoc {α : Type} {l : List α} {n : Nat} (h : l.length = n + 1) : ∃ l' v, l = l' ++ [v] ∧ l'.length = n := by
  cases hl : l.reverse with
  | nil =>
    rw [List.reverse_eq_nil_iff.1 hl] at h
    cases h
  | cons v r =>
    have : l = r.reverse ++ [v] := by rw [← List.reverse_reverse l, hl, List.reverse_cons]
    refine ⟨r.reverse, v, this, ?_⟩
    rw [this] at h
    simp at h
    simp [h]

/-- The elements of `L` go behind, those of `R` go where they were. -/
theorem rotDown_ok : ∀ (n : Nat) (L R A R' M L' B : List Int) (h : Int) (x y : Nat), L.length = n → R.length = n → y = A.length + n →
    x = A.length + n + R'.length + M.length + n →
    ∃ h', rotDown n x y (A ++ (L ++ (R' ++ (M ++ (R ++ h :: (L' ++ B)))))) = .ok (x - n, A ++ (R ++ (R' ++ (M ++ h' :: (L ++ (L' ++ B))))))
  | 0, L, R, A, R', M, L', B, h, x, y, hL, hR, hy, hx => by
    rw [List.length_eq_zero_iff.1 hL, List.length_eq_zero_iff.1 hR]
    exact ⟨h, rfl⟩
  | n + 1, L, R, A, R', M, L', B, h, x, y, hL, hR, hy, hx => by
    obtain ⟨L, u, rfl, hL1⟩ := length_snoc hL
    obtain ⟨R, w, rfl, hR1⟩ := length_snoc hR
    unfold rotDown
    have e1 : A ++ ((L ++ [u]) ++ (R' ++ (M ++ ((R ++ [w]) ++ h :: (L' ++ B))))) = (A ++ L) ++ u :: (R' ++ (M ++ ((R ++ [w]) ++ h :: (L' ++ B)))) := by simp
    rw [e1, rd_mid (by rw [List.length_append]; omega)]
    simp only [Bind.bind, Except.bind]
    have e2 : (A ++ L) ++ u :: (R' ++ (M ++ ((R ++ [w]) ++ h :: (L' ++ B)))) = (A ++ (L ++ u :: (R' ++ (M ++ (R ++ [w]))))) ++ h :: (L' ++ B) := by simp
    rw [e2, wr_mid (by simp; omega)]
    simp only []
    have e3 : (A ++ (L ++ u :: (R' ++ (M ++ (R ++ [w]))))) ++ u :: (L' ++ B) = (A ++ (L ++ u :: (R' ++ (M ++ R)))) ++ w :: u :: (L' ++ B) := by simp
    rw [e3, rd_mid (by simp; omega)]
    simp only []
    have e4 : (A ++ (L ++ u :: (R' ++ (M ++ R)))) ++ w :: u :: (L' ++ B) = (A ++ L) ++ u :: (R' ++ (M ++ (R ++ w :: u :: (L' ++ B)))) := by simp
    rw [e4, wr_mid (by rw [List.length_append]; omega)]
    simp only []
    obtain ⟨h', i1⟩ := rotDown_ok n L R A (w :: R') M (u :: L') B w (x - 1) (y - 1) hL1 hR1 (by omega) (by simp; omega)
    refine ⟨h', ?_⟩
    have e5 : (A ++ L) ++ w :: (R' ++ (M ++ (R ++ w :: u :: (L' ++ B)))) = A ++ (L ++ ((w :: R') ++ (M ++ (R ++ w :: ((u :: L') ++ B))))) := by simp
    rw [e5, i1, show x - 1 - n = x - (n + 1) by omega]
    simp

theorem rotUp_ok : ∀ (n : Nat) (L R A L' M R' B : List Int) (h : Int) (x y : Nat), L.length = n → R.length = n → x = A.length + R'.length →
    y = x + 1 + n + M.length + L'.length →
    ∃ h', rotUp n x y (A ++ (R' ++ h :: (L ++ (M ++ (L' ++ (R ++ B)))))) = .ok (x + n, A ++ (R' ++ (R ++ h' :: (M ++ (L' ++ (L ++ B))))))
  | 0, L, R, A, L', M, R', B, h, x, y, hL, hR, hx, hy => by
    rw [List.length_eq_zero_iff.1 hL, List.length_eq_zero_iff.1 hR]
    exact ⟨h, rfl⟩
  | n + 1, u :: L, w :: R, A, L', M, R', B, h, x, y, hL, hR, hx, hy => by
    rw [List.length_cons] at hL hR
    unfold rotUp
    have e1 : A ++ (R' ++ h :: (u :: L ++ (M ++ (L' ++ (w :: R ++ B))))) = (A ++ (R' ++ h :: (u :: L ++ (M ++ L')))) ++ w :: (R ++ B) := by simp
    rw [e1, rd_mid (by simp; omega)]
    simp only [Bind.bind, Except.bind]
    have e2 : (A ++ (R' ++ h :: (u :: L ++ (M ++ L')))) ++ w :: (R ++ B) = (A ++ R') ++ h :: u :: (L ++ (M ++ (L' ++ w :: (R ++ B)))) := by simp
    rw [e2, wr_mid (by rw [List.length_append]; omega)]
    simp only []
    have e3 : (A ++ R') ++ w :: u :: (L ++ (M ++ (L' ++ w :: (R ++ B)))) = (A ++ (R' ++ [w])) ++ u :: (L ++ (M ++ (L' ++ w :: (R ++ B)))) := by simp
    rw [e3, rd_mid (by simp; omega)]
    simp only []
    have e4 : (A ++ (R' ++ [w])) ++ u :: (L ++ (M ++ (L' ++ w :: (R ++ B)))) = (A ++ (R' ++ w :: u :: (L ++ (M ++ L')))) ++ w :: (R ++ B) := by simp
    rw [e4, wr_mid (by simp; omega)]
    simp only []
    obtain ⟨h', i1⟩ := rotUp_ok n L R A (L' ++ [u]) M (R' ++ [w]) B u (x + 1) (y + 1) (by omega) (by omega) (by simp; omega) (by simp; omega)
    refine ⟨h', ?_⟩
    have e5 : (A ++ (R' ++ w :: u :: (L ++ (M ++ L')))) ++ u :: (R ++ B) = A ++ ((R' ++ [w]) ++ u :: (L ++ (M ++ ((L' ++ [u]) ++ (R ++ B))))) := by simp
    rw [e5, i1, show x + 1 + n = x + (n + 1) by omega]
    simp

theorem rotLoop_ok : ∀ (fuel : Nat) (L R A B : List Int) (first middle last : Nat), first = A.length → middle = first + L.length → last = middle + R.length →
    L.length + R.length < fuel → rotLoop fuel first middle last (A ++ (L ++ (R ++ B))) = .ok (A ++ (R ++ (L ++ B)))
  | 0, L, R, A, B, first, middle, last, hf, hm, hl, hfu => by omega
  | fuel + 1, L, R, A, B, first, middle, last, hf, hm, hl, hfu => by
    unfold rotLoop
    have hl1 : middle - first = L.length := by omega
    have hr1 : last - middle = R.length := by omega
    rw [hl1, hr1]
    by_cases h0 : 0 < L.length ∧ 0 < R.length
    · rw [if_pos h0]
      by_cases h1 : L.length = R.length
      · rw [if_pos h1]
        exact blockswap_ok L R A [] B first middle h1 hf (by simp; omega)
      · rw [if_neg h1]
        by_cases h2 : L.length < R.length
        · rw [if_pos h2]
          obtain ⟨R, t, rfl, hR⟩ := length_snoc (n := R.length - 1) (l := R) (by omega)
          have hlen : (R ++ [t]).length = R.length + 1 := by simp
          rw [hlen] at hl h2 h1
          have e1 : A ++ (L ++ ((R ++ [t]) ++ B)) = (A ++ (L ++ R)) ++ t :: B := by simp
          rw [e1, rd_mid (by simp; omega)]
          simp only [Bind.bind, Except.bind]
          obtain ⟨R1, R2, rfl, hR2⟩ : ∃ R1 R2, R = R1 ++ R2 ∧ R2.length = L.length :=
            ⟨R.take (R.length - L.length), R.drop (R.length - L.length), (List.take_append_drop _ _).symm, by rw [List.length_drop]; omega⟩
          simp only [List.length_append, List.length_cons, List.length_nil] at *
          obtain ⟨h', i1⟩ := rotDown_ok L.length L R2 A [] R1 [] B t (last - 1) middle rfl hR2 (by omega) (by rw [List.length_nil]; omega)
          have e2 : (A ++ (L ++ (R1 ++ R2))) ++ t :: B = A ++ (L ++ ([] ++ (R1 ++ (R2 ++ t :: ([] ++ B))))) := by simp
          rw [e2, i1]
          simp only []
          have e3 : A ++ (R2 ++ ([] ++ (R1 ++ h' :: (L ++ ([] ++ B))))) = (A ++ (R2 ++ R1)) ++ h' :: (L ++ B) := by simp
          rw [e3, wr_mid (by simp only [List.length_append]; omega)]
          simp only []
          have e4 : (A ++ (R2 ++ R1)) ++ t :: (L ++ B) = A ++ (R2 ++ (R1 ++ t :: (L ++ B))) := by simp
          rw [e4, rotLoop_ok fuel R2 R1 A (t :: (L ++ B)) first middle _ hf (by omega) (by omega) (by omega)]
          simp
        · rw [if_neg h2]
          cases L with
          | nil => simp at h0
          | cons t L =>
            have hlen : (t :: L).length = L.length + 1 := rfl
            rw [hlen] at hm h2 h1 hl1
            have e1 : A ++ (t :: L ++ (R ++ B)) = A ++ t :: (L ++ (R ++ B)) := rfl
            rw [e1, rd_mid hf]
            simp only [Bind.bind, Except.bind]
            obtain ⟨L1, L2, rfl, hL1⟩ : ∃ L1 L2, L = L1 ++ L2 ∧ L1.length = R.length :=
              ⟨L.take R.length, L.drop R.length, (List.take_append_drop _ _).symm, by rw [List.length_take]; omega⟩
            simp only [List.length_append, List.length_cons, List.length_nil] at *
            obtain ⟨h', i1⟩ := rotUp_ok R.length L1 R A [] L2 [] B t first middle hL1 rfl (by rw [List.length_nil]; omega) (by rw [List.length_nil]; omega)
            have e2 : A ++ t :: ((L1 ++ L2) ++ (R ++ B)) = A ++ ([] ++ t :: (L1 ++ (L2 ++ ([] ++ (R ++ B))))) := by simp
            rw [e2, i1]
            simp only []
            have e3 : A ++ ([] ++ (R ++ h' :: (L2 ++ ([] ++ (L1 ++ B))))) = (A ++ R) ++ h' :: (L2 ++ (L1 ++ B)) := by simp
            rw [e3, wr_mid (by simp only [List.length_append]; omega)]
            simp only []
            have e4 : (A ++ R) ++ t :: (L2 ++ (L1 ++ B)) = (A ++ (R ++ [t])) ++ (L2 ++ (L1 ++ B)) := by simp
            rw [e4, rotLoop_ok fuel L2 L1 (A ++ (R ++ [t])) B _ middle last (by simp only [List.length_append, List.length_cons, List.length_nil]; omega) (by omega) (by omega)
              (by omega)]
            simp
    · rw [if_neg h0]
      by_cases h1 : L.length = 0
      · rw [List.length_eq_zero_iff.1 h1]
        rfl
      · rw [List.length_eq_zero_iff.1 (show R.length = 0 by omega)]
        rfl

theorem ssRotate_ok {L R A B : List Int} {first middle last : Nat} (hf : first = A.length) (hm : middle = first + L.length) (hl : last = middle + R.length) :
    ssRotate first middle last (A ++ (L ++ (R ++ B))) = .ok (A ++ (R ++ (L ++ B))) :=
  rotLoop_ok _ L R A B first middle last hf hm hl (by omega)

end Dss
end Detools
