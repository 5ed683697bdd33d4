import Verif.Proofs.SsPlace
/-
ss_mergeforward merges two sorted parts, and leaves a permutation of what was in the buffer.
-/
namespace Detools
namespace Dss
open Sais

/-- `ss_blockswap` where the first argument is behind the second. -/
theorem blockswap_back : ∀ (X Z A Y B : List Int) (i j : Nat), X.length = Z.length → i = A.length → j = A.length + X.length + Y.length →
    blockswap X.length j i (A ++ (X ++ (Y ++ (Z ++ B)))) = .ok (A ++ (Z ++ (Y ++ (X ++ B))))
  | [], [], A, Y, B, i, j, _, _, _ => rfl
  | x :: X, z :: Z, A, Y, B, i, j, hl, hi, hj => by
    show blockswap (X.length + 1) j i (A ++ x :: (X ++ (Y ++ z :: (Z ++ B)))) = _
    unfold blockswap
    rw [List.length_cons, List.length_cons] at hl
    have e1 : A ++ x :: (X ++ (Y ++ z :: (Z ++ B))) = A ++ x :: ((X ++ Y) ++ z :: (Z ++ B)) := by simp
    rw [e1, swapAt_mid' hi (by rw [List.length_append]; rw [List.length_cons] at hj; omega)]
    simp only [Bind.bind, Except.bind]
    have e2 : A ++ z :: ((X ++ Y) ++ x :: (Z ++ B)) = (A ++ [z]) ++ (X ++ ((Y ++ [x]) ++ (Z ++ B))) := by simp
    rw [e2, blockswap_back X Z (A ++ [z]) (Y ++ [x]) B (i + 1) (j + 1) (by omega) (by simp [hi]) (by simp; rw [List.length_cons] at hj; omega)]
    simp
  | [], _ :: _, _, _, _, _, _, hl, _, _ => absurd hl (by simp)
  | _ :: _, [], _, _, _, _, _, hl, _, _ => absurd hl (by simp)

/-- The array during the merge: a free place after what is done, `J1` and `J2` from the buffer, and
what is left of the right part, `Y`, and of the left part, `X`, which is in the buffer. -/
def fwdState (A : List Int) (h : Int) (J1 Y M J2 X B : List Int) : List Int := A ++ h :: (J1 ++ (Y ++ (M ++ (J2 ++ (X ++ B)))))

/-- An element `v` at index `b` of the buffer goes to the free place. -/
theorem fwd_move {A : List Int} {h : Int} {J1 Y M J2 X B : List Int} {v : Int} {x b : Nat} (hx : x = A.length) (hb : b = A.length + 1 + J1.length + Y.length + M.length + J2.length) :
    rd (fwdState A h J1 Y M J2 (v :: X) B) b = .ok v ∧ wr (fwdState A h J1 Y M J2 (v :: X) B) x v = .ok (fwdState A v J1 Y M J2 (v :: X) B) ∧
    (∀ w, wr (fwdState A v J1 Y M J2 (v :: X) B) b w = .ok (A ++ v :: (J1 ++ (Y ++ (M ++ (J2 ++ w :: (X ++ B))))))) := by
  have e1 : ∀ g w, fwdState A g J1 Y M J2 (w :: X) B = (A ++ g :: (J1 ++ (Y ++ (M ++ J2)))) ++ w :: (X ++ B) := fun g w => by unfold fwdState; simp
  have hl : ∀ g : Int, b = (A ++ g :: (J1 ++ (Y ++ (M ++ J2)))).length := fun g => by simp; omega
  refine ⟨?_, ?_, fun w => ?_⟩
  · rw [e1, rd_mid (hl h)]
  · exact wr_mid hx
  · rw [e1, wr_mid (hl v)]
    simp

theorem fwdTail_ok {t : Int} {M B : List Int} : ∀ (X J1 J2 A : List Int) (h : Int) (x b : Nat), X.length = J1.length + 1 → x = A.length → b = A.length + 1 + J1.length + M.length + J2.length →
    ∃ K, K.Perm (t :: (J1 ++ J2)) ∧ fwdTail t (X.length - 1) x b (fwdState A h J1 [] M J2 X B) = .ok (A ++ (X ++ (M ++ (K ++ B))))
  | [], J1, J2, A, h, x, b, hX, hx, hb => by cases hX
  | [v], J1, J2, A, h, x, b, hX, hx, hb => by
    have : J1 = [] := List.length_eq_zero_iff.1 (by simp only [List.length_append, List.length_cons, List.length_nil] at hX; omega)
    subst this
    refine ⟨J2 ++ [t], List.perm_append_comm.trans (by simp), ?_⟩
    obtain ⟨m1, m2, m3⟩ := fwd_move (A := A) (h := h) (J1 := []) (Y := []) (M := M) (J2 := J2) (X := []) (B := B) (v := v) hx hb
    show fwdTail t 0 x b _ = _
    unfold fwdTail
    simp only [Bind.bind, Except.bind]
    rw [m1]
    simp only []
    rw [m2]
    simp only []
    rw [m3]
    simp
  | v :: v' :: X, J1, J2, A, h, x, b, hX, hx, hb => by
    cases J1 with
    | nil => simp at hX
    | cons j J1 =>
      obtain ⟨m1, m2, m3⟩ := fwd_move (A := A) (h := h) (J1 := j :: J1) (Y := []) (M := M) (J2 := J2) (X := v' :: X) (B := B) (v := v) hx hb
      show ∃ K, _ ∧ fwdTail t (X.length + 1) x b _ = _
      unfold fwdTail
      simp only [Bind.bind, Except.bind]
      rw [m1]
      simp only []
      rw [m2]
      simp only []
      have e1 : fwdState A v (j :: J1) [] M J2 (v :: v' :: X) B = (A ++ [v]) ++ j :: (J1 ++ ([] ++ (M ++ (J2 ++ ((v :: v' :: X) ++ B))))) := by unfold fwdState; simp
      have r1 : rd (fwdState A v (j :: J1) [] M J2 (v :: v' :: X) B) (x + 1) = .ok j := by rw [e1, rd_mid (by simp; omega)]
      rw [r1]
      simp only []
      rw [m3]
      simp only []
      obtain ⟨K, k1, k2⟩ := fwdTail_ok (t := t) (M := M) (B := B) (v' :: X) J1 (J2 ++ [j]) (A ++ [v]) j (x + 1) (b + 1) (by simp at hX ⊢; omega) (by simp; omega) (by simp at hb ⊢; omega)
      refine ⟨K, k1.trans (List.Perm.cons _ ?_), ?_⟩
      · rw [← List.append_assoc]
        exact List.perm_append_comm
      · have e2 : A ++ v :: (j :: J1 ++ ([] ++ (M ++ (J2 ++ j :: (v' :: X ++ B))))) = fwdState (A ++ [v]) j J1 [] M (J2 ++ [j]) (v' :: X) B := by unfold fwdState; simp
        rw [e2]
        have : fwdTail t X.length (x + 1) (b + 1) (fwdState (A ++ [v]) j J1 [] M (J2 ++ [j]) (v' :: X) B) = _ := k2
        rw [this]
        simp

theorem fwdBuf_ok {t : Int} {Y M B : List Int} : ∀ (G : List Int) (v : Int) (X J1 J2 A : List Int) (h : Int) (x b : Nat), (v :: G ++ X).length = J1.length + 1 → x = A.length →
    b = A.length + 1 + J1.length + Y.length + M.length + J2.length → (∀ g, g ∈ G → g < 0) → (∀ u, X.head? = some u → 0 ≤ u) →
    (X = [] → ∃ K, K.Perm (t :: (J1 ++ J2)) ∧ fwdBuf t ((v :: G ++ X).length - 1) x b (fwdState A h J1 Y M J2 (v :: G ++ X) B) = .ok (none, A ++ (v :: G ++ (Y ++ (M ++ (K ++ B)))))) ∧
    (X ≠ [] → ∃ h' J1' J2', (J1' ++ J2').Perm (J1 ++ J2) ∧ X.length = J1'.length + 1 ∧ (b + (G.length + 1) = A.length + (G.length + 1) + 1 + J1'.length + Y.length + M.length + J2'.length) ∧
      fwdBuf t ((v :: G ++ X).length - 1) x b (fwdState A h J1 Y M J2 (v :: G ++ X) B) =
        .ok (some (x + (G.length + 1), b + (G.length + 1)), fwdState (A ++ v :: G) h' J1' Y M J2' X B))
  | [], v, [], J1, J2, A, h, x, b, hX, hx, hb, hG, hu => by
    have : J1 = [] := List.length_eq_zero_iff.1 (by simp only [List.length_append, List.length_cons, List.length_nil] at hX; omega)
    subst this
    refine ⟨fun _ => ⟨J2 ++ [t], List.perm_append_comm.trans (by simp), ?_⟩, fun h => absurd rfl h⟩
    obtain ⟨m1, m2, m3⟩ := fwd_move (A := A) (h := h) (J1 := []) (Y := Y) (M := M) (J2 := J2) (X := []) (B := B) (v := v) hx hb
    show fwdBuf t 0 x b (fwdState A h [] Y M J2 [v] B) = _
    unfold fwdBuf
    simp only [Bind.bind, Except.bind]
    rw [m1]
    simp only []
    rw [m2]
    simp only []
    rw [m3]
    simp
  | [], v, v' :: X, J1, J2, A, h, x, b, hX, hx, hb, hG, hu => by
    refine ⟨fun h => (by cases h), fun _ => ?_⟩
    cases J1 with
    | nil => simp at hX
    | cons j J1 =>
      obtain ⟨m1, m2, m3⟩ := fwd_move (A := A) (h := h) (J1 := j :: J1) (Y := Y) (M := M) (J2 := J2) (X := v' :: X) (B := B) (v := v) hx hb
      refine ⟨j, J1, J2 ++ [j], ?_, by simp at hX ⊢; omega, by simp at hb ⊢; omega, ?_⟩
      · rw [← List.append_assoc]
        exact List.perm_append_comm
      · show fwdBuf t (X.length + 1) x b (fwdState A h (j :: J1) Y M J2 (v :: v' :: X) B) = _
        unfold fwdBuf
        simp only [Bind.bind, Except.bind]
        rw [m1]
        simp only []
        rw [m2]
        simp only []
        have e1 : fwdState A v (j :: J1) Y M J2 (v :: v' :: X) B = (A ++ [v]) ++ j :: (J1 ++ (Y ++ (M ++ (J2 ++ ((v :: v' :: X) ++ B))))) := by unfold fwdState; simp
        have r1 : rd (fwdState A v (j :: J1) Y M J2 (v :: v' :: X) B) (x + 1) = .ok j := by rw [e1, rd_mid (by simp; omega)]
        rw [r1]
        simp only []
        rw [m3]
        simp only []
        have e2 : A ++ v :: (j :: J1 ++ (Y ++ (M ++ (J2 ++ j :: (v' :: X ++ B))))) = (A ++ v :: (j :: J1 ++ (Y ++ (M ++ (J2 ++ [j]))))) ++ v' :: (X ++ B) := by simp
        rw [e2, rd_mid (by simp at hb ⊢; omega)]
        simp only []
        rw [if_neg (by have := hu v' rfl; omega)]
        unfold fwdState
        simp
  | g :: G, v, X, J1, J2, A, h, x, b, hX, hx, hb, hG, hu => by
    cases J1 with
    | nil => simp at hX
    | cons j J1 =>
      obtain ⟨m1, m2, m3⟩ := fwd_move (A := A) (h := h) (J1 := j :: J1) (Y := Y) (M := M) (J2 := J2) (X := g :: G ++ X) (B := B) (v := v) hx hb
      have step : fwdBuf t ((v :: g :: G ++ X).length - 1) x b (fwdState A h (j :: J1) Y M J2 (v :: g :: G ++ X) B) =
          fwdBuf t ((g :: G ++ X).length - 1) (x + 1) (b + 1) (fwdState (A ++ [v]) j J1 Y M (J2 ++ [j]) (g :: G ++ X) B) := by
        show fwdBuf t ((G ++ X).length + 1) x b (fwdState A h (j :: J1) Y M J2 (v :: (g :: G ++ X)) B) = _
        conv => lhs; unfold fwdBuf
        simp only [Bind.bind, Except.bind]
        rw [m1]
        simp only []
        rw [m2]
        simp only []
        have e1 : fwdState A v (j :: J1) Y M J2 (v :: (g :: G ++ X)) B = (A ++ [v]) ++ j :: (J1 ++ (Y ++ (M ++ (J2 ++ (v :: (g :: G ++ X) ++ B))))) := by unfold fwdState; simp
        have r1 : rd (fwdState A v (j :: J1) Y M J2 (v :: (g :: G ++ X)) B) (x + 1) = .ok j := by rw [e1, rd_mid (by simp; omega)]
        rw [r1]
        simp only []
        rw [m3]
        simp only []
        have e2 : A ++ v :: (j :: J1 ++ (Y ++ (M ++ (J2 ++ j :: (g :: G ++ X ++ B))))) = (A ++ v :: (j :: J1 ++ (Y ++ (M ++ (J2 ++ [j]))))) ++ g :: (G ++ X ++ B) := by simp
        have r2 : rd (A ++ v :: (j :: J1 ++ (Y ++ (M ++ (J2 ++ j :: (g :: G ++ X ++ B)))))) (b + 1) = .ok g := by rw [e2, rd_mid (by simp at hb ⊢; omega)]
        rw [r2]
        simp only []
        rw [if_pos (hG g (List.mem_cons_self ..))]
        have e3 : A ++ v :: (j :: J1 ++ (Y ++ (M ++ (J2 ++ j :: (g :: G ++ X ++ B))))) = fwdState (A ++ [v]) j J1 Y M (J2 ++ [j]) (g :: G ++ X) B := by unfold fwdState; simp
        rw [e3]
        rfl
      obtain ⟨i1, i2⟩ := fwdBuf_ok (t := t) (Y := Y) (M := M) (B := B) G g X J1 (J2 ++ [j]) (A ++ [v]) j (x + 1) (b + 1) (by simp at hX ⊢; omega) (by simp; omega) (by simp at hb ⊢; omega)
        (fun y hy => hG y (List.mem_cons_of_mem _ hy)) hu
      have hp : (J1 ++ (J2 ++ [j])).Perm (j :: J1 ++ J2) := by
        rw [← List.append_assoc]
        exact List.perm_append_comm
      rw [step]
      refine ⟨fun hn => ?_, fun hn => ?_⟩
      · obtain ⟨K, k1, k2⟩ := i1 hn
        refine ⟨K, k1.trans (hp.cons _), ?_⟩
        rw [k2]
        simp
      · obtain ⟨h', J1', J2', k1, k2, k3, k4⟩ := i2 hn
        refine ⟨h', J1', J2', k1.trans hp, k2, by simp at k3 ⊢; omega, ?_⟩
        rw [k4, List.length_cons, show x + 1 + (G.length + 1) = x + (G.length + 1 + 1) by omega, show b + 1 + (G.length + 1) = b + (G.length + 1 + 1) by omega]
        simp

/-- An element `v` at index `c` of the right part goes to the free place. -/
theorem fwd_moveArr {A : List Int} {h : Int} {J1 Y R : List Int} {v : Int} {x c : Nat} (hx : x = A.length) (hc : c = A.length + 1 + J1.length) :
    ∃ h' J1', J1'.Perm J1 ∧ rd (A ++ h :: (J1 ++ (v :: Y ++ R))) c = .ok v ∧ ∃ a1 w, wr (A ++ h :: (J1 ++ (v :: Y ++ R))) x v = .ok a1 ∧ rd a1 (x + 1) = .ok w ∧
      wr a1 c w = .ok ((A ++ [v]) ++ h' :: (J1' ++ (Y ++ R))) := by
  have e1 : ∀ g w, A ++ g :: (J1 ++ (w :: Y ++ R)) = (A ++ g :: J1) ++ w :: (Y ++ R) := fun g w => by simp
  have hl : ∀ g : Int, c = (A ++ g :: J1).length := fun g => by simp; omega
  cases J1 with
  | nil =>
    refine ⟨v, [], .refl _, by rw [e1, rd_mid (hl h)], A ++ v :: ([] ++ (v :: Y ++ R)), v, wr_mid hx, ?_, ?_⟩
    · rw [e1, rd_mid (by simp; omega)]
    · rw [e1, wr_mid (hl v)]
      simp
  | cons j J1 =>
    refine ⟨j, J1 ++ [j], List.perm_append_comm.trans (by simp), by rw [e1, rd_mid (hl h)], A ++ v :: (j :: J1 ++ (v :: Y ++ R)), j, wr_mid hx, ?_, ?_⟩
    · have : A ++ v :: (j :: J1 ++ (v :: Y ++ R)) = (A ++ [v]) ++ j :: (J1 ++ (v :: Y ++ R)) := by simp
      rw [this, rd_mid (by simp; omega)]
    · rw [e1, wr_mid (hl v)]
      simp

theorem fwdArr_ok {t : Int} {M J2 X B : List Int} : ∀ (G : List Int) (v : Int) (Y J1 A : List Int) (h : Int) (x b c : Nat), X.length = J1.length + 1 → x = A.length →
    c = A.length + 1 + J1.length → b = c + (v :: G ++ Y).length + M.length + J2.length → (∀ g, g ∈ G → g < 0) → (∀ u, Y.head? = some u → 0 ≤ u) →
    (Y = [] → ∃ K, K.Perm (t :: (J1 ++ J2)) ∧ fwdArr t (X.length - 1) b ((v :: G ++ Y).length - 1) x c (fwdState A h J1 (v :: G ++ Y) M J2 X B) =
      .ok (none, A ++ (v :: G ++ (X ++ (M ++ (K ++ B)))))) ∧
    (Y ≠ [] → ∃ h' J1', J1'.Perm J1 ∧ fwdArr t (X.length - 1) b ((v :: G ++ Y).length - 1) x c (fwdState A h J1 (v :: G ++ Y) M J2 X B) =
        .ok (some (x + (G.length + 1), c + (G.length + 1)), fwdState (A ++ v :: G) h' J1' Y M J2 X B))
  | [], v, [], J1, A, h, x, b, c, hX, hx, hc, hb, hG, hu => by
    refine ⟨fun _ => ?_, fun h => absurd rfl h⟩
    obtain ⟨h', J1', p1, m1, a1, w, m2, m3, m4⟩ := fwd_moveArr (A := A) (h := h) (J1 := J1) (Y := []) (R := M ++ (J2 ++ (X ++ B))) (v := v) hx hc
    obtain ⟨K, k1, k2⟩ := fwdTail_ok (t := t) (M := M) (B := B) X J1' J2 (A ++ [v]) h' (x + 1) b (by rw [p1.length_eq]; omega) (by simp; omega)
      (by rw [p1.length_eq]; simp at hb ⊢; omega)
    refine ⟨K, k1.trans ((p1.append_right _).cons _), ?_⟩
    show fwdArr t (X.length - 1) b 0 x c (A ++ h :: (J1 ++ ([v] ++ (M ++ (J2 ++ (X ++ B)))))) = _
    unfold fwdArr
    simp only [Bind.bind, Except.bind]
    rw [m1]
    simp only []
    rw [m2]
    simp only []
    rw [m3]
    simp only []
    rw [m4]
    simp only []
    have e1 : A ++ [v] ++ h' :: (J1' ++ ([] ++ (M ++ (J2 ++ (X ++ B))))) = fwdState (A ++ [v]) h' J1' [] M J2 X B := rfl
    rw [e1, k2]
    simp
  | [], v, u :: Y, J1, A, h, x, b, c, hX, hx, hc, hb, hG, hu => by
    refine ⟨fun h => (by cases h), fun _ => ?_⟩
    obtain ⟨h', J1', p1, m1, a1, w, m2, m3, m4⟩ := fwd_moveArr (A := A) (h := h) (J1 := J1) (Y := u :: Y) (R := M ++ (J2 ++ (X ++ B))) (v := v) hx hc
    refine ⟨h', J1', p1, ?_⟩
    show fwdArr t (X.length - 1) b (Y.length + 1) x c (A ++ h :: (J1 ++ (v :: u :: Y ++ (M ++ (J2 ++ (X ++ B)))))) = _
    unfold fwdArr
    simp only [Bind.bind, Except.bind]
    rw [m1]
    simp only []
    rw [m2]
    simp only []
    rw [m3]
    simp only []
    rw [m4]
    simp only []
    have e1 : A ++ [v] ++ h' :: (J1' ++ (u :: Y ++ (M ++ (J2 ++ (X ++ B))))) = (A ++ [v] ++ h' :: J1') ++ u :: (Y ++ (M ++ (J2 ++ (X ++ B)))) := by simp
    rw [e1, rd_mid (by simp [p1.length_eq]; omega)]
    simp only []
    rw [if_neg (by have := hu u rfl; omega)]
    unfold fwdState
    simp
  | g :: G, v, Y, J1, A, h, x, b, c, hX, hx, hc, hb, hG, hu => by
    obtain ⟨h', J1', p1, m1, a1, w, m2, m3, m4⟩ := fwd_moveArr (A := A) (h := h) (J1 := J1) (Y := g :: G ++ Y) (R := M ++ (J2 ++ (X ++ B))) (v := v) hx hc
    have step : fwdArr t (X.length - 1) b ((v :: g :: G ++ Y).length - 1) x c (fwdState A h J1 (v :: g :: G ++ Y) M J2 X B) =
        fwdArr t (X.length - 1) b ((g :: G ++ Y).length - 1) (x + 1) (c + 1) (fwdState (A ++ [v]) h' J1' (g :: G ++ Y) M J2 X B) := by
      show fwdArr t (X.length - 1) b ((G ++ Y).length + 1) x c (A ++ h :: (J1 ++ (v :: (g :: G ++ Y) ++ (M ++ (J2 ++ (X ++ B)))))) = _
      conv => lhs; unfold fwdArr
      simp only [Bind.bind, Except.bind]
      rw [m1]
      simp only []
      rw [m2]
      simp only []
      rw [m3]
      simp only []
      rw [m4]
      simp only []
      have e1 : A ++ [v] ++ h' :: (J1' ++ (g :: G ++ Y ++ (M ++ (J2 ++ (X ++ B))))) = (A ++ [v] ++ h' :: J1') ++ g :: (G ++ Y ++ (M ++ (J2 ++ (X ++ B)))) := by simp
      have r1 : rd (A ++ [v] ++ h' :: (J1' ++ (g :: G ++ Y ++ (M ++ (J2 ++ (X ++ B)))))) (c + 1) = .ok g := by rw [e1, rd_mid (by simp [p1.length_eq]; omega)]
      rw [r1]
      simp only []
      rw [if_pos (hG g (List.mem_cons_self ..))]
      rfl
    obtain ⟨i1, i2⟩ := fwdArr_ok (t := t) (M := M) (J2 := J2) (X := X) (B := B) G g Y J1' (A ++ [v]) h' (x + 1) b (c + 1) (by rw [p1.length_eq]; omega) (by simp; omega)
      (by rw [p1.length_eq]; simp; omega) (by simp at hb ⊢; omega) (fun y hy => hG y (List.mem_cons_of_mem _ hy)) hu
    rw [step]
    refine ⟨fun hn => ?_, fun hn => ?_⟩
    · obtain ⟨K, k1, k2⟩ := i1 hn
      refine ⟨K, k1.trans ((p1.append_right _).cons _), ?_⟩
      rw [k2]
      simp
    · obtain ⟨h'', J1'', k1, k2⟩ := i2 hn
      refine ⟨h'', J1'', k1.trans p1, ?_⟩
      rw [k2, List.length_cons, show x + 1 + (G.length + 1) = x + (G.length + 1 + 1) by omega, show c + 1 + (G.length + 1) = c + (G.length + 1 + 1) by omega]
      simp

section
variable {e : SsText} {P : Nat → Nat} {m : Nat}

theorem Srt.sorted {k : Nat → List Nat} {l : List Nat} (h : Srt k l) : Sorted k l (marks k l) := ⟨l, .refl _, h, rfl⟩

theorem map_inv_neg {g : List Nat} : ∀ x, x ∈ g.map (fun s : Nat => inv s) → x < 0 := fun x hx => by
  obtain ⟨s, _, rfl⟩ := List.mem_map.1 hx
  exact inv_neg s

theorem marks_head_nonneg {k : Nat → List Nat} {l : List Nat} : ∀ u, (marks k l).head? = some u → 0 ≤ u := fun u hu => by
  cases l with
  | nil => cases hu
  | cons r l =>
    injection hu with hu
    omega

theorem marks_nil {k : Nat → List Nat} {l : List Nat} : marks k l = [] ↔ l = [] := by
  rw [← List.length_eq_zero_iff, marks_length, List.length_eq_zero_iff]

theorem fwdLoop_ok (X : Pos e P m) {d bufend last : Nat} {t : Int} {M B : List Int} : ∀ (fuel : Nat) (lx ly : List Nat) (A : List Int) (h : Int) (J1 J2 : List Int) (x b c : Nat),
    lx ≠ [] → ly ≠ [] → Srt (key e P) lx → Srt (key e P) ly → Seg e P m d (lx ++ ly) → lx.length + ly.length ≤ fuel → lx.length = J1.length + 1 → x = A.length → c = A.length + 1 + J1.length →
    b = c + ly.length + M.length + J2.length → bufend = b + lx.length - 1 → last = c + ly.length →
    ∃ o K, Sorted (key e P) (lx ++ ly) o ∧ K.Perm (t :: (J1 ++ J2)) ∧
      fwdLoop e d bufend last t fuel x b c (fwdState A h J1 (marks (key e P) ly) M J2 (marks (key e P) lx) B) = .ok (A ++ (o ++ (M ++ (K ++ B))))
  | 0, lx, ly, A, h, J1, J2, x, b, c, nx, ny, sx, sy, hseg, hf, hJ, hx, hc, hb, hbe, hl => absurd (List.length_eq_zero_iff.1 (by omega)) nx
  | fuel + 1, [], ly, A, h, J1, J2, x, b, c, nx, ny, sx, sy, hseg, hf, hJ, hx, hc, hb, hbe, hl => absurd rfl nx
  | fuel + 1, lx, [], A, h, J1, J2, x, b, c, nx, ny, sx, sy, hseg, hf, hJ, hx, hc, hb, hbe, hl => absurd rfl ny
  | fuel + 1, r :: lx, s :: ly, A, h, J1, J2, x, b, c, nx, ny, sx, sy, hseg, hf, hJ, hx, hc, hb, hbe, hl => by
    obtain ⟨gx, lx', x1, x2, x3, x4, x5⟩ := firstGroup sx
    obtain ⟨gy, ly', y1, y2, y3, y4, y5⟩ := firstGroup sy
    have rb : getNo (fwdState A h J1 (marks (key e P) (s :: ly)) M J2 (marks (key e P) (r :: lx)) B) b = .ok r := by
      have e1 : fwdState A h J1 (marks (key e P) (s :: ly)) M J2 (marks (key e P) (r :: lx)) B =
          (A ++ h :: (J1 ++ (marks (key e P) (s :: ly) ++ (M ++ J2)))) ++ (r : Int) :: (marksFrom (key e P) r lx ++ B) := by
        show A ++ h :: (J1 ++ (marks (key e P) (s :: ly) ++ (M ++ (J2 ++ (r : Int) :: (marksFrom (key e P) r lx ++ B))))) = _
        simp
      rw [e1]
      exact getNo_mid (by simp [marks_length] at hb ⊢; omega)
    have rc : getNo (fwdState A h J1 (marks (key e P) (s :: ly)) M J2 (marks (key e P) (r :: lx)) B) c = .ok s := by
      have e1 : fwdState A h J1 (marks (key e P) (s :: ly)) M J2 (marks (key e P) (r :: lx)) B =
          (A ++ h :: J1) ++ (s : Int) :: (marksFrom (key e P) s ly ++ (M ++ (J2 ++ (marks (key e P) (r :: lx) ++ B)))) := by
        show A ++ h :: (J1 ++ (s : Int) :: (marksFrom (key e P) s ly ++ (M ++ (J2 ++ (marks (key e P) (r :: lx) ++ B))))) = _
        simp
      rw [e1]
      exact getNo_mid (by simp; omega)
    obtain ⟨q, hq, hqi⟩ := hseg.compare X (r := r) (s := s) (by simp) (by simp)
    have hlex : ∀ p, p ∈ r :: gx → key e P p = key e P r := fun p hp => by
      rcases List.mem_cons.1 hp with rfl | hp
      · rfl
      · exact x2 p hp
    have hley : ∀ p, p ∈ s :: gy → key e P p = key e P s := fun p hp => by
      rcases List.mem_cons.1 hp with rfl | hp
      · rfl
      · exact y2 p hp
    have hles : ∀ p, p ∈ s :: ly → ¬ Lex (key e P p) (key e P s) := fun p hp => by
      rcases List.mem_cons.1 hp with rfl | hp
      · exact Lex.irrefl _
      · exact (Srt.cons.1 sy).1 p hp
    have hler : ∀ p, p ∈ r :: lx → ¬ Lex (key e P p) (key e P r) := fun p hp => by
      rcases List.mem_cons.1 hp with rfl | hp
      · exact Lex.irrefl _
      · exact (Srt.cons.1 sx).1 p hp
    have lenx : lx.length = gx.length + lx'.length := by rw [x1]; simp
    have leny : ly.length = gy.length + ly'.length := by rw [y1]; simp
    have lx5 := marks_length (k := key e P) (r :: lx)
    have ly5 := marks_length (k := key e P) (s :: ly)
    simp only [List.length_cons] at hf hJ hb hbe hl lx5 ly5
    unfold fwdLoop
    simp only [Bind.bind, Except.bind]
    rw [rb]
    simp only []
    rw [rc]
    simp only []
    rw [hq]
    simp only []
    by_cases h1 : q < 0
    · rw [if_pos h1]
      have hlt := hqi.neg.1 h1
      obtain ⟨i1, i2⟩ := fwdBuf_ok (t := t) (Y := marks (key e P) (s :: ly)) (M := M) (B := B) (gx.map fun s : Nat => inv s) (r : Int) (marks (key e P) lx') J1 J2 A h x b
        (by simp [marks_length]; omega) hx (by rw [ly5]; omega) map_inv_neg marks_head_nonneg
      have e2 : (r : Int) :: gx.map (fun s : Nat => inv s) ++ marks (key e P) lx' = marks (key e P) (r :: lx) := by rw [x5]; rfl
      rw [e2, lx5, show lx.length + 1 - 1 = bufend - b by omega] at i1 i2
      by_cases hn : lx' = []
      · obtain ⟨K, k1, k2⟩ := i1 (marks_nil.2 hn)
        rw [k2]
        simp only []
        subst hn
        refine ⟨(r : Int) :: gx.map (fun s : Nat => inv s) ++ marks (key e P) (s :: ly), K, ?_, k1, by simp⟩
        rw [x1, List.append_nil]
        exact Sorted.append (Sorted.group x2) sy.sorted fun p hp p' hp' => by rw [hlex p hp]; exact lex_of_lt_le hlt (hles p' hp')
      · obtain ⟨h', J1', J2', k1, k2, k3, k4⟩ := i2 (mt marks_nil.1 hn)
        rw [k4]
        simp only []
        rw [marks_length] at k2
        obtain ⟨o, K, o1, o2, o3⟩ := fwdLoop_ok X (d := d) (bufend := bufend) (last := last) (t := t) (M := M) (B := B) fuel lx' (s :: ly) (A ++ (r : Int) :: gx.map fun s : Nat => inv s) h' J1' J2'
          (x + ((gx.map fun s : Nat => inv s).length + 1)) (b + ((gx.map fun s : Nat => inv s).length + 1)) c hn ny x4 sy
          (hseg.subset fun p hp => by
            rw [x1]
            rcases List.mem_append.1 hp with hp | hp
            · exact List.mem_append_left _ (List.mem_cons_of_mem _ (List.mem_append_right _ hp))
            · exact List.mem_append_right _ hp)
          (by simp; omega) k2 (by simp; omega) (by simp; omega) (by simp [marks_length] at k3 ⊢; omega) (by simp; omega) (by simp; omega)
        refine ⟨(r : Int) :: gx.map (fun s : Nat => inv s) ++ o, K, ?_, o2.trans (k1.cons _), ?_⟩
        · rw [x1, show r :: (gx ++ lx') ++ s :: ly = (r :: gx) ++ (lx' ++ s :: ly) by simp]
          refine Sorted.append (Sorted.group x2) o1 fun p hp p' hp' => ?_
          rw [hlex p hp]
          rcases List.mem_append.1 hp' with hp' | hp'
          · exact x3 p' hp'
          · exact lex_of_lt_le hlt (hles p' hp')
        · rw [o3]
          simp
    · rw [if_neg h1]
      by_cases h2 : 0 < q
      · rw [if_pos h2]
        have hlt := hqi.pos.1 h2
        obtain ⟨i1, i2⟩ := fwdArr_ok (t := t) (M := M) (J2 := J2) (X := marks (key e P) (r :: lx)) (B := B) (gy.map fun s : Nat => inv s) (s : Int) (marks (key e P) ly') J1 A h x b c
          (by rw [lx5]; omega) hx hc (by simp [marks_length]; omega) map_inv_neg marks_head_nonneg
        have e2 : (s : Int) :: gy.map (fun s : Nat => inv s) ++ marks (key e P) ly' = marks (key e P) (s :: ly) := by rw [y5]; rfl
        rw [e2, lx5, ly5, show lx.length + 1 - 1 = bufend - b by omega, show ly.length + 1 - 1 = last - c - 1 by omega] at i1 i2
        by_cases hn : ly' = []
        · obtain ⟨K, k1, k2⟩ := i1 (marks_nil.2 hn)
          rw [k2]
          simp only []
          subst hn
          refine ⟨(s : Int) :: gy.map (fun s : Nat => inv s) ++ marks (key e P) (r :: lx), K, ?_, k1, by simp⟩
          rw [y1, List.append_nil]
          refine Sorted.perm (Sorted.append (Sorted.group y2) sx.sorted fun p hp p' hp' => ?_) List.perm_append_comm
          rw [hley p hp]
          exact lex_of_lt_le hlt (hler p' hp')
        · obtain ⟨h', J1', k1, k2⟩ := i2 (mt marks_nil.1 hn)
          rw [k2]
          simp only []
          have hk1 := k1.length_eq
          obtain ⟨o, K, o1, o2, o3⟩ := fwdLoop_ok X (d := d) (bufend := bufend) (last := last) (t := t) (M := M) (B := B) fuel (r :: lx) ly' (A ++ (s : Int) :: gy.map fun s : Nat => inv s) h' J1' J2
            (x + ((gy.map fun s : Nat => inv s).length + 1)) b (c + ((gy.map fun s : Nat => inv s).length + 1)) nx hn sx y4
            (hseg.subset fun p hp => by
              rw [y1]
              rcases List.mem_append.1 hp with hp | hp
              · exact List.mem_append_left _ hp
              · exact List.mem_append_right _ (List.mem_cons_of_mem _ (List.mem_append_right _ hp)))
            (by simp; omega) (by simp; omega) (by simp; omega) (by simp; omega) (by simp; omega) (by simp; omega) (by simp; omega)
          refine ⟨(s : Int) :: gy.map (fun s : Nat => inv s) ++ o, K, ?_, o2.trans ((k1.append_right _).cons _), ?_⟩
          · have hp : ((s :: gy) ++ (r :: lx ++ ly')).Perm (r :: lx ++ s :: ly) := by
              rw [y1]
              refine List.Perm.trans ?_ (show ((r :: lx) ++ ((s :: gy) ++ ly')).Perm _ by simp)
              rw [← List.append_assoc, ← List.append_assoc]
              exact List.Perm.append_right _ List.perm_append_comm
            refine Sorted.perm (Sorted.append (Sorted.group y2) o1 fun p hp p' hp' => ?_) hp
            rw [hley p hp]
            rcases List.mem_append.1 hp' with hp' | hp'
            · exact lex_of_lt_le hlt (hler p' hp')
            · exact y3 p' hp'
          · rw [o3]
            simp
      · rw [if_neg h2]
        have heq : key e P r = key e P s := hqi.zero.1 (by omega)
        have e3 : invIf true c (fwdState A h J1 (marks (key e P) (s :: ly)) M J2 (marks (key e P) (r :: lx)) B) =
            .ok (fwdState A h J1 (inv s :: marksFrom (key e P) s ly) M J2 (marks (key e P) (r :: lx)) B) := by
          have e1 : ∀ w : Int, fwdState A h J1 (w :: marksFrom (key e P) s ly) M J2 (marks (key e P) (r :: lx)) B =
              (A ++ h :: J1) ++ w :: (marksFrom (key e P) s ly ++ (M ++ (J2 ++ (marks (key e P) (r :: lx) ++ B)))) := fun w => by
            unfold fwdState
            simp
          have e0 : marks (key e P) (s :: ly) = (s : Int) :: marksFrom (key e P) s ly := rfl
          rw [e0, e1, invIf_true (by simp; omega), e1]
        rw [e3]
        simp only []
        have hmf : marksFrom (key e P) s ly = gy.map (fun s : Nat => inv s) ++ marks (key e P) ly' := by
          have : (s : Int) :: marksFrom (key e P) s ly = (s : Int) :: (gy.map (fun s : Nat => inv s) ++ marks (key e P) ly') := y5
          injection this
        have hlf := marksFrom_length (k := key e P) ly s
        obtain ⟨i1, i2⟩ := fwdBuf_ok (t := t) (Y := inv s :: marksFrom (key e P) s ly) (M := M) (B := B) (gx.map fun s : Nat => inv s) (r : Int) (marks (key e P) lx') J1 J2 A h x b
          (by simp [marks_length]; omega) hx (by rw [List.length_cons, hlf]; omega) map_inv_neg marks_head_nonneg
        have e2 : (r : Int) :: gx.map (fun s : Nat => inv s) ++ marks (key e P) lx' = marks (key e P) (r :: lx) := by rw [x5]; rfl
        rw [e2, lx5, show lx.length + 1 - 1 = bufend - b by omega] at i1 i2
        have hgrp : ∀ p, p ∈ gx ++ s :: gy → key e P p = key e P r := fun p hp => by
          rcases List.mem_append.1 hp with hp | hp
          · exact x2 p hp
          · rw [hley p hp, heq]
        have hgrp' : ∀ p, p ∈ r :: (gx ++ s :: gy) → key e P p = key e P r := fun p hp => by
          rcases List.mem_cons.1 hp with rfl | hp
          · rfl
          · exact hgrp p hp
        by_cases hn : lx' = []
        · obtain ⟨K, k1, k2⟩ := i1 (marks_nil.2 hn)
          rw [k2]
          simp only []
          subst hn
          refine ⟨(r : Int) :: (gx ++ s :: gy).map (fun s : Nat => inv s) ++ marks (key e P) ly', K, ?_, k1, ?_⟩
          · rw [x1, y1, List.append_nil, show r :: gx ++ s :: (gy ++ ly') = (r :: (gx ++ s :: gy)) ++ ly' by simp]
            exact Sorted.append (Sorted.group hgrp) y4.sorted fun p hp p' hp' => by rw [hgrp' p hp, heq]; exact y3 p' hp'
          · rw [hmf]
            simp
        · obtain ⟨h', J1', J2', k1, k2, k3, k4⟩ := i2 (mt marks_nil.1 hn)
          rw [k4]
          simp only []
          rw [marks_length] at k2
          have hlx' := marks_length (k := key e P) lx'
          simp only [List.length_cons, hlf] at k3
          obtain ⟨j1, j2⟩ := fwdArr_ok (t := t) (M := M) (J2 := J2') (X := marks (key e P) lx') (B := B) (gy.map fun s : Nat => inv s) (inv s : Int) (marks (key e P) ly') J1'
            (A ++ (r : Int) :: gx.map fun s : Nat => inv s) h' (x + ((gx.map fun s : Nat => inv s).length + 1)) (b + ((gx.map fun s : Nat => inv s).length + 1)) c
            (by rw [hlx']; omega) (by simp; omega) (by simp at k3 ⊢; omega) (by simp [marks_length] at k3 ⊢; omega) map_inv_neg marks_head_nonneg
          have e4 : inv s :: gy.map (fun s : Nat => inv s) ++ marks (key e P) ly' = inv s :: marksFrom (key e P) s ly := by rw [hmf]; rfl
          rw [e4, hlx', List.length_cons, hlf, show lx'.length - 1 = bufend - (b + ((gx.map fun s : Nat => inv s).length + 1)) by simp; omega,
            show ly.length + 1 - 1 = last - c - 1 by omega] at j1 j2
          by_cases hm : ly' = []
          · obtain ⟨K, l1, l2⟩ := j1 (marks_nil.2 hm)
            rw [l2]
            simp only []
            subst hm
            refine ⟨(r : Int) :: (gx ++ s :: gy).map (fun s : Nat => inv s) ++ marks (key e P) lx', K, ?_, l1.trans (k1.cons _), by simp⟩
            have hp : ((r :: (gx ++ s :: gy)) ++ lx').Perm (r :: lx ++ s :: ly) := by
              rw [x1, y1]
              refine List.Perm.trans (show (r :: (gx ++ s :: gy) ++ lx').Perm ((r :: gx) ++ ((s :: gy) ++ lx')) by simp) (List.Perm.trans (List.Perm.append_left _ List.perm_append_comm) ?_)
              simp
            exact Sorted.perm (Sorted.append (Sorted.group hgrp) x4.sorted fun p hp p' hp' => by rw [hgrp' p hp]; exact x3 p' hp') hp
          · obtain ⟨h'', J1'', l1, l2⟩ := j2 (mt marks_nil.1 hm)
            rw [l2]
            simp only []
            have hl1 := l1.length_eq
            simp only [List.length_map] at k3
            obtain ⟨o, K, o1, o2, o3⟩ := fwdLoop_ok X (d := d) (bufend := bufend) (last := last) (t := t) (M := M) (B := B) fuel lx' ly'
              ((A ++ (r : Int) :: gx.map fun s : Nat => inv s) ++ (inv s : Int) :: gy.map fun s : Nat => inv s) h'' J1'' J2'
              (x + ((gx.map fun s : Nat => inv s).length + 1) + ((gy.map fun s : Nat => inv s).length + 1)) (b + ((gx.map fun s : Nat => inv s).length + 1))
              (c + ((gy.map fun s : Nat => inv s).length + 1)) hn hm x4 y4
              (hseg.subset fun p hp => by
                rw [x1, y1]
                rcases List.mem_append.1 hp with hp | hp
                · exact List.mem_append_left _ (List.mem_cons_of_mem _ (List.mem_append_right _ hp))
                · exact List.mem_append_right _ (List.mem_cons_of_mem _ (List.mem_append_right _ hp)))
              (by omega) (by omega) (by simp; omega) (by simp; omega) (by simp; omega) (by simp; omega) (by simp; omega)
            refine ⟨(r : Int) :: (gx ++ s :: gy).map (fun s : Nat => inv s) ++ o, K, ?_, o2.trans (((l1.append_right _).trans k1).cons _), ?_⟩
            · have hp : ((r :: (gx ++ s :: gy)) ++ (lx' ++ ly')).Perm (r :: lx ++ s :: ly) := by
                rw [x1, y1]
                refine List.Perm.trans (show (r :: (gx ++ s :: gy) ++ (lx' ++ ly')).Perm ((r :: gx) ++ ((s :: gy) ++ lx' ++ ly')) by simp)
                  (List.Perm.trans (List.Perm.append_left _ (List.Perm.append_right _ List.perm_append_comm)) ?_)
                simp
              refine Sorted.perm (Sorted.append (Sorted.group hgrp) o1 fun p hp p' hp' => ?_) hp
              rw [hgrp' p hp]
              rcases List.mem_append.1 hp' with hp' | hp'
              · exact x3 p' hp'
              · rw [heq]; exact y3 p' hp'
            · rw [o3]
              simp

/-- The right part need not be followed by the buffer. -/
theorem ssMergeforward_ok (X : Pos e P m) {d first middle last buf : Nat} {l1 l2 : List Nat} {A M J B : List Int} (h1 : l1 ≠ []) (h2 : l2 ≠ []) (hseg : Seg e P m d (l1 ++ l2))
    (s1 : Srt (key e P) l1) (s2 : Srt (key e P) l2) (hf : first = A.length) (hm : middle = first + l1.length) (hl : last = middle + l2.length) (hb : buf = last + M.length)
    (hJ : J.length = l1.length) :
    ∃ o K, Sorted (key e P) (l1 ++ l2) o ∧ K.Perm J ∧
      ssMergeforward e first middle last buf d (A ++ (marks (key e P) l1 ++ (marks (key e P) l2 ++ (M ++ (J ++ B))))) = .ok (A ++ (o ++ (M ++ (K ++ B)))) := by
  have hpos : l1.length ≠ 0 := fun h => h1 (List.length_eq_zero_iff.1 h)
  unfold ssMergeforward
  have hb1 := blockswap_back (marks (key e P) l1) J A (marks (key e P) l2 ++ M) B first buf (by rw [marks_length]; omega) hf (by simp [marks_length]; omega)
  rw [marks_length] at hb1
  have e1 : A ++ (marks (key e P) l1 ++ (marks (key e P) l2 ++ (M ++ (J ++ B)))) = A ++ (marks (key e P) l1 ++ ((marks (key e P) l2 ++ M) ++ (J ++ B))) := by simp
  rw [show middle - first = l1.length by omega, e1, hb1]
  simp only [Bind.bind, Except.bind]
  cases J with
  | nil => simp at hJ; omega
  | cons t J =>
    have r1 : rd (A ++ (t :: J ++ ((marks (key e P) l2 ++ M) ++ (marks (key e P) l1 ++ B)))) first = .ok t := by
      rw [List.cons_append, rd_mid hf]
    rw [r1]
    simp only []
    simp only [List.length_cons] at hJ
    obtain ⟨o, K, o1, o2, o3⟩ := fwdLoop_ok X (d := d) (bufend := buf + l1.length - 1) (last := last) (t := t) (M := M) (B := B) (last - first) l1 l2 A t J [] first buf middle h1 h2 s1 s2 hseg
      (by omega) (by omega) hf (by omega) (by simp; omega) rfl hl
    refine ⟨o, K, o1, o2.trans (by simp), ?_⟩
    rw [← o3]
    unfold fwdState
    simp

end

end Dss
end Detools
