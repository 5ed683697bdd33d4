import Verif.Proofs.SsFwd
/-
ss_mergebackward merges two sorted parts, and leaves a permutation of what was in the buffer.
-/
namespace Detools
namespace Dss
open Sais

/-- The array during the merge: what is left of the left part, `X`, `J1` and `J2` from the buffer, a
free place before what is done, and what is left of the right part, `Y`, which is in the buffer. -/
def bwdState (A X J1 : List Int) (h : Int) (D Y J2 B : List Int) : List Int := A ++ (X ++ (J1 ++ h :: (D ++ (Y ++ (J2 ++ B)))))

theorem bwd_rdBuf {A X J1 : List Int} {h : Int} {D Y J2 B : List Int} {v : Int} {b : Nat} (hb : b = A.length + X.length + J1.length + 1 + D.length + Y.length) :
    rd (bwdState A X J1 h D (Y ++ [v]) J2 B) b = .ok v := by
  have e1 : bwdState A X J1 h D (Y ++ [v]) J2 B = (A ++ (X ++ (J1 ++ h :: (D ++ Y)))) ++ v :: (J2 ++ B) := by unfold bwdState; simp
  rw [e1, rd_mid (by simp; omega)]

theorem bwd_rdArr {A X J1 : List Int} {h : Int} {D Y J2 B : List Int} {v : Int} {c : Nat} (hc : c = A.length + X.length) :
    rd (bwdState A (X ++ [v]) J1 h D Y J2 B) c = .ok v := by
  have e1 : bwdState A (X ++ [v]) J1 h D Y J2 B = (A ++ X) ++ v :: (J1 ++ h :: (D ++ (Y ++ (J2 ++ B)))) := by unfold bwdState; simp
  rw [e1, rd_mid (by simp; omega)]

theorem bwd_wrHole {A X J1 : List Int} {h w : Int} {D Y J2 B : List Int} {x : Nat} (hx : x = A.length + X.length + J1.length) :
    wr (bwdState A X J1 h D Y J2 B) x w = .ok (bwdState A X J1 w D Y J2 B) := by
  have e1 : ∀ g, bwdState A X J1 g D Y J2 B = (A ++ (X ++ J1)) ++ g :: (D ++ (Y ++ (J2 ++ B))) := fun g => by unfold bwdState; simp
  rw [e1, e1, wr_mid (by simp; omega)]

/-- An element from the buffer goes to the free place. -/
theorem bwd_moveBuf {A X J1 : List Int} {w : Int} {D Y J2 B : List Int} {v j : Int} {x b : Nat} (hx : x = A.length + X.length + (J1.length + 1))
    (hb : b = x + 1 + D.length + Y.length) :
    rd (bwdState A X (J1 ++ [j]) w D (Y ++ [v]) J2 B) (x - 1) = .ok j ∧
    wr (bwdState A X (J1 ++ [j]) w D (Y ++ [v]) J2 B) b j = .ok (bwdState A X J1 j (w :: D) Y (j :: J2) B) := by
  constructor
  · have e1 : bwdState A X (J1 ++ [j]) w D (Y ++ [v]) J2 B = (A ++ (X ++ J1)) ++ j :: w :: (D ++ ((Y ++ [v]) ++ (J2 ++ B))) := by unfold bwdState; simp
    rw [e1, rd_mid (by simp; omega)]
  · have e1 : bwdState A X (J1 ++ [j]) w D (Y ++ [v]) J2 B = (A ++ (X ++ (J1 ++ j :: w :: (D ++ Y)))) ++ v :: (J2 ++ B) := by unfold bwdState; simp
    rw [e1, wr_mid (by simp; omega)]
    unfold bwdState
    simp

/-- An element from the left part goes to the free place. -/
theorem bwd_moveArr {A X J1 : List Int} {D Y J2 B : List Int} {v : Int} {x c : Nat} (hx : x = A.length + (X.length + 1) + J1.length) (hc : c = A.length + X.length) :
    ∃ h' J1' w, J1'.Perm J1 ∧ rd (bwdState A (X ++ [v]) J1 v D Y J2 B) (x - 1) = .ok w ∧
    wr (bwdState A (X ++ [v]) J1 v D Y J2 B) c w = .ok (bwdState A X J1' h' (v :: D) Y J2 B) := by
  have e0 : bwdState A (X ++ [v]) J1 v D Y J2 B = (A ++ X) ++ v :: (J1 ++ v :: (D ++ (Y ++ (J2 ++ B)))) := by unfold bwdState; simp
  cases hJ : J1.reverse with
  | nil =>
    rw [List.reverse_eq_nil_iff.1 hJ] at hx e0 ⊢
    refine ⟨v, [], v, .refl _, ?_, ?_⟩
    · rw [e0, rd_mid (by simp at hx ⊢; omega)]
    · rw [e0, wr_mid (by simp; omega)]
      unfold bwdState
      simp
  | cons j r =>
    have hJ1 : J1 = r.reverse ++ [j] := by rw [← List.reverse_reverse J1, hJ, List.reverse_cons]
    rw [hJ1] at hx e0 ⊢
    refine ⟨j, j :: r.reverse, j, (List.perm_append_comm (l₁ := [j])), ?_, ?_⟩
    · have e1 : bwdState A (X ++ [v]) (r.reverse ++ [j]) v D Y J2 B = (A ++ (X ++ v :: r.reverse)) ++ j :: v :: (D ++ (Y ++ (J2 ++ B))) := by unfold bwdState; simp
      rw [e1, rd_mid (by simp at hx ⊢; omega)]
    · rw [e0, wr_mid (by simp; omega)]
      unfold bwdState
      simp

theorem bwdTail_ok {t : Int} {A B : List Int} : ∀ (n : Nat) (Y J1 J2 D : List Int) (h : Int) (x b : Nat), Y.length = n + 1 → J1.length = n → x = A.length + n →
    b = x + 1 + D.length + n →
    ∃ K, K.Perm (t :: (J1 ++ J2)) ∧ bwdTail t n x b (bwdState A [] J1 h D Y J2 B) = .ok (A ++ (Y ++ (D ++ (K ++ B))))
  | 0, Y, J1, J2, D, h, x, b, hY, hJ, hx, hb => by
    obtain ⟨Y, v, rfl, hY1⟩ := length_snoc hY
    rw [List.length_eq_zero_iff.1 hY1, List.length_eq_zero_iff.1 hJ]
    refine ⟨t :: J2, .refl _, ?_⟩
    unfold bwdTail
    simp only [Bind.bind, Except.bind]
    rw [bwd_rdBuf (by simp; omega)]
    simp only []
    rw [bwd_wrHole (by simp; omega)]
    simp only []
    have e1 : bwdState A [] [] v D ([] ++ [v]) J2 B = (A ++ v :: D) ++ v :: (J2 ++ B) := by unfold bwdState; simp
    rw [e1, wr_mid (by simp; omega)]
    simp
  | n + 1, Y, J1, J2, D, h, x, b, hY, hJ, hx, hb => by
    obtain ⟨Y, v, rfl, hY1⟩ := length_snoc hY
    obtain ⟨J1, j, rfl, hJ1⟩ := length_snoc hJ
    unfold bwdTail
    simp only [Bind.bind, Except.bind]
    rw [bwd_rdBuf (by simp; omega)]
    simp only []
    rw [bwd_wrHole (by simp; omega)]
    simp only []
    obtain ⟨m1, m2⟩ := bwd_moveBuf (A := A) (X := []) (J1 := J1) (w := v) (D := D) (Y := Y) (J2 := J2) (B := B) (v := v) (j := j) (x := x) (b := b) (by simp; omega) (by omega)
    rw [m1]
    simp only []
    rw [m2]
    simp only []
    obtain ⟨K, k1, k2⟩ := bwdTail_ok (t := t) (A := A) (B := B) n Y J1 (j :: J2) (v :: D) j (x - 1) (b - 1) hY1 hJ1 (by omega) (by simp; omega)
    refine ⟨K, k1.trans ?_, ?_⟩
    · simp
    · rw [k2]
      simp

theorem bwdNegBuf_ok {A X B Y0 : List Int} {u : Int} (hu : 0 ≤ u) : ∀ (n : Nat) (N J1 J2 D : List Int) (h : Int) (x b : Nat), N.length = n + 1 → n + 1 ≤ J1.length → (∀ y, y ∈ N → y < 0) →
    x = A.length + X.length + J1.length → b = x + 1 + D.length + Y0.length + (n + 1) →
    ∃ h' J1' J2', (J1' ++ J2').Perm (J1 ++ J2) ∧ J1'.length + (n + 1) = J1.length ∧
      bwdNeg x b (bwdState A X J1 h D (Y0 ++ [u] ++ N) J2 B) = .ok (x - (n + 1), b - (n + 1), bwdState A X J1' h' (N ++ D) (Y0 ++ [u]) J2' B)
  | n, N, J1, J2, D, h, x, b, hN, hJ, hneg, hx, hb => by
    obtain ⟨N, v, rfl, hN1⟩ := length_snoc hN
    obtain ⟨J1, j, rfl, hJ1⟩ := length_snoc (n := J1.length - 1) (l := J1) (by omega)
    obtain ⟨b, rfl⟩ : ∃ b', b = b' + 1 := ⟨b - 1, by omega⟩
    have hJl : (J1 ++ [j]).length = J1.length + 1 := by simp
    rw [hJl] at hJ hx
    simp only [bwdNeg, Bind.bind, Except.bind]
    have e1 : ∀ g, bwdState A X (J1 ++ [j]) g D (Y0 ++ [u] ++ (N ++ [v])) J2 B = bwdState A X (J1 ++ [j]) g D ((Y0 ++ [u] ++ N) ++ [v]) J2 B := fun g => by unfold bwdState; simp
    rw [e1, bwd_rdBuf (by simp; omega)]
    simp only []
    rw [bwd_wrHole (by simp; omega)]
    simp only []
    obtain ⟨m1, m2⟩ := bwd_moveBuf (A := A) (X := X) (J1 := J1) (w := v) (D := D) (Y := Y0 ++ [u] ++ N) (J2 := J2) (B := B) (v := v) (j := j) (x := x) (b := b + 1) (by omega) (by simp; omega)
    rw [m1]
    simp only []
    rw [m2]
    simp only []
    have hperm : (J1 ++ j :: J2).Perm (J1 ++ [j] ++ J2) := by simp
    cases n with
    | zero =>
      rw [List.length_eq_zero_iff.1 hN1, List.append_nil, bwd_rdBuf (by simp; omega)]
      simp only []
      rw [if_neg (by omega)]
      refine ⟨j, J1, j :: J2, hperm, by simp, ?_⟩
      simp
    | succ n =>
      obtain ⟨N', v', hN', hN2⟩ := length_snoc hN1
      have r1 : rd (bwdState A X J1 j (v :: D) (Y0 ++ [u] ++ N) (j :: J2) B) b = .ok v' := by
        rw [hN', ← List.append_assoc, bwd_rdBuf (by simp; omega)]
      rw [r1]
      simp only []
      rw [if_pos (hneg v' (by rw [hN']; simp))]
      obtain ⟨h', J1', J2', k1, k2, k3⟩ := bwdNegBuf_ok (A := A) (X := X) (B := B) (Y0 := Y0) hu n N J1 (j :: J2) (v :: D) j (x - 1) b hN1 (by omega)
        (fun y hy => hneg y (List.mem_append_left _ hy)) (by omega) (by simp; omega)
      refine ⟨h', J1', J2', k1.trans hperm, by simp; omega, ?_⟩
      rw [k3, show x - 1 - (n + 1) = x - (n + 1 + 1) by omega, show b - (n + 1) = b + 1 - (n + 1 + 1) by omega]
      simp

theorem bwdNegArr_ok {A Y J2 B X0 : List Int} {u : Int} (hu : 0 ≤ u) : ∀ (n : Nat) (N J1 D : List Int) (h : Int) (x c : Nat), N.length = n + 1 → (∀ y, y ∈ N → y < 0) →
    x = A.length + X0.length + 1 + (n + 1) + J1.length → c = A.length + X0.length + (n + 1) →
    ∃ h' J1', J1'.Perm J1 ∧
      bwdNeg x c (bwdState A (X0 ++ [u] ++ N) J1 h D Y J2 B) = .ok (x - (n + 1), c - (n + 1), bwdState A (X0 ++ [u]) J1' h' (N ++ D) Y J2 B)
  | n, N, J1, D, h, x, c, hN, hneg, hx, hc => by
    obtain ⟨N, v, rfl, hN1⟩ := length_snoc hN
    obtain ⟨c, rfl⟩ : ∃ c', c = c' + 1 := ⟨c - 1, by omega⟩
    simp only [bwdNeg, Bind.bind, Except.bind]
    rw [← List.append_assoc, bwd_rdArr (by simp; omega)]
    simp only []
    rw [bwd_wrHole (by simp; omega)]
    simp only []
    obtain ⟨h', J1', w, p1, m1, m2⟩ := bwd_moveArr (A := A) (X := X0 ++ [u] ++ N) (J1 := J1) (D := D) (Y := Y) (J2 := J2) (B := B) (v := v) (x := x) (c := c + 1) (by simp; omega) (by simp; omega)
    rw [m1]
    simp only []
    rw [m2]
    simp only []
    cases n with
    | zero =>
      rw [List.length_eq_zero_iff.1 hN1, List.append_nil, bwd_rdArr (by omega)]
      simp only []
      rw [if_neg (by omega)]
      refine ⟨h', J1', p1, ?_⟩
      simp
    | succ n =>
      obtain ⟨N', v', hN', hN2⟩ := length_snoc hN1
      have r1 : rd (bwdState A (X0 ++ [u] ++ N) J1' h' (v :: D) Y J2 B) c = .ok v' := by
        rw [hN', ← List.append_assoc, bwd_rdArr (by simp; omega)]
      rw [r1]
      simp only []
      rw [if_pos (hneg v' (by rw [hN']; simp))]
      obtain ⟨h'', J1'', k1, k2⟩ := bwdNegArr_ok (A := A) (Y := Y) (J2 := J2) (B := B) (X0 := X0) hu n N J1' (v :: D) h' (x - 1) c hN1
        (fun y hy => hneg y (List.mem_append_left _ hy)) (by rw [p1.length_eq]; omega) (by omega)
      refine ⟨h'', J1'', k1.trans p1, ?_⟩
      rw [k2, show x - 1 - (n + 1) = x - (n + 1 + 1) by omega, show c - (n + 1) = c + 1 - (n + 1 + 1) by omega]
      simp

theorem bwdNegIfBuf_ok {A X B Y0 : List Int} {u : Int} (hu : 0 ≤ u) {N J1 J2 D : List Int} {h : Int} {x b : Nat} (hJ : N.length ≤ J1.length) (hneg : ∀ y, y ∈ N → y < 0)
    (hx : x = A.length + X.length + J1.length) (hb : b = x + 1 + D.length + Y0.length + N.length) :
    ∃ h' J1' J2', (J1' ++ J2').Perm (J1 ++ J2) ∧ J1'.length + N.length = J1.length ∧
      bwdNegIf x b (bwdState A X J1 h D (Y0 ++ [u] ++ N) J2 B) = .ok (x - N.length, b - N.length, bwdState A X J1' h' (N ++ D) (Y0 ++ [u]) J2' B) := by
  unfold bwdNegIf
  simp only [Bind.bind, Except.bind]
  by_cases hn : N = []
  · subst hn
    rw [List.append_nil, bwd_rdBuf (by simp at hb; omega)]
    simp only []
    rw [if_neg (by omega)]
    exact ⟨h, J1, J2, .refl _, rfl, rfl⟩
  · have hl : N.length ≠ 0 := fun h => hn (List.length_eq_zero_iff.1 h)
    obtain ⟨N', v', hN', hN2⟩ := length_snoc (n := N.length - 1) (l := N) (by omega)
    have r1 : rd (bwdState A X J1 h D (Y0 ++ [u] ++ N) J2 B) b = .ok v' := by
      rw [hN', ← List.append_assoc, bwd_rdBuf (by simp; omega)]
    rw [r1]
    simp only []
    rw [if_pos (hneg v' (by rw [hN']; simp))]
    have := bwdNegBuf_ok (A := A) (X := X) (B := B) (Y0 := Y0) hu (N.length - 1) N J1 J2 D h x b (by omega) (by omega) hneg hx (by omega)
    rw [show N.length - 1 + 1 = N.length by omega] at this
    exact this

theorem bwdNegIfArr_ok {A Y J2 B X0 : List Int} {u : Int} (hu : 0 ≤ u) {N J1 D : List Int} {h : Int} {x c : Nat} (hneg : ∀ y, y ∈ N → y < 0)
    (hx : x = A.length + X0.length + 1 + N.length + J1.length) (hc : c = A.length + X0.length + N.length) :
    ∃ h' J1', J1'.Perm J1 ∧
      bwdNegIf x c (bwdState A (X0 ++ [u] ++ N) J1 h D Y J2 B) = .ok (x - N.length, c - N.length, bwdState A (X0 ++ [u]) J1' h' (N ++ D) Y J2 B) := by
  unfold bwdNegIf
  simp only [Bind.bind, Except.bind]
  by_cases hn : N = []
  · subst hn
    rw [List.append_nil, bwd_rdArr (by simp at hc; omega)]
    simp only []
    rw [if_neg (by omega)]
    exact ⟨h, J1, .refl _, rfl⟩
  · have hl : N.length ≠ 0 := fun h => hn (List.length_eq_zero_iff.1 h)
    obtain ⟨N', v', hN', hN2⟩ := length_snoc (n := N.length - 1) (l := N) (by omega)
    have r1 : rd (bwdState A (X0 ++ [u] ++ N) J1 h D Y J2 B) c = .ok v' := by
      rw [hN', ← List.append_assoc, bwd_rdArr (by simp; omega)]
    rw [r1]
    simp only []
    rw [if_pos (hneg v' (by rw [hN']; simp))]
    have := bwdNegArr_ok (A := A) (Y := Y) (J2 := J2) (B := B) (X0 := X0) hu (N.length - 1) N J1 D h x c (by omega) hneg (by omega) (by omega)
    rw [show N.length - 1 + 1 = N.length by omega] at this
    exact this

/-- The last group of what is in the buffer is moved. -/
theorem bwdBuf_ok {t : Int} {A X B Y0 : List Int} {u : Int} (cc : Bool) (hu : 0 ≤ u) {N J1 J2 D : List Int} {h : Int} {x b buf : Nat} (hY : (Y0 ++ [u] ++ N).length = J1.length + 1)
    (hneg : ∀ y, y ∈ N → y < 0) (hx : x = A.length + X.length + J1.length) (hb : b = x + 1 + D.length + Y0.length + N.length) (hbuf : buf = x + 1 + D.length) :
    (Y0 = [] → ∃ K, K.Perm (t :: (J1 ++ J2)) ∧ bwdBuf cc t buf x b (bwdState A X J1 h D (Y0 ++ [u] ++ N) J2 B) =
      .ok (none, A ++ (X ++ ((if cc then inv u else u) :: N ++ (D ++ (K ++ B)))))) ∧
    (Y0 ≠ [] → ∃ h' J1' J2', (J1' ++ J2').Perm (J1 ++ J2) ∧ Y0.length = J1'.length + 1 ∧ bwdBuf cc t buf x b (bwdState A X J1 h D (Y0 ++ [u] ++ N) J2 B) =
      .ok (some (x - (N.length + 1), b - (N.length + 1)), bwdState A X J1' h' ((if cc then inv u else u) :: N ++ D) Y0 J2' B)) := by
  simp only [List.length_append, List.length_cons, List.length_nil] at hY
  obtain ⟨h', J1', J2', p1, p2, p3⟩ := bwdNegIfBuf_ok (A := A) (X := X) (B := B) (Y0 := Y0) (h := h) (J2 := J2) hu (by omega) hneg hx hb
  unfold bwdBuf
  simp only [Bind.bind, Except.bind]
  rw [p3]
  simp only []
  rw [bwd_rdBuf (by simp; omega)]
  simp only []
  rw [bwd_wrHole (by omega)]
  simp only []
  constructor
  · intro h0
    subst h0
    rw [List.length_nil] at hb hY
    rw [if_pos (by omega)]
    have hJ : J1' = [] := List.length_eq_zero_iff.1 (by omega)
    subst hJ
    refine ⟨t :: J2', (List.Perm.cons _ p1), ?_⟩
    have e1 : bwdState A X [] (if cc = true then inv u else u) (N ++ D) ([] ++ [u]) J2' B = (A ++ (X ++ (if cc = true then inv u else u) :: (N ++ D))) ++ u :: (J2' ++ B) := by
      unfold bwdState; simp
    rw [e1, wr_mid (by rw [List.length_nil] at p2; simp; omega)]
    simp
  · intro h0
    have hl : Y0.length ≠ 0 := fun h => h0 (List.length_eq_zero_iff.1 h)
    rw [if_neg (by omega)]
    obtain ⟨J1'', j, rfl, hJ''⟩ := length_snoc (n := J1'.length - 1) (l := J1') (by omega)
    simp only [List.length_append, List.length_cons, List.length_nil] at p2 hJ''
    obtain ⟨m1, m2⟩ := bwd_moveBuf (A := A) (X := X) (J1 := J1'') (w := if cc = true then inv u else u) (D := N ++ D) (Y := Y0) (J2 := J2') (B := B) (v := u) (j := j)
      (x := x - N.length) (b := b - N.length) (by omega) (by simp; omega)
    rw [m1]
    simp only []
    rw [m2]
    refine ⟨j, J1'', j :: J2', ?_, by omega, ?_⟩
    · refine List.Perm.trans ?_ p1
      simp
    · rw [show x - N.length - 1 = x - (N.length + 1) by omega, show b - N.length - 1 = b - (N.length + 1) by omega]
      simp

/-- The last group of the left part is moved. -/
theorem bwdArr_ok {t : Int} {A Y J2 B X0 : List Int} {u : Int} (hu : 0 ≤ u) {N J1 D : List Int} {h : Int} {x b c first buf : Nat} (hneg : ∀ y, y ∈ N → y < 0)
    (hY : Y.length = J1.length + 1) (hx : x = A.length + X0.length + 1 + N.length + J1.length) (hc : c = A.length + X0.length + N.length) (hf : first = A.length) (hbuf : buf = x + 1 + D.length)
    (hb : b = buf + J1.length) :
    (X0 = [] → ∃ K, K.Perm (t :: (J1 ++ J2)) ∧ bwdArr t first buf b x c (bwdState A (X0 ++ [u] ++ N) J1 h D Y J2 B) = .ok (none, A ++ (Y ++ (u :: N ++ (D ++ (K ++ B)))))) ∧
    (X0 ≠ [] → ∃ h' J1', J1'.Perm J1 ∧ bwdArr t first buf b x c (bwdState A (X0 ++ [u] ++ N) J1 h D Y J2 B) =
      .ok (some (x - (N.length + 1), c - (N.length + 1)), bwdState A X0 J1' h' (u :: N ++ D) Y J2 B)) := by
  obtain ⟨h', J1', p1, p3⟩ := bwdNegIfArr_ok (A := A) (Y := Y) (J2 := J2) (B := B) (X0 := X0) (h := h) (D := D) hu hneg hx hc
  have p2 := p1.length_eq
  unfold bwdArr
  simp only [Bind.bind, Except.bind]
  rw [p3]
  simp only []
  rw [bwd_rdArr (by omega)]
  simp only []
  rw [bwd_wrHole (by simp; omega)]
  simp only []
  obtain ⟨h'', J1'', w, q1, m1, m2⟩ := bwd_moveArr (A := A) (X := X0) (J1 := J1') (D := N ++ D) (Y := Y) (J2 := J2) (B := B) (v := u) (x := x - N.length) (c := c - N.length) (by omega) (by omega)
  rw [m1]
  simp only []
  rw [m2]
  simp only []
  have q2 := q1.length_eq
  constructor
  · intro h0
    subst h0
    rw [List.length_nil] at hx hc
    rw [if_pos (by omega)]
    obtain ⟨K, k1, k2⟩ := bwdTail_ok (t := t) (A := A) (B := B) (b - buf) Y J1'' J2 (u :: (N ++ D)) h'' (x - N.length - 1) b (by omega) (by omega) (by omega) (by simp; omega)
    refine ⟨K, k1.trans (List.Perm.cons _ ((q1.trans p1).append_right _)), ?_⟩
    rw [k2]
    simp
  · intro h0
    have hl : X0.length ≠ 0 := fun h => h0 (List.length_eq_zero_iff.1 h)
    rw [if_neg (by omega)]
    refine ⟨h'', J1'', q1.trans p1, ?_⟩
    rw [show x - N.length - 1 = x - (N.length + 1) by omega, show c - N.length - 1 = c - (N.length + 1) by omega]
    simp

section
variable {e : SsText} {P : Nat → Nat} {m : Nat}

theorem bwdLoop_ok (X : Pos e P m) {d first buf : Nat} {t : Int} {A B : List Int} (hfirst : first = A.length) : ∀ (fuel : Nat) (lx ly : List Nat) (J1 J2 D : List Int) (h : Int) (x b c : Nat),
    lx ≠ [] → ly ≠ [] → Srt (key e P) lx → Srt (key e P) ly → Seg e P m d (lx ++ ly) → lx.length + ly.length ≤ fuel → ly.length = J1.length + 1 → x = A.length + lx.length + J1.length →
    c + 1 = A.length + lx.length → buf = x + 1 + D.length → b = buf + J1.length →
    ∃ o K, Sorted (key e P) (lx ++ ly) o ∧ K.Perm (t :: (J1 ++ J2)) ∧
      bwdLoop e d first buf t fuel x b c (bwdState A (marks (key e P) lx) J1 h D (marks (key e P) ly) J2 B) = .ok (A ++ (o ++ (D ++ (K ++ B))))
  | 0, lx, ly, J1, J2, D, h, x, b, c, nx, ny, sx, sy, hseg, hf, hJ, hx, hc, hbuf, hb => absurd (List.length_eq_zero_iff.1 (by omega)) nx
  | fuel + 1, lx, ly, J1, J2, D, h, x, b, c, nx, ny, sx, sy, hseg, hf, hJ, hx, hc, hbuf, hb => by
    obtain ⟨lx', u, gu, u1, u2, u3, u4, u5⟩ := lastGroup (k := key e P) lx.length lx rfl nx sx
    obtain ⟨ly', v, gv, v1, v2, v3, v4, v5⟩ := lastGroup (k := key e P) ly.length ly rfl ny sy
    have lenx : lx.length = lx'.length + (gu.length + 1) := by rw [u1]; simp
    have leny : ly.length = ly'.length + (gv.length + 1) := by rw [v1]; simp
    have hgu : ∀ p, p ∈ u :: gu → key e P p = key e P u := fun p hp => by
      rcases List.mem_cons.1 hp with rfl | hp
      · rfl
      · exact u2 p hp
    have hgv : ∀ p, p ∈ v :: gv → key e P p = key e P v := fun p hp => by
      rcases List.mem_cons.1 hp with rfl | hp
      · rfl
      · exact v2 p hp
    -- the numbers that are compared
    obtain ⟨p, hp⟩ : ∃ p, lx[lx.length - 1]? = some p := ⟨_, List.getElem?_eq_getElem (by omega)⟩
    obtain ⟨q, hq⟩ : ∃ q, ly[ly.length - 1]? = some q := ⟨_, List.getElem?_eq_getElem (by omega)⟩
    have hkp : key e P p = key e P u := by
      refine hgu p ?_
      rw [u1, List.getElem?_append_right (by simp)] at hp
      exact List.mem_of_getElem? hp
    have hkq : key e P q = key e P v := by
      refine hgv q ?_
      rw [v1, List.getElem?_append_right (by simp)] at hq
      exact List.mem_of_getElem? hq
    have rb : getIdx (bwdState A (marks (key e P) lx) J1 h D (marks (key e P) ly) J2 B) b = .ok q := by
      have e1 : bwdState A (marks (key e P) lx) J1 h D (marks (key e P) ly) J2 B = (A ++ (marks (key e P) lx ++ (J1 ++ h :: D))) ++ (marks (key e P) ly ++ (J2 ++ B)) := by unfold bwdState; simp
      rw [e1]
      exact getIdx_marks (j := ly.length - 1) (by simp [marks_length]; omega) hq
    have rc : getIdx (bwdState A (marks (key e P) lx) J1 h D (marks (key e P) ly) J2 B) c = .ok p :=
      getIdx_marks (j := lx.length - 1) (by omega) hp
    obtain ⟨r, hr, hri⟩ := hseg.compare X (r := q) (s := p) (List.mem_append_right _ (List.mem_of_getElem? hq)) (List.mem_append_left _ (List.mem_of_getElem? hp))
    rw [hkp, hkq] at hri
    have hlx : ∀ s, s ∈ lx → ¬ Lex (key e P u) (key e P s) := fun s hs => by
      rw [u1] at hs
      rcases List.mem_append.1 hs with hs | hs
      · exact (u3 s hs).asymm
      · rw [hgu s hs]; exact Lex.irrefl _
    have hly : ∀ s, s ∈ ly → ¬ Lex (key e P v) (key e P s) := fun s hs => by
      rw [v1] at hs
      rcases List.mem_append.1 hs with hs | hs
      · exact (v3 s hs).asymm
      · rw [hgv s hs]; exact Lex.irrefl _
    have llx := marks_length (k := key e P) lx
    have lly := marks_length (k := key e P) ly
    have llx' := marks_length (k := key e P) lx'
    have lly' := marks_length (k := key e P) ly'
    have eu : marks (key e P) lx = marks (key e P) lx' ++ [(u : Int)] ++ gu.map (fun s : Nat => inv s) := by rw [u5]; simp
    have ev : marks (key e P) ly = marks (key e P) ly' ++ [(v : Int)] ++ gv.map (fun s : Nat => inv s) := by rw [v5]; simp
    have lgu : (gu.map fun s : Nat => inv s).length = gu.length := List.length_map ..
    have lgv : (gv.map fun s : Nat => inv s).length = gv.length := List.length_map ..
    unfold bwdLoop
    simp only [Bind.bind, Except.bind]
    rw [rb]
    simp only []
    rw [rc]
    simp only []
    rw [hr]
    simp only []
    have hB := fun cc => bwdBuf_ok (t := t) (A := A) (X := marks (key e P) lx) (B := B) (Y0 := marks (key e P) ly') (u := (v : Int)) cc (by omega) (N := gv.map fun s : Nat => inv s) (J1 := J1) (J2 := J2) (D := D)
      (h := h) (x := x) (b := b) (buf := buf) (by rw [← ev, lly]; omega) map_inv_neg (by rw [llx]; omega) (by rw [lly', lgv]; omega) hbuf
    rw [lgv, ← ev] at hB
    by_cases h1 : 0 < r
    · rw [if_pos h1]
      have hlt := hri.pos.1 h1
      obtain ⟨i1, i2⟩ := hB false
      by_cases hn : ly' = []
      · obtain ⟨K, k1, k2⟩ := i1 (marks_nil.2 hn)
        rw [k2]
        simp only []
        subst hn
        refine ⟨marks (key e P) lx ++ (v : Int) :: gv.map (fun s : Nat => inv s), K, ?_, k1, by simp⟩
        rw [v1, List.nil_append]
        exact Sorted.append sx.sorted (Sorted.group v2) fun s hs s' hs' => by rw [hgv s' hs']; exact lex_of_le_lt (hlx s hs) hlt
      · obtain ⟨h', J1', J2', k1, k2, k3⟩ := i2 (mt marks_nil.1 hn)
        rw [k3]
        simp only []
        rw [lly'] at k2
        obtain ⟨o, K, o1, o2, o3⟩ := bwdLoop_ok X (d := d) (first := first) (buf := buf) (t := t) (A := A) (B := B) hfirst fuel lx ly' J1' J2' ((v : Int) :: gv.map (fun s : Nat => inv s) ++ D) h' (x - (gv.length + 1))
          (b - (gv.length + 1)) c nx hn sx v4
          (hseg.subset fun s hs => by
            rw [v1]
            rcases List.mem_append.1 hs with hs | hs
            · exact List.mem_append_left _ hs
            · exact List.mem_append_right _ (List.mem_append_left _ hs))
          (by omega) k2 (by omega) hc (by simp; omega) (by omega)
        refine ⟨o ++ (v : Int) :: gv.map (fun s : Nat => inv s), K, ?_, o2.trans (k1.cons _), ?_⟩
        · rw [v1, ← List.append_assoc]
          refine Sorted.append o1 (Sorted.group v2) fun s hs s' hs' => ?_
          rw [hgv s' hs']
          rcases List.mem_append.1 hs with hs | hs
          · exact lex_of_le_lt (hlx s hs) hlt
          · exact v3 s hs
        · have : (if false = true then inv (v : Int) else (v : Int)) = (v : Int) := if_neg (by decide)
          rw [this, o3]
          simp
    · rw [if_neg h1]
      by_cases h2 : r < 0
      · rw [if_pos h2]
        have hlt := hri.neg.1 h2
        obtain ⟨i1, i2⟩ := bwdArr_ok (t := t) (A := A) (Y := marks (key e P) ly) (J2 := J2) (B := B) (X0 := marks (key e P) lx') (u := (u : Int)) (by omega) (N := gu.map fun s : Nat => inv s) (J1 := J1) (D := D)
          (h := h) (x := x) (b := b) (c := c) (first := first) (buf := buf) map_inv_neg (by rw [lly]; omega) (by rw [llx', lgu]; omega) (by rw [llx', lgu]; omega) hfirst hbuf hb
        rw [← eu] at i1
        rw [lgu, ← eu] at i2
        by_cases hn : lx' = []
        · obtain ⟨K, k1, k2⟩ := i1 (marks_nil.2 hn)
          rw [k2]
          simp only []
          subst hn
          refine ⟨marks (key e P) ly ++ (u : Int) :: gu.map (fun s : Nat => inv s), K, ?_, k1, by simp⟩
          rw [u1, List.nil_append]
          exact Sorted.perm (Sorted.append sy.sorted (Sorted.group u2) fun s hs s' hs' => by rw [hgu s' hs']; exact lex_of_le_lt (hly s hs) hlt) List.perm_append_comm
        · obtain ⟨h', J1', k1, k3⟩ := i2 (mt marks_nil.1 hn)
          rw [k3]
          simp only []
          have k2 := k1.length_eq
          have hn0 : lx'.length ≠ 0 := fun h => hn (List.length_eq_zero_iff.1 h)
          obtain ⟨o, K, o1, o2, o3⟩ := bwdLoop_ok X (d := d) (first := first) (buf := buf) (t := t) (A := A) (B := B) hfirst fuel lx' ly J1' J2 ((u : Int) :: gu.map (fun s : Nat => inv s) ++ D) h' (x - (gu.length + 1))
            b (c - (gu.length + 1)) hn ny u4 sy
            (hseg.subset fun s hs => by
              rw [u1]
              rcases List.mem_append.1 hs with hs | hs
              · exact List.mem_append_left _ (List.mem_append_left _ hs)
              · exact List.mem_append_right _ hs)
            (by omega) (by omega) (by omega) (by omega) (by simp; omega) (by omega)
          refine ⟨o ++ (u : Int) :: gu.map (fun s : Nat => inv s), K, ?_, o2.trans ((k1.append_right _).cons _), ?_⟩
          · have hp : ((lx' ++ ly) ++ u :: gu).Perm (lx ++ ly) := by
              rw [u1, List.append_assoc, List.append_assoc]
              exact List.Perm.append_left _ List.perm_append_comm
            refine Sorted.perm (Sorted.append o1 (Sorted.group u2) fun s hs s' hs' => ?_) hp
            rw [hgu s' hs']
            rcases List.mem_append.1 hs with hs | hs
            · exact u3 s hs
            · exact lex_of_le_lt (hly s hs) hlt
          · rw [o3]
            simp
      · rw [if_neg h2]
        have heq : key e P v = key e P u := hri.zero.1 (by omega)
        have hgrp : ∀ s, s ∈ gu ++ v :: gv → key e P s = key e P u := fun s hs => by
          rcases List.mem_append.1 hs with hs | hs
          · exact u2 s hs
          · rw [hgv s hs, heq]
        have hgrp' : ∀ s, s ∈ u :: (gu ++ v :: gv) → key e P s = key e P u := fun s hs => by
          rcases List.mem_cons.1 hs with rfl | hs
          · rfl
          · exact hgrp s hs
        obtain ⟨i1, i2⟩ := hB true
        have hif : (if true = true then inv (v : Int) else (v : Int)) = inv (v : Int) := if_pos rfl
        rw [hif] at i1 i2
        by_cases hn : ly' = []
        · obtain ⟨K, k1, k2⟩ := i1 (marks_nil.2 hn)
          rw [k2]
          simp only []
          subst hn
          refine ⟨marks (key e P) lx' ++ (u : Int) :: (gu ++ v :: gv).map (fun s : Nat => inv s), K, ?_, k1, ?_⟩
          · rw [u1, v1, List.nil_append, List.append_assoc]
            exact Sorted.append u4.sorted (Sorted.group hgrp) fun s hs s' hs' => by rw [hgrp' s' hs']; exact u3 s hs
          · rw [u5]
            simp
        · obtain ⟨h', J1', J2', k1, k2, k3⟩ := i2 (mt marks_nil.1 hn)
          rw [k3]
          simp only []
          rw [lly'] at k2
          obtain ⟨j1, j2⟩ := bwdArr_ok (t := t) (A := A) (Y := marks (key e P) ly') (J2 := J2') (B := B) (X0 := marks (key e P) lx') (u := (u : Int)) (by omega) (N := gu.map fun s : Nat => inv s) (J1 := J1')
            (D := inv (v : Int) :: gv.map (fun s : Nat => inv s) ++ D) (h := h') (x := x - (gv.length + 1)) (b := b - (gv.length + 1)) (c := c) (first := first) (buf := buf) map_inv_neg (by rw [lly']; omega)
            (by rw [llx', lgu]; omega) (by rw [llx', lgu]; omega) hfirst (by simp; omega) (by omega)
          rw [← eu] at j1
          rw [lgu, ← eu] at j2
          by_cases hm : lx' = []
          · obtain ⟨K, l1, l2⟩ := j1 (marks_nil.2 hm)
            rw [l2]
            simp only []
            subst hm
            refine ⟨marks (key e P) ly' ++ (u : Int) :: (gu ++ v :: gv).map (fun s : Nat => inv s), K, ?_, l1.trans (k1.cons _), by simp⟩
            have hp : (ly' ++ u :: (gu ++ v :: gv)).Perm (lx ++ ly) := by
              rw [u1, v1, List.nil_append, show u :: (gu ++ v :: gv) = (u :: gu) ++ (v :: gv) from rfl, ← List.append_assoc, ← List.append_assoc]
              exact List.Perm.append_right _ List.perm_append_comm
            exact Sorted.perm (Sorted.append v4.sorted (Sorted.group hgrp) fun s hs s' hs' => by rw [hgrp' s' hs', ← heq]; exact v3 s hs) hp
          · obtain ⟨h'', J1'', l1, l3⟩ := j2 (mt marks_nil.1 hm)
            rw [l3]
            simp only []
            have l2 := l1.length_eq
            have hm0 : lx'.length ≠ 0 := fun h => hm (List.length_eq_zero_iff.1 h)
            obtain ⟨o, K, o1, o2, o3⟩ := bwdLoop_ok X (d := d) (first := first) (buf := buf) (t := t) (A := A) (B := B) hfirst fuel lx' ly' J1'' J2'
              ((u : Int) :: gu.map (fun s : Nat => inv s) ++ (inv (v : Int) :: gv.map (fun s : Nat => inv s) ++ D)) h'' (x - (gv.length + 1) - (gu.length + 1))
              (b - (gv.length + 1)) (c - (gu.length + 1)) hm hn u4 v4
              (hseg.subset fun s hs => by
                rw [u1, v1]
                rcases List.mem_append.1 hs with hs | hs
                · exact List.mem_append_left _ (List.mem_append_left _ hs)
                · exact List.mem_append_right _ (List.mem_append_left _ hs))
              (by omega) (by omega) (by omega) (by omega) (by simp; omega) (by omega)
            refine ⟨o ++ (u : Int) :: (gu ++ v :: gv).map (fun s : Nat => inv s), K, ?_, o2.trans (((l1.append_right _).trans k1).cons _), ?_⟩
            · have hp : ((lx' ++ ly') ++ u :: (gu ++ v :: gv)).Perm (lx ++ ly) := by
                rw [u1, v1, show u :: (gu ++ v :: gv) = (u :: gu) ++ (v :: gv) from rfl, List.append_assoc, List.append_assoc]
                refine List.Perm.append_left _ ?_
                rw [← List.append_assoc, ← List.append_assoc]
                exact List.Perm.append_right _ List.perm_append_comm
              refine Sorted.perm (Sorted.append o1 (Sorted.group hgrp) fun s hs s' hs' => ?_) hp
              rw [hgrp' s' hs']
              rcases List.mem_append.1 hs with hs | hs
              · exact u3 s hs
              · rw [← heq]; exact v3 s hs
            · rw [o3]
              simp

theorem ssMergebackward_ok (X : Pos e P m) {d first middle last buf : Nat} {l1 l2 : List Nat} {A M J B : List Int} (h1 : l1 ≠ []) (h2 : l2 ≠ []) (hseg : Seg e P m d (l1 ++ l2))
    (s1 : Srt (key e P) l1) (s2 : Srt (key e P) l2) (hf : first = A.length) (hm : middle = first + l1.length) (hl : last = middle + l2.length) (hb : buf = last + M.length)
    (hJ : J.length = l2.length) :
    ∃ o K, Sorted (key e P) (l1 ++ l2) o ∧ K.Perm J ∧
      ssMergebackward e first middle last buf d (A ++ (marks (key e P) l1 ++ (marks (key e P) l2 ++ (M ++ (J ++ B))))) = .ok (A ++ (o ++ (M ++ (K ++ B)))) := by
  have hpos : l2.length ≠ 0 := fun h => h2 (List.length_eq_zero_iff.1 h)
  have hpos1 : l1.length ≠ 0 := fun h => h1 (List.length_eq_zero_iff.1 h)
  unfold ssMergebackward
  have hb1 := blockswap_back (marks (key e P) l2) J (A ++ marks (key e P) l1) M B middle buf (by rw [marks_length]; omega) (by simp [marks_length]; omega) (by simp [marks_length]; omega)
  rw [marks_length] at hb1
  have e1 : A ++ (marks (key e P) l1 ++ (marks (key e P) l2 ++ (M ++ (J ++ B)))) = (A ++ marks (key e P) l1) ++ (marks (key e P) l2 ++ (M ++ (J ++ B))) := by simp
  rw [show last - middle = l2.length by omega, e1, hb1]
  simp only [Bind.bind, Except.bind]
  obtain ⟨J, t, rfl, hJ1⟩ := length_snoc (n := J.length - 1) (l := J) (by omega)
  simp only [List.length_append, List.length_cons, List.length_nil] at hJ hJ1
  have e2 : A ++ marks (key e P) l1 ++ (J ++ [t] ++ (M ++ (marks (key e P) l2 ++ B))) = bwdState A (marks (key e P) l1) J t M (marks (key e P) l2) [] B := by unfold bwdState; simp
  have r1 : rd (A ++ marks (key e P) l1 ++ (J ++ [t] ++ (M ++ (marks (key e P) l2 ++ B)))) (last - 1) = .ok t := by
    have e3 : A ++ marks (key e P) l1 ++ (J ++ [t] ++ (M ++ (marks (key e P) l2 ++ B))) = (A ++ (marks (key e P) l1 ++ J)) ++ t :: (M ++ (marks (key e P) l2 ++ B)) := by simp
    rw [e3, rd_mid (by simp [marks_length]; omega)]
  rw [r1]
  simp only []
  obtain ⟨o, K, o1, o2, o3⟩ := bwdLoop_ok X (d := d) (first := first) (buf := buf) (t := t) (A := A) (B := B) hf (last - first) l1 l2 J [] M t (last - 1) (buf + l2.length - 1) (middle - 1) h1 h2 s1 s2 hseg
    (by omega) (by omega) (by omega) (by omega) (by omega) (by omega)
  refine ⟨o, K, o1, o2.trans ?_, ?_⟩
  · rw [List.append_nil]
    exact (List.perm_append_comm (l₁ := [t]))
  · rw [e2, o3]

end

end Dss
end Detools
