import Verif.Proofs.TrHeap
/-
trsort: the marks of a sorted partition, the insertion sort, and the marks after the heap sort.
-/
namespace Detools
namespace Dss

namespace Tr
open Sais

/-- The numbers `l`, complemented if the key is that of the next, which is `nx` after the last. -/
def tm (k : Nat → Nat) (nx : Option Nat) : List Nat → List Int
  | [] => []
  | x :: l => (if ((l.head?.map k).or nx) = some (k x) then inv (x : Int) else (x : Int)) :: tm k nx l

theorem tm_length (k : Nat → Nat) (nx : Option Nat) : ∀ l, (tm k nx l).length = l.length
  | [] => rfl
  | _ :: l => by simp [tm, tm_length k nx l]

theorem tm_append (k : Nat → Nat) (nx : Option Nat) : ∀ P Q, tm k nx (P ++ Q) = tm k ((Q.head?.map k).or nx) P ++ tm k nx Q
  | [], Q => rfl
  | x :: P, Q => by
    simp only [List.cons_append, tm, tm_append k nx P Q]
    congr 1
    cases P with
    | nil => simp
    | cons y P => simp

theorem tm_one (k : Nat → Nat) (nx : Option Nat) (x : Nat) : tm k nx [x] = [if nx = some (k x) then inv (x : Int) else (x : Int)] := rfl

theorem tm_snoc (k : Nat → Nat) (nx : Option Nat) (P : List Nat) (x : Nat) :
    tm k nx (P ++ [x]) = tm k (some (k x)) P ++ [if nx = some (k x) then inv (x : Int) else (x : Int)] := by
  rw [tm_append, tm_one]
  simp

/-- The key of the next is another. -/
theorem tm_none (k : Nat → Nat) (c : Nat) (P : List Nat) (h : ∀ x, P.getLast? = some x → k x ≠ c) : tm k (some c) P = tm k none P := by
  rcases List.eq_nil_or_concat P with rfl | ⟨P, x, rfl⟩
  · rfl
  · rw [List.concat_eq_append] at *
    have := h x (by simp)
    rw [tm_snoc, tm_snoc, if_neg (by intro h; injection h with h; omega), if_neg (by intro h; cases h)]

theorem inv_neg (x : Nat) : inv (x : Int) < 0 := by unfold inv; omega

theorem insShift_ok {k : Nat → Nat} {A : List Int} {first : Nat} (hA : first = A.length) (x : Nat) : ∀ (n : Nat) (P : List Nat) (nx : Option Nat) (hole : Int) (Y : List Int),
    P.length = n →
    ∃ (P' Q : List Nat) (hole' : Int), P ++ [x] = P' ++ Q ∧ Q ≠ [] ∧ (∀ q, q ∈ Q → k q = k x) ∧ (∀ q, P'.getLast? = some q → k q ≠ k x) ∧
      insShift first (A.length + n + 1) (A ++ (tm k nx (P ++ [x]) ++ (hole :: Y))) =
        .ok (A.length + P'.length, A ++ (tm k none P' ++ (hole' :: (tm k nx Q ++ Y))))
  | n, P, nx, hole, Y, hn => by
    simp only [insShift, Bind.bind, Except.bind]
    rw [tm_snoc]
    generalize hmk : (if nx = some (k x) then inv (x : Int) else (x : Int)) = mk
    have e1 : A ++ (tm k (some (k x)) P ++ [mk] ++ (hole :: Y)) = (A ++ tm k (some (k x)) P) ++ mk :: (hole :: Y) := by simp
    have e2 : (A ++ tm k (some (k x)) P) ++ mk :: (hole :: Y) = ((A ++ tm k (some (k x)) P) ++ [mk]) ++ hole :: Y := by simp
    rw [e1, rd_mid (by simp [tm_length, hn])]
    simp only []
    rw [e2, wr_mid (by simp [tm_length, hn]; omega)]
    simp only []
    rcases List.eq_nil_or_concat P with rfl | ⟨P, y, rfl⟩
    · have : n = 0 := hn.symm
      subst this
      rw [if_neg (by omega)]
      refine ⟨[], [x], mk, rfl, by simp, fun q hq => by rw [List.mem_singleton.1 hq], fun _ h => (by cases h), ?_⟩
      rw [tm_one, hmk]
      simp [tm]
    · rw [List.concat_eq_append] at *
      have hn' : n = P.length + 1 := by rw [← hn]; simp
      rw [if_pos (by omega), tm_snoc]
      generalize hmy : (if some (k x) = some (k y) then inv (y : Int) else (y : Int)) = my
      have e3 : ((A ++ (tm k (some (k y)) P ++ [my])) ++ [mk]) ++ mk :: Y = (A ++ tm k (some (k y)) P) ++ my :: (mk :: (mk :: Y)) := by simp
      rw [e3, rd_mid (by simp [tm_length]; omega)]
      simp only []
      by_cases hxy : k x = k y
      · rw [if_pos (by rw [hxy])] at hmy
        rw [← hmy, if_pos (inv_neg y)]
        obtain ⟨P', Q, hole', g1, g2, g3, g4, g5⟩ := insShift_ok (k := k) hA y (n - 1) P (some (k x)) mk (mk :: Y) (by omega)
        have e4 : (A ++ tm k (some (k y)) P) ++ inv (y : Int) :: (mk :: (mk :: Y)) = A ++ (tm k (some (k x)) (P ++ [y]) ++ (mk :: (mk :: Y))) := by
          rw [tm_snoc, if_pos (by rw [hxy])]; simp
        rw [e4, show A.length + n = A.length + (n - 1) + 1 by omega, g5]
        refine ⟨P', Q ++ [x], hole', by rw [g1]; simp, by simp, ?_, fun q hq => by rw [hxy]; exact g4 q hq, ?_⟩
        · intro q hq
          rcases List.mem_append.1 hq with hq | hq
          · rw [g3 q hq, hxy]
          · rw [List.mem_singleton.1 hq]
        · rw [tm_snoc, hmk]
          simp
      · rw [if_neg (by intro h; injection h with h; exact hxy h)] at hmy
        rw [← hmy, if_neg (by omega)]
        refine ⟨P ++ [y], [x], mk, by simp, by simp, fun q hq => by rw [List.mem_singleton.1 hq], fun q hq => ?_, ?_⟩
        · simp at hq
          subst hq
          exact fun h => hxy h.symm
        · rw [tm_snoc, if_neg (by intro h; cases h), tm_one, hmk]
          simp
          omega
termination_by n => n

section
variable {e : List Nat} {m : Nat}

theorem insInner_ok (X : TPos e m) {d v : Nat} (hv : v + d < m) {A : List Int} {first : Nat} (hA : first = A.length) : ∀ (fuel : Nat) (P : List Nat) (hole : Int) (Y : List Int),
    P.length < fuel → Rd m d P → P ≠ [] →
    ∃ (P' Q : List Nat) (r hole' : Int), P = P' ++ Q ∧ (∀ q, q ∈ Q → ∃ z, z ∈ Q ∧ kc e d v < kc e d z ∧ kc e d z = kc e d q ∨ kc e d v < kc e d q) ∧
      (∀ q, P'.getLast? = some q → kc e d q ≤ kc e d v) ∧
      (∀ q, P'.getLast? = some q → (r = 0 ↔ kc e d q = kc e d v)) ∧ (P' = [] → r ≠ 0) ∧
      insInner e d first v fuel (A.length + P.length) (A ++ (tm (kc e d) none P ++ (hole :: Y))) =
        .ok (r, A.length + P'.length, A ++ (tm (kc e d) none P' ++ (hole' :: (tm (kc e d) none Q ++ Y))))
  | 0, P, hole, Y, h, _, _ => absurd h (by omega)
  | fuel + 1, P, hole, Y, h, hm, hne => by
    obtain ⟨P, x, rfl⟩ : ∃ ys v, P = ys ++ [v] := ⟨P.dropLast, P.getLast hne, (List.dropLast_concat_getLast _).symm⟩
    have hlen : (P ++ [x]).length = P.length + 1 := by simp
    simp only [insInner, Bind.bind, Except.bind]
    rw [rd_ch (by rw [X.len]; exact hv)]
    simp only []
    have e1 : A ++ (tm (kc e d) none (P ++ [x]) ++ (hole :: Y)) = (A ++ tm (kc e d) (some (kc e d x)) P) ++ (x : Int) :: (hole :: Y) := by
      rw [tm_snoc, if_neg (by intro h; cases h)]; simp
    rw [hlen, e1, keyAt_mid X (hm x (by simp)) (by simp [tm_length]), ← e1]
    simp only []
    by_cases hc : kc e d v < kc e d x
    · have hc' : ch e (v + d) < kc e d x := hc
      rw [if_pos hc']
      obtain ⟨P', Q, hole', g1, g2, g3, g4, g5⟩ := insShift_ok (k := kc e d) hA x P.length P none hole Y rfl
      rw [show A.length + (P.length + 1) = A.length + P.length + 1 by omega, g5]
      simp only []
      by_cases hP : P' = []
      · subst hP
        rw [if_pos (by simp; omega)]
        refine ⟨[], Q, (ch e (v + d) : Int) - (kc e d x : Int), hole', by rw [g1], fun q hq => ⟨q, .inr (by rw [g3 q hq]; exact hc)⟩, fun _ h => (by cases h), fun _ h => (by cases h), fun _ => by omega, rfl⟩
      · have hpos : 0 < P'.length := List.length_pos_iff.2 hP
        rw [if_neg (by omega)]
        have hl := congrArg List.length g1
        simp only [List.length_append, List.length_cons, List.length_nil] at hl
        have hQ : 0 < Q.length := List.length_pos_iff.2 g2
        rw [g1] at hm
        obtain ⟨P2, Q2, r, hole2, k1, k2, k3, k4, k5, k6⟩ := insInner_ok X hv hA fuel P' hole' (tm (kc e d) none Q ++ Y) (by simp at h; omega) hm.left hP
        rw [k6]
        refine ⟨P2, Q2 ++ Q, r, hole2, by rw [g1, k1]; simp, ?_, k3, k4, k5, ?_⟩
        · intro q hq
          rcases List.mem_append.1 hq with hq | hq
          · obtain ⟨z, hz⟩ := k2 q hq
            rcases hz with ⟨_, hz1, hz2⟩ | hz
            · exact ⟨q, .inr (by rw [← hz2]; exact hz1)⟩
            · exact ⟨q, .inr hz⟩
          · exact ⟨q, .inr (by rw [g3 q hq]; exact hc)⟩
        · rw [tm_append]
          have : tm (kc e d) ((Q.head?.map (kc e d)).or none) Q2 = tm (kc e d) none Q2 := by
            obtain ⟨q0, Q', rfl⟩ := List.exists_cons_of_ne_nil g2
            simp only [List.head?_cons, Option.map_some, Option.some_or]
            refine tm_none _ _ _ fun z hz => ?_
            rw [g3 q0 (List.mem_cons_self ..)]
            refine g4 z ?_
            rw [k1]
            simp [hz]
          rw [this]
          simp
    · have hc' : ¬ ch e (v + d) < kc e d x := hc
      rw [if_neg hc']
      refine ⟨P ++ [x], [], (ch e (v + d) : Int) - (kc e d x : Int), hole, by simp, fun _ h => (by cases h), fun q hq => ?_, fun q hq => ?_, fun h => (by simp at h), ?_⟩
      · simp at hq
        subst hq
        omega
      · simp at hq
        subst hq
        show (kc e d v : Int) - (kc e d x : Int) = 0 ↔ _
        omega
      · simp [tm]

theorem insStep_ok (X : TPos e m) {d v : Nat} {A B : List Int} {P : List Nat} (hv : v + d < m) (hm : Rd m d P) (hne : P ≠ []) (hs : SrtC e d P) :
    ∃ P' : List Nat, P'.Perm (P ++ [v]) ∧ SrtC e d P' ∧
      insStep e d A.length (A.length + P.length) (A ++ (tm (kc e d) none P ++ ((v : Int) :: B))) = .ok (A ++ (tm (kc e d) none P' ++ B)) := by
  obtain ⟨P', Q, r, hole, h1, h2, h3, h4, h5, h6⟩ := insInner_ok X hv (A := A) rfl (A.length + P.length + 1) P (v : Int) B (by omega) hm hne
  have hQ : ∀ q, q ∈ Q → kc e d v < kc e d q := fun q hq => by
    obtain ⟨z, ⟨_, hz, hz2⟩ | hz⟩ := h2 q hq
    · omega
    · exact hz
  unfold insStep
  have e1 : A ++ (tm (kc e d) none P ++ ((v : Int) :: B)) = (A ++ tm (kc e d) none P) ++ (v : Int) :: B := by simp
  rw [e1, getNo_mid (by simp [tm_length]), ← e1]
  simp only [Bind.bind, Except.bind]
  rw [h6]
  simp only []
  have hvQ : tm (kc e d) none (v :: Q) = (v : Int) :: tm (kc e d) none Q := by
    simp only [tm]
    rw [if_neg]
    cases Q with
    | nil => simp
    | cons q Q =>
      simp
      have := hQ q (List.mem_cons_self ..)
      omega
  refine ⟨P' ++ v :: Q, ?_, ?_, ?_⟩
  · rw [h1]
    simp only [List.append_assoc]
    exact List.Perm.append_left _ (List.perm_append_comm (l₁ := [v]) (l₂ := Q))
  · rw [h1] at hs
    unfold SrtC at hs ⊢
    rw [List.pairwise_append] at hs ⊢
    refine ⟨hs.1, List.pairwise_cons.2 ⟨fun q hq => Nat.le_of_lt (hQ q hq), hs.2.1⟩, ?_⟩
    have hP : ∀ a, a ∈ P' → kc e d a ≤ kc e d v := by
      intro a ha
      rcases List.eq_nil_or_concat P' with rfl | ⟨R, y, rfl⟩
      · cases ha
      · rw [List.concat_eq_append] at *
        have hy := h3 y (by simp)
        rcases List.mem_append.1 ha with h | h
        · have := (List.pairwise_append.1 hs.1).2.2 a h y (by simp)
          omega
        · rw [List.mem_singleton.1 h]
          exact hy
    intro a ha b hb
    rcases List.mem_cons.1 hb with rfl | hb
    · exact hP a ha
    · exact hs.2.2 a ha b hb
  · have e3 : tm (kc e d) none (P' ++ v :: Q) = tm (kc e d) (some (kc e d v)) P' ++ (v : Int) :: tm (kc e d) none Q := by
      rw [tm_append, hvQ]
      simp
    rw [e3]
    rcases List.eq_nil_or_concat P' with rfl | ⟨R, y, rfl⟩
    · rw [show invIf (decide (r = 0)) (A.length + ([] : List Nat).length - 1) = fun a => .ok a from by
        funext a; unfold invIf; rw [if_neg (by simp [h5 rfl])]]
      simp only [tm, List.nil_append]
      rw [wr_mid (by simp)]
      simp
    · rw [List.concat_eq_append] at *
      have hr := h4 y (by simp)
      by_cases h0 : r = 0
      · have hk := hr.1 h0
        unfold invIf
        rw [if_pos (by simp [h0])]
        have e4 : A ++ (tm (kc e d) none (R ++ [y]) ++ (hole :: (tm (kc e d) none Q ++ B))) = (A ++ tm (kc e d) (some (kc e d y)) R) ++ (y : Int) :: (hole :: (tm (kc e d) none Q ++ B)) := by
          rw [tm_snoc, if_neg (by intro h; cases h)]; simp
        rw [e4, rd_mid (by simp [tm_length])]
        simp only [Bind.bind, Except.bind]
        rw [wr_mid (by simp [tm_length])]
        simp only []
        have e5 : (A ++ tm (kc e d) (some (kc e d y)) R) ++ inv (y : Int) :: (hole :: (tm (kc e d) none Q ++ B)) =
            (A ++ (tm (kc e d) (some (kc e d y)) R ++ [inv (y : Int)])) ++ (hole :: (tm (kc e d) none Q ++ B)) := by simp
        rw [e5, wr_mid (by simp [tm_length]), tm_snoc, if_pos (by rw [hk])]
        simp
      · have hk : kc e d y ≠ kc e d v := fun h => h0 (hr.2 h)
        unfold invIf
        rw [if_neg (by simp [h0])]
        have e5 : A ++ (tm (kc e d) none (R ++ [y]) ++ (hole :: (tm (kc e d) none Q ++ B))) = (A ++ tm (kc e d) none (R ++ [y])) ++ (hole :: (tm (kc e d) none Q ++ B)) := by simp
        simp only []
        rw [e5, wr_mid (by simp [tm_length]), tm_none _ _ _ (fun z hz => by simp at hz; subst hz; exact hk)]
        simp

theorem insUp_ok (X : TPos e m) {d : Nat} {A B : List Int} : ∀ (R P : List Nat), Rd m d (P ++ R) → P ≠ [] → SrtC e d P →
    ∃ P' : List Nat, P'.Perm (P ++ R) ∧ SrtC e d P' ∧
      upLoop (insStep e d A.length) R.length (A.length + P.length) (A ++ (tm (kc e d) none P ++ (R.map Int.ofNat ++ B))) = .ok (A ++ (tm (kc e d) none P' ++ B))
  | [], P, _, _, hs => ⟨P, by simp, hs, by simp [upLoop]⟩
  | v :: R, P, hm, hne, hs => by
    obtain ⟨P1, h1, h2, h3⟩ := insStep_ok X (A := A) (B := R.map Int.ofNat ++ B) (hm v (by simp)) hm.left hne hs
    have hl := h1.length_eq
    simp only [List.length_append, List.length_cons, List.length_nil] at hl
    have hp : (P1 ++ R).Perm (P ++ v :: R) := (h1.append_right R).trans (by simp)
    obtain ⟨P', g1, g2, g3⟩ := insUp_ok X (A := A) (B := B) R P1 (hm.perm hp) (by intro h; rw [h] at hl; simp at hl) h2
    refine ⟨P', g1.trans hp, g2, ?_⟩
    simp only [List.length_cons, upLoop, Bind.bind, Except.bind, List.map_cons, List.cons_append]
    have : Int.ofNat v = (v : Int) := rfl
    rw [this, h3]
    simp only []
    rw [show A.length + P.length + 1 = A.length + P1.length by omega, g3]

/-- `tr_insertionsort`. -/
theorem trInsertionsort_ok (X : TPos e m) {d : Nat} {A B : List Int} {ws : List Nat} (hne : ws ≠ []) (hm : Rd m d ws) {first last : Nat} (hf : first = A.length) (hl : last = first + ws.length) :
    ∃ out : List Nat, out.Perm ws ∧ SrtC e d out ∧
      trInsertionsort e d first last (A ++ (ws.map Int.ofNat ++ B)) = .ok (A ++ (tm (kc e d) none out ++ B)) := by
  obtain ⟨w, ws, rfl⟩ := List.exists_cons_of_ne_nil hne
  obtain ⟨P', g1, g2, g3⟩ := insUp_ok X (A := A) (B := B) ws [w] hm (by simp) (by simp [SrtC])
  refine ⟨P', g1, g2, ?_⟩
  unfold trInsertionsort
  rw [hf, show last - (A.length + 1) = ws.length by simp at hl; omega]
  exact g3

/-! ### The marks after the heap sort -/

theorem markSame_ok (X : TPos e m) {d : Nat} {A : List Int} (x : Nat) : ∀ (n : Nat) (P : List Nat) (Y : List Int), P.length = n → Rd m d P →
    ∃ P' Q : List Nat, P = P' ++ Q ∧ (∀ q, q ∈ Q → kc e d q = x) ∧ (∀ q, P'.getLast? = some q → kc e d q ≠ x) ∧
      markSame e d A.length x n (A ++ (P.map Int.ofNat ++ Y)) = .ok (A.length + P'.length, A ++ (P'.map Int.ofNat ++ (tm (kc e d) (some x) Q ++ Y)))
  | 0, P, Y, hn, _ => by
    have : P = [] := List.length_eq_zero_iff.1 hn
    subst this
    exact ⟨[], [], rfl, fun _ h => (by cases h), fun _ h => (by cases h), by simp [markSame, tm]⟩
  | n + 1, P, Y, hn, hm => by
    obtain ⟨P, y, rfl⟩ : ∃ ys v, P = ys ++ [v] := ⟨P.dropLast, P.getLast (by intro h; rw [h] at hn; cases hn), (List.dropLast_concat_getLast _).symm⟩
    have hn' : P.length = n := by simpa using hn
    simp only [markSame, Bind.bind, Except.bind]
    have e1 : A ++ ((P ++ [y]).map Int.ofNat ++ Y) = (A ++ P.map Int.ofNat) ++ (y : Int) :: Y := by simp
    rw [e1, keyAt_mid X (hm y (by simp)) (by simp; omega)]
    simp only []
    by_cases h : kc e d y = x
    · rw [if_pos h, rd_mid (by simp; omega)]
      simp only []
      rw [wr_mid (by simp; omega)]
      simp only []
      obtain ⟨P', Q, g1, g2, g3, g4⟩ := markSame_ok X x n P (inv (y : Int) :: Y) hn' hm.left
      rw [show (A ++ P.map Int.ofNat) ++ inv (y : Int) :: Y = A ++ (P.map Int.ofNat ++ (inv (y : Int) :: Y)) by simp, g4]
      refine ⟨P', Q ++ [y], by rw [g1]; simp, all_snoc g2 h, g3, ?_⟩
      rw [tm_snoc, if_pos (by rw [h]), h]
      simp
    · rw [if_neg h]
      refine ⟨P ++ [y], [], by simp, fun _ h => (by cases h), fun q hq => by simp at hq; subst hq; exact h, ?_⟩
      simp [tm]
      omega

theorem markAll_ok (X : TPos e m) {d : Nat} {A B : List Int} : ∀ (fuel : Nat) (P Q : List Nat), P.length < fuel + 1 → 0 < fuel → Rd m d P →
    (∀ p q, P.getLast? = some p → Q.head? = some q → kc e d p ≠ kc e d q) →
    markAll e d A.length fuel (A.length + P.length) (A ++ (P.map Int.ofNat ++ (tm (kc e d) none Q ++ B))) = .ok (A ++ (tm (kc e d) none (P ++ Q) ++ B))
  | 0, P, Q, h, h0, _, _ => absurd h0 (by omega)
  | fuel + 1, P, Q, h, _, hm, hPQ => by
    simp only [markAll, Bind.bind, Except.bind]
    rcases List.eq_nil_or_concat P with rfl | ⟨P, y, rfl⟩
    · rw [if_neg (by simp)]
      simp
    · rw [List.concat_eq_append] at *
      have hyQ : tm (kc e d) none (y :: Q) = (y : Int) :: tm (kc e d) none Q := by
        simp only [tm]
        rw [if_neg]
        cases Q with
        | nil => simp
        | cons q Q =>
          have := hPQ y q (by simp) rfl
          simp
          omega
      by_cases hP : P = []
      · subst hP
        rw [if_neg (by simp)]
        rw [List.nil_append, List.singleton_append, hyQ]
        simp
      · have hpos : 0 < P.length := List.length_pos_iff.2 hP
        rw [if_pos (by simp; omega)]
        have e1 : A ++ ((P ++ [y]).map Int.ofNat ++ (tm (kc e d) none Q ++ B)) = (A ++ P.map Int.ofNat) ++ (y : Int) :: (tm (kc e d) none Q ++ B) := by simp
        rw [e1, keyAt_mid X (hm y (by simp)) (by simp), ← e1]
        simp only []
        obtain ⟨P', Q', g1, g2, g3, g4⟩ := markSame_ok X (A := A) (kc e d y) P.length P ((y : Int) :: (tm (kc e d) none Q ++ B)) rfl hm.left
        rw [show A.length + (P ++ [y]).length - 1 - A.length = P.length by simp]
        rw [show A ++ ((P ++ [y]).map Int.ofNat ++ (tm (kc e d) none Q ++ B)) = A ++ (P.map Int.ofNat ++ ((y : Int) :: (tm (kc e d) none Q ++ B))) by simp, g4]
        simp only []
        have e2 : A ++ (P'.map Int.ofNat ++ (tm (kc e d) (some (kc e d y)) Q' ++ ((y : Int) :: (tm (kc e d) none Q ++ B)))) =
            A ++ (P'.map Int.ofNat ++ (tm (kc e d) none (Q' ++ y :: Q) ++ B)) := by
          rw [tm_append, hyQ]
          simp
        have hl := congrArg List.length g1
        simp only [List.length_append] at hl
        have hm' := hm.left
        rw [g1] at hm'
        rw [e2, markAll_ok X fuel P' (Q' ++ y :: Q) (by simp at h; omega) (by simp at h; omega) hm'.left, g1]
        · simp
        · intro p q hp hq
          have hq' : kc e d q = kc e d y := by
            cases Q' with
            | nil => simp at hq; rw [hq]
            | cons z Q' =>
              simp at hq
              subst hq
              exact g2 _ (List.mem_cons_self ..)
          rw [hq']
          exact g3 p hp

end

end Tr

end Dss
end Detools
