import Verif.Proofs.SsSplit
/-
sssort: the heap sort, and the choice of a pivot.
-/
namespace Detools
namespace Dss
open Sais

section
variable {e : SsText} {P : Nat → Nat} {m : Nat}

/-! ### Elements by index -/

theorem arr_get {A B : List Int} {ws : List Nat} {i r : Nat} (h : ws[i]? = some r) : (A ++ (ws.map Int.ofNat ++ B))[A.length + i]? = some (r : Int) := by
  obtain ⟨hi, _⟩ := List.getElem?_eq_some_iff.1 h
  rw [List.getElem?_append_right (by omega), Nat.add_sub_cancel_left, List.getElem?_append_left (by simpa using hi), List.getElem?_map, h]
  rfl

theorem arr_rd {A B : List Int} {ws : List Nat} {i r : Nat} (h : ws[i]? = some r) : rd (A ++ (ws.map Int.ofNat ++ B)) (A.length + i) = .ok (r : Int) :=
  rd_ok (arr_get h)

theorem arr_wr {A B : List Int} {ws : List Nat} {i r : Nat} (h : i < ws.length) :
    wr (A ++ (ws.map Int.ofNat ++ B)) (A.length + i) (r : Int) = .ok (A ++ ((ws.set i r).map Int.ofNat ++ B)) := by
  rw [wr_ok _ (by simp; omega), List.set_append_right _ _ (by omega), Nat.add_sub_cancel_left, List.set_append_left _ _ (by simpa using h), List.map_set]
  rfl

theorem arr_key (X : Pos e P m) {A B : List Int} {ws : List Nat} {d i r : Nat} (h : ws[i]? = some r) (hm : Rd P m d ws) :
    keyAt e d (A ++ (ws.map Int.ofNat ++ B)) (A.length + i) = .ok (kc e P d r) :=
  X.keyAt (arr_get h) (hm r (List.mem_of_getElem? h)).1 (hm r (List.mem_of_getElem? h)).2

/-! ### The pivot -/

theorem keyGt_ok {d first last : Nat} {a : List Int} (hk : ∀ i, first ≤ i → i < last → ∃ c, keyAt e d a i = .ok c) {i j : Nat}
    (hi : first ≤ i ∧ i < last) (hj : first ≤ j ∧ j < last) : ∃ b, keyGt e d a i j = .ok b := by
  obtain ⟨x, hx⟩ := hk i hi.1 hi.2
  obtain ⟨y, hy⟩ := hk j hj.1 hj.2
  unfold keyGt
  rw [hx, hy]
  exact ⟨_, rfl⟩

theorem ssMedian3_ok {d first last : Nat} {a : List Int} (hk : ∀ i, first ≤ i → i < last → ∃ c, keyAt e d a i = .ok c) {v1 v2 v3 : Nat}
    (h1 : first ≤ v1 ∧ v1 < last) (h2 : first ≤ v2 ∧ v2 < last) (h3 : first ≤ v3 ∧ v3 < last) :
    ∃ v, ssMedian3 e d a v1 v2 v3 = .ok v ∧ first ≤ v ∧ v < last := by
  unfold ssMedian3
  obtain ⟨g, hg⟩ := keyGt_ok hk h1 h2
  rw [hg]
  simp only [Bind.bind, Except.bind]
  cases g with
  | true =>
    simp only [if_true]
    obtain ⟨g, hg⟩ := keyGt_ok hk h1 h3
    obtain ⟨g', hg'⟩ := keyGt_ok hk h2 h3
    rw [hg, hg']
    simp only []
    refine ⟨_, rfl, ?_⟩
    cases g <;> cases g' <;> assumption
  | false =>
    simp only [Bool.false_eq_true, if_false]
    obtain ⟨g, hg⟩ := keyGt_ok hk h2 h3
    obtain ⟨g', hg'⟩ := keyGt_ok hk h1 h3
    rw [hg, hg']
    simp only []
    refine ⟨_, rfl, ?_⟩
    cases g <;> cases g' <;> assumption

theorem ssMedian5_ok {d first last : Nat} {a : List Int} (hk : ∀ i, first ≤ i → i < last → ∃ c, keyAt e d a i = .ok c) {v1 v2 v3 v4 v5 : Nat}
    (h1 : first ≤ v1 ∧ v1 < last) (h2 : first ≤ v2 ∧ v2 < last) (h3 : first ≤ v3 ∧ v3 < last) (h4 : first ≤ v4 ∧ v4 < last) (h5 : first ≤ v5 ∧ v5 < last) :
    ∃ v, ssMedian5 e d a v1 v2 v3 v4 v5 = .ok v ∧ first ≤ v ∧ v < last := by
  unfold ssMedian5
  obtain ⟨g, hg⟩ := keyGt_ok hk h2 h3
  rw [hg]
  simp only [Bind.bind, Except.bind]
  obtain ⟨w2, w3, e1, i2, i3⟩ : ∃ w2 w3, (if g then (v3, v2) else (v2, v3)) = (w2, w3) ∧ (first ≤ w2 ∧ w2 < last) ∧ (first ≤ w3 ∧ w3 < last) := by
    cases g
    · exact ⟨_, _, rfl, h2, h3⟩
    · exact ⟨_, _, rfl, h3, h2⟩
  rw [e1]
  simp only []
  obtain ⟨g, hg⟩ := keyGt_ok hk h4 h5
  rw [hg]
  simp only []
  obtain ⟨w4, w5, e1, i4, i5⟩ : ∃ w2 w3, (if g then (v5, v4) else (v4, v5)) = (w2, w3) ∧ (first ≤ w2 ∧ w2 < last) ∧ (first ≤ w3 ∧ w3 < last) := by
    cases g
    · exact ⟨_, _, rfl, h4, h5⟩
    · exact ⟨_, _, rfl, h5, h4⟩
  rw [e1]
  simp only []
  obtain ⟨g, hg⟩ := keyGt_ok hk i2 i4
  rw [hg]
  simp only []
  obtain ⟨x4, x3, x5, e1, j4, j3, j5⟩ : ∃ x4 x3 x5, (if g then (w2, w5, w3) else (w4, w3, w5)) = (x4, x3, x5) ∧ (first ≤ x4 ∧ x4 < last) ∧ (first ≤ x3 ∧ x3 < last) ∧ (first ≤ x5 ∧ x5 < last) := by
    cases g
    · exact ⟨_, _, _, rfl, i4, i3, i5⟩
    · exact ⟨_, _, _, rfl, i2, i5, i3⟩
  rw [e1]
  simp only []
  obtain ⟨g, hg⟩ := keyGt_ok hk h1 j3
  rw [hg]
  simp only []
  obtain ⟨y1, y3, e1, k1, k3⟩ : ∃ w2 w3, (if g then (x3, v1) else (v1, x3)) = (w2, w3) ∧ (first ≤ w2 ∧ w2 < last) ∧ (first ≤ w3 ∧ w3 < last) := by
    cases g
    · exact ⟨_, _, rfl, h1, j3⟩
    · exact ⟨_, _, rfl, j3, h1⟩
  rw [e1]
  simp only []
  obtain ⟨g, hg⟩ := keyGt_ok hk k1 j4
  rw [hg]
  simp only []
  obtain ⟨z4, z3, e1, l4, l3⟩ : ∃ w2 w3, (if g then (y1, x5) else (x4, y3)) = (w2, w3) ∧ (first ≤ w2 ∧ w2 < last) ∧ (first ≤ w3 ∧ w3 < last) := by
    cases g
    · exact ⟨_, _, rfl, j4, k3⟩
    · exact ⟨_, _, rfl, k1, j5⟩
  rw [e1]
  simp only []
  obtain ⟨g, hg⟩ := keyGt_ok hk l3 l4
  rw [hg]
  refine ⟨_, rfl, ?_⟩
  cases g <;> assumption

theorem ssPivot_ok {d first last : Nat} {a : List Int} (hk : ∀ i, first ≤ i → i < last → ∃ c, keyAt e d a i = .ok c) (h : first < last) :
    ∃ v, ssPivot e d first last a = .ok v ∧ first ≤ v ∧ v < last := by
  unfold ssPivot
  simp only [Nat.shiftRight_eq_div_pow, Nat.shiftLeft_eq]
  by_cases h1 : last - first ≤ 512
  · rw [if_pos h1]
    by_cases h2 : last - first ≤ 32
    · rw [if_pos h2]
      exact ssMedian3_ok hk (by omega) (by omega) (by omega)
    · rw [if_neg h2]
      exact ssMedian5_ok hk (by omega) (by omega) (by omega) (by omega) (by omega)
  · rw [if_neg h1]
    obtain ⟨p, e1, h3⟩ := ssMedian3_ok hk (v1 := first) (v2 := first + (last - first) / 2 ^ 3) (v3 := first + (last - first) / 2 ^ 3 * 2 ^ 1) (by omega) (by omega) (by omega)
    obtain ⟨q, e2, h4⟩ := ssMedian3_ok hk (v1 := first + (last - first) / 2 - (last - first) / 2 ^ 3) (v2 := first + (last - first) / 2)
      (v3 := first + (last - first) / 2 + (last - first) / 2 ^ 3) (by omega) (by omega) (by omega)
    obtain ⟨r, e3, h5⟩ := ssMedian3_ok hk (v1 := last - 1 - (last - first) / 2 ^ 3 * 2 ^ 1) (v2 := last - 1 - (last - first) / 2 ^ 3) (v3 := last - 1) (by omega) (by omega) (by omega)
    rw [e1]
    simp only [Bind.bind, Except.bind]
    rw [e2]
    simp only []
    rw [e3]
    simp only []
    exact ssMedian3_ok hk h3 h4 h5

/-! ### Heaps -/

def Child (j c : Nat) : Prop := c = 2 * j + 1 ∨ c = 2 * j + 2

/-- From `lo` on, no character is less than that of a child. -/
def Heap (e : SsText) (P : Nat → Nat) (d lo : Nat) (ws : List Nat) : Prop :=
  ∀ j c x y : Nat, lo ≤ j → Child j c → ws[c]? = some x → ws[j]? = some y → kc e P d x ≤ kc e P d y

theorem Heap.max {d : Nat} {ws : List Nat} (h : Heap e P d 0 ws) {u : Nat} (hu : ws[0]? = some u) : ∀ (q x : Nat), ws[q]? = some x → kc e P d x ≤ kc e P d u := by
  intro q
  induction q using Nat.strongRecOn with
  | ind q ih =>
    intro x hx
    by_cases hq : q = 0
    · subst hq
      rw [hu] at hx
      injection hx with hx
      rw [hx]
      exact Nat.le_refl _
    · obtain ⟨hlt, _⟩ := List.getElem?_eq_some_iff.1 hx
      obtain ⟨y, hy⟩ : ∃ y, ws[(q - 1) / 2]? = some y := ⟨_, List.getElem?_eq_getElem (by omega)⟩
      have h1 := h ((q - 1) / 2) q x y (Nat.zero_le _) (by unfold Child; omega) hx hy
      have h2 := ih ((q - 1) / 2) (by omega) y hy
      omega

/-- What may be read after the heap: nothing, or an element whose character is at most `c`. -/
def After (e : SsText) (P : Nat → Nat) (m d size c : Nat) (B : List Int) : Prop :=
  size % 2 = 1 ∨ ∃ (w : Nat) (B' : List Int), B = (w : Int) :: B' ∧ (w + 1 < m ∧ d < kl P w) ∧ kc e P d w ≤ c

theorem swap_set {ws : List Nat} {i k v w : Nat} (hi : i < ws.length) (hik : i ≠ k) (hk : ws[k]? = some w) : ((ws.set i w).set k v).Perm (ws.set i v) := by
  obtain ⟨hlt, hw⟩ := List.getElem?_eq_some_iff.1 hk
  have h := List.set_set_perm (as := ws.set i v) (i := i) (j := k) (by simpa using hi) (by simpa using hlt)
  rw [List.getElem_set_self, List.getElem_set_ne hik, hw, List.set_set] at h
  exact h

theorem fixdownLoop_ok (X : Pos e P m) {d lo v size : Nat} {A B : List Int} (hv : v + 1 < m ∧ d < kl P v) (hB : After e P m d size (kc e P d v) B) :
    ∀ (fuel i : Nat) (ws : List Nat), ws.length = size → i < size → size - i < fuel → Rd P m d ws →
    (∀ j c x y : Nat, lo ≤ j → j ≠ i → c ≠ i → Child j c → ws[c]? = some x → ws[j]? = some y → kc e P d x ≤ kc e P d y) →
    (∀ j y : Nat, lo ≤ j → Child j i → ws[j]? = some y → kc e P d v ≤ kc e P d y ∧ ∀ c x : Nat, Child i c → ws[c]? = some x → kc e P d x ≤ kc e P d y) → lo ≤ i →
    ∃ ws' : List Nat, ws'.Perm (ws.set i v) ∧ Heap e P d lo ws' ∧
      fixdownLoop e d A.length size (v : Int) (kc e P d v) fuel i (A ++ (ws.map Int.ofNat ++ B)) = .ok (A ++ (ws'.map Int.ofNat ++ B))
  | 0, _, _, _, _, hf, _, _, _, _ => absurd hf (Nat.not_lt_zero _)
  | fuel + 1, i, ws, hl, hi, hf, hm, ha, hb, hlo => by
    -- putting `v` at `i`
    have hput : (∀ c x : Nat, Child i c → ws[c]? = some x → kc e P d x ≤ kc e P d v) → Heap e P d lo (ws.set i v) := by
      intro hc j c x y hj hch hx hy
      rw [List.getElem?_set] at hx hy
      by_cases h1 : i = c
      · subst h1
        rw [if_pos rfl, if_pos (by omega)] at hx
        injection hx with hx
        subst hx
        rw [if_neg (by unfold Child at hch; omega)] at hy
        exact (hb j y hj hch hy).1
      · rw [if_neg h1] at hx
        by_cases h2 : i = j
        · subst h2
          rw [if_pos rfl, if_pos (by omega)] at hy
          injection hy with hy
          subst hy
          exact hc c x hch hx
        · rw [if_neg h2] at hy
          exact ha j c x y hj (Ne.symm h2) (Ne.symm h1) hch hx hy
    have hdone := arr_wr (A := A) (B := B) (r := v) (by omega : i < ws.length)
    unfold fixdownLoop
    by_cases h1 : 2 * i + 1 < size
    · rw [if_pos h1]
      obtain ⟨r1, g1⟩ : ∃ y, ws[2 * i + 1]? = some y := ⟨_, List.getElem?_eq_getElem (by omega)⟩
      rw [arr_key X g1 hm]
      simp only [Bind.bind, Except.bind]
      obtain ⟨y, hy, hyc⟩ : ∃ y, keyAt e d (A ++ (ws.map Int.ofNat ++ B)) (A.length + (2 * i + 2)) = .ok y ∧
          ((∃ r2, ws[2 * i + 2]? = some r2 ∧ y = kc e P d r2) ∨ (ws[2 * i + 2]? = none ∧ y ≤ kc e P d v)) := by
        by_cases h2 : 2 * i + 2 < size
        · obtain ⟨r2, g2⟩ : ∃ y, ws[2 * i + 2]? = some y := ⟨_, List.getElem?_eq_getElem (by omega)⟩
          exact ⟨_, arr_key X g2 hm, .inl ⟨r2, g2, rfl⟩⟩
        · rcases hB with hB | ⟨w, B', rfl, hw, hwc⟩
          · omega
          · refine ⟨_, ?_, .inr ⟨List.getElem?_eq_none (by omega), hwc⟩⟩
            rw [← List.append_assoc]
            exact keyAt_mid X hw (by simp; omega)
      rw [hy]
      simp only []
      by_cases hx : (if kc e P d r1 < y then y else kc e P d r1) ≤ kc e P d v
      · rw [if_pos hx, hdone]
        refine ⟨_, .refl _, hput ?_, rfl⟩
        have hx1 : kc e P d r1 ≤ kc e P d v ∧ y ≤ kc e P d v := by
          by_cases hlt : kc e P d r1 < y
          · rw [if_pos hlt] at hx; omega
          · rw [if_neg hlt] at hx; omega
        rintro c x (rfl | rfl) hcx
        · rw [g1] at hcx; injection hcx with hcx; rw [← hcx]; exact hx1.1
        · rcases hyc with ⟨r2, g2, rfl⟩ | ⟨g2, _⟩
          · rw [g2] at hcx; injection hcx with hcx; rw [← hcx]; exact hx1.2
          · rw [g2] at hcx; cases hcx
      · rw [if_neg hx]
        -- the greater child
        obtain ⟨k, w, hk, hkw, hck, hkmax, hkv⟩ : ∃ k w, (if kc e P d r1 < y then 2 * i + 2 else 2 * i + 1) = k ∧ ws[k]? = some w ∧ Child i k ∧
            (∀ c x : Nat, Child i c → ws[c]? = some x → kc e P d x ≤ kc e P d w) ∧ kc e P d v < kc e P d w := by
          by_cases hlt : kc e P d r1 < y
          · rw [if_pos hlt] at hx ⊢
            rcases hyc with ⟨r2, g2, rfl⟩ | ⟨g2, hle⟩
            · refine ⟨_, r2, rfl, g2, .inr rfl, ?_, by omega⟩
              rintro c x (rfl | rfl) hcx
              · rw [g1] at hcx; injection hcx with hcx; rw [← hcx]; omega
              · rw [g2] at hcx; injection hcx with hcx; rw [← hcx]; exact Nat.le_refl _
            · omega
          · rw [if_neg hlt] at hx ⊢
            refine ⟨_, r1, rfl, g1, .inl rfl, ?_, by omega⟩
            rintro c x (rfl | rfl) hcx
            · rw [g1] at hcx; injection hcx with hcx; rw [← hcx]; exact Nat.le_refl _
            · rcases hyc with ⟨r2, g2, rfl⟩ | ⟨g2, _⟩
              · rw [g2] at hcx; injection hcx with hcx; rw [← hcx]; omega
              · rw [g2] at hcx; cases hcx
        rw [hk, arr_rd hkw]
        simp only []
        rw [arr_wr (by omega)]
        simp only []
        obtain ⟨hklt, _⟩ := List.getElem?_eq_some_iff.1 hkw
        have hik : i < k := by unfold Child at hck; omega
        have hm' : Rd P m d (ws.set i w) := by
          intro r hr
          rcases List.mem_or_eq_of_mem_set hr with hr | rfl
          · exact hm r hr
          · exact hm _ (List.mem_of_getElem? hkw)
        obtain ⟨ws', p1, p2, p3⟩ := fixdownLoop_ok X (lo := lo) hv hB fuel k (ws.set i w) (by simpa using hl) (by omega) (by omega) hm' (by
          intro j c x y hj hjk hck' hch hx' hy'
          rw [List.getElem?_set] at hx' hy'
          by_cases h3 : i = c
          · subst h3
            rw [if_pos rfl, if_pos (by omega)] at hx'
            injection hx' with hx'
            subst hx'
            rw [if_neg (by unfold Child at hch; omega)] at hy'
            exact (hb j y hj hch hy').2 k _ hck hkw
          · rw [if_neg h3] at hx'
            by_cases h4 : i = j
            · subst h4
              rw [if_pos rfl, if_pos (by omega)] at hy'
              injection hy' with hy'
              subst hy'
              exact hkmax c x hch hx'
            · rw [if_neg h4] at hy'
              exact ha j c x y hj (Ne.symm h4) (Ne.symm h3) hch hx' hy') (by
          intro j y hj hch hy'
          have hji : j = i := by unfold Child at hch hck; omega
          subst hji
          rw [List.getElem?_set, if_pos rfl, if_pos (by omega)] at hy'
          injection hy' with hy'
          subst hy'
          refine ⟨by omega, fun c x hc hx' => ?_⟩
          rw [List.getElem?_set, if_neg (by unfold Child at hc; omega)] at hx'
          exact ha k c x _ (by omega) (by omega) (by unfold Child at hc; omega) hc hx' hkw) (by omega)
        exact ⟨ws', p1.trans (swap_set (by omega) (by omega) hkw), p2, p3⟩
    · rw [if_neg h1, hdone]
      refine ⟨_, .refl _, hput ?_, rfl⟩
      intro c x hc hx
      obtain ⟨hlt, _⟩ := List.getElem?_eq_some_iff.1 hx
      unfold Child at hc
      omega

theorem ssFixdown_ok (X : Pos e P m) {d i size v : Nat} {A B : List Int} {ws : List Nat} (hl : ws.length = size) (hm : Rd P m d ws) (hv : ws[i]? = some v)
    (hB : After e P m d size (kc e P d v) B) (hh : Heap e P d (i + 1) ws) :
    ∃ ws' : List Nat, ws'.Perm ws ∧ Heap e P d i ws' ∧ ssFixdown e d A.length i size (A ++ (ws.map Int.ofNat ++ B)) = .ok (A ++ (ws'.map Int.ofNat ++ B)) := by
  obtain ⟨hlt, hvv⟩ := List.getElem?_eq_some_iff.1 hv
  unfold ssFixdown
  rw [arr_rd hv]
  simp only [Bind.bind, Except.bind]
  rw [arr_key X hv hm]
  simp only []
  obtain ⟨ws', p1, p2, p3⟩ := fixdownLoop_ok X (lo := i) (A := A) (hm v (List.mem_of_getElem? hv)) hB (size + 1) i ws hl (by omega) (by omega) hm
    (fun j c x y hj hji _ hch hx hy => hh j c x y (by omega) hch hx hy) (fun j y hj hch _ => by unfold Child at hch; omega) (Nat.le_refl _)
  refine ⟨ws', p1.trans ?_, p2, p3⟩
  rw [← hvv, List.set_getElem_self]

theorem buildHeap_ok (X : Pos e P m) {d size : Nat} {A B : List Int} (hodd : size % 2 = 1) : ∀ (n : Nat) (ws : List Nat), ws.length = size → n ≤ size → Rd P m d ws → Heap e P d n ws →
    ∃ ws' : List Nat, ws'.Perm ws ∧ Heap e P d 0 ws' ∧ downLoop (fun i a => ssFixdown e d A.length i size a) n (A ++ (ws.map Int.ofNat ++ B)) = .ok (A ++ (ws'.map Int.ofNat ++ B))
  | 0, ws, _, _, _, hh => ⟨ws, .refl _, hh, rfl⟩
  | n + 1, ws, hl, hn, hm, hh => by
    obtain ⟨v, hv⟩ : ∃ y, ws[n]? = some y := ⟨_, List.getElem?_eq_getElem (by omega)⟩
    obtain ⟨w1, p1, p2, p3⟩ := ssFixdown_ok X (A := A) (B := B) hl hm hv (.inl hodd) hh
    obtain ⟨w2, q1, q2, q3⟩ := buildHeap_ok X (A := A) (B := B) hodd n w1 (by rw [p1.length_eq, hl]) (by omega) (hm.perm p1) p2
    refine ⟨w2, q1.trans p1, q2, ?_⟩
    show (ssFixdown e d A.length n size _ >>= fun a => downLoop _ n a) = _
    rw [p3]
    exact q3

/-- Sorted by character. -/
def SrtC (e : SsText) (P : Nat → Nat) (d : Nat) (l : List Nat) : Prop := l.Pairwise fun r s => kc e P d r ≤ kc e P d s

theorem heapMax_ok (X : Pos e P m) {d : Nat} {A : List Int} : ∀ (n : Nat) (ws : List Nat) (B : List Int), ws.length = n + 1 → Rd P m d ws → Heap e P d 0 ws →
    ∃ out : List Nat, out.Perm ws ∧ SrtC e P d out ∧ downLoop (heapMax e d A.length) n (A ++ (ws.map Int.ofNat ++ B)) = .ok (A ++ (out.map Int.ofNat ++ B))
  | 0, ws, B, hl, _, _ => by
    match ws, hl with
    | [r], _ => exact ⟨[r], .refl _, List.pairwise_singleton _ _, rfl⟩
  | n + 1, ws, B, hl, hm, hh => by
    match ws, hl with
    | u :: ws, hl =>
    have hne : ws ≠ [] := by intro h; rw [h] at hl; simp at hl
    obtain ⟨rest, w, rfl⟩ : ∃ ys v, ws = ys ++ [v] := ⟨ws.dropLast, ws.getLast hne, (List.dropLast_concat_getLast _).symm⟩
    have hlr : rest.length = n := by simpa using hl
    have hmw : w + 1 < m ∧ d < kl P w := hm w (by simp)
    have hmr : Rd P m d (w :: rest) := fun r hr => hm r (by
      rcases List.mem_cons.1 hr with rfl | hr
      · simp
      · simp [hr])
    have hw : (w :: rest)[0]? = some w := rfl
    have hh1 : Heap e P d (0 + 1) (w :: rest) := by
      intro j c x y hj hc hx hy
      have hgc : ∀ (q x : Nat), 0 < q → (w :: rest)[q]? = some x → (u :: (rest ++ [w]))[q]? = some x := by
        intro q x hq hx
        obtain ⟨q, rfl⟩ : ∃ p, q = p + 1 := ⟨q - 1, by omega⟩
        rw [List.getElem?_cons_succ] at hx ⊢
        obtain ⟨hlt, _⟩ := List.getElem?_eq_some_iff.1 hx
        rw [List.getElem?_append_left hlt]
        exact hx
      exact hh j c x y (Nat.zero_le _) hc (hgc c x (by unfold Child at hc; omega) hx) (hgc j y (by omega) hy)
    obtain ⟨w1, p1, p2, p3⟩ := ssFixdown_ok X (A := A) (B := (w : Int) :: B) (size := n + 1) (by simp [hlr]) hmr hw (.inr ⟨w, B, rfl, hmw, Nat.le_refl _⟩) hh1
    obtain ⟨out, q1, q2, q3⟩ := heapMax_ok X n w1 ((u : Int) :: B) (by rw [p1.length_eq]; simp [hlr]) (hmr.perm p1) p2
    have hperm : (out ++ [u]).Perm (u :: (rest ++ [w])) := by
      refine (List.perm_append_comm.trans ?_)
      refine (List.Perm.cons u ?_)
      exact (q1.trans p1).trans (List.perm_append_comm (l₁ := [w]) (l₂ := rest))
    refine ⟨out ++ [u], hperm, ?_, ?_⟩
    · refine List.pairwise_append.2 ⟨q2, List.pairwise_singleton _ _, fun x hx y hy => ?_⟩
      rw [List.mem_singleton.1 hy]
      have : x ∈ u :: (rest ++ [w]) := hperm.subset (List.mem_append_left _ hx)
      obtain ⟨q, hq⟩ := List.mem_iff_getElem?.1 this
      exact hh.max (u := u) rfl q x hq
    · show (heapMax e d A.length n _ >>= fun a => downLoop (heapMax e d A.length) n a) = _
      suffices h : heapMax e d A.length n (A ++ ((u :: (rest ++ [w])).map Int.ofNat ++ B)) = .ok (A ++ (w1.map Int.ofNat ++ (u : Int) :: B)) by
        rw [h]
        show downLoop (heapMax e d A.length) n _ = _
        rw [q3]
        simp
      unfold heapMax
      have e1 : A ++ ((u :: (rest ++ [w])).map Int.ofNat ++ B) = A ++ (u : Int) :: (rest.map Int.ofNat ++ (w : Int) :: B) := by simp
      have e2 : ∀ z y : Int, A ++ z :: (rest.map Int.ofNat ++ y :: B) = (A ++ z :: rest.map Int.ofNat) ++ y :: B := fun z y => by simp
      rw [e1, rd_mid rfl]
      simp only [Bind.bind, Except.bind]
      rw [e2, rd_mid (by simp; omega), ← e2]
      simp only []
      rw [wr_mid rfl]
      simp only []
      have e3 : A ++ (w : Int) :: (rest.map Int.ofNat ++ (w : Int) :: B) = A ++ ((w :: rest).map Int.ofNat ++ (w : Int) :: B) := by simp
      rw [e3, p3]
      simp only []
      rw [← List.append_assoc, wr_mid (by simp; rw [p1.length_eq]; simp; omega), List.append_assoc]

theorem ssHeapsort_ok (X : Pos e P m) {d : Nat} {A B : List Int} {ws : List Nat} (hne : ws ≠ []) (hm : Rd P m d ws) :
    ∃ out : List Nat, out.Perm ws ∧ SrtC e P d out ∧ ssHeapsort e d A.length ws.length (A ++ (ws.map Int.ofNat ++ B)) = .ok (A ++ (out.map Int.ofNat ++ B)) := by
  have hpos : 0 < ws.length := List.length_pos_iff.2 hne
  unfold ssHeapsort
  by_cases hev : ws.length % 2 = 0
  · rw [if_pos hev]
    -- the last element is not in the heap
    have s1 : ∃ (pre : List Nat) (w s : Nat), (pre ++ [w]).Perm ws ∧ s ∈ pre ∧ kc e P d w ≤ kc e P d s ∧
        heapEven e d A.length ws.length (ws.length - 1) (A ++ (ws.map Int.ofNat ++ B)) = .ok (A ++ (pre.map Int.ofNat ++ (w : Int) :: B)) := by
      obtain ⟨pre, w, rfl⟩ : ∃ ys v, ws = ys ++ [v] := ⟨ws.dropLast, ws.getLast hne, (List.dropLast_concat_getLast _).symm⟩
      have hlen : (pre ++ [w]).length = pre.length + 1 := by simp
      rw [hlen] at hev hpos ⊢
      rw [Nat.add_sub_cancel]
      have hmid : pre.length / 2 < pre.length := by omega
      obtain ⟨s, hs⟩ : ∃ y, pre[pre.length / 2]? = some y := ⟨_, List.getElem?_eq_getElem hmid⟩
      obtain ⟨_, hs'⟩ := List.getElem?_eq_some_iff.1 hs
      have hs1 : (pre ++ [w])[pre.length / 2]? = some s := by rw [List.getElem?_append_left hmid]; exact hs
      have hw1 : (pre ++ [w])[pre.length]? = some w := by rw [List.getElem?_append_right (Nat.le_refl _), Nat.sub_self]; rfl
      unfold heapEven
      rw [if_pos hev, arr_key X hs1 hm]
      simp only [Bind.bind, Except.bind]
      rw [arr_key X hw1 hm]
      simp only []
      by_cases hlt : kc e P d s < kc e P d w
      · rw [if_pos hlt]
        obtain ⟨p1, p2, hsplit, hl1⟩ : ∃ p1 p2 : List Nat, pre = p1 ++ s :: p2 ∧ p1.length = pre.length / 2 :=
          ⟨pre.take (pre.length / 2), pre.drop (pre.length / 2 + 1), by rw [← hs', ← List.drop_eq_getElem_cons hmid, List.take_append_drop], by rw [List.length_take]; omega⟩
        have hl2 : pre.length = p1.length + 1 + p2.length := by rw [hsplit]; simp; omega
        rw [← hl1, hl2]
        clear hs hs' hs1 hw1 hmid hl1 hl2 hlen hev hpos
        subst hsplit
        have e1 : A ++ ((p1 ++ s :: p2 ++ [w]).map Int.ofNat ++ B) = (A ++ p1.map Int.ofNat) ++ (s : Int) :: (p2.map Int.ofNat ++ (w : Int) :: B) := by simp
        rw [e1, swapAt_mid' (by simp) (by simp; omega)]
        refine ⟨p1 ++ w :: p2, s, w, ?_, by simp, by omega, by simp⟩
        rw [List.append_assoc, List.append_assoc]
        refine List.Perm.append_left _ ?_
        show (w :: (p2 ++ [s])).Perm (s :: (p2 ++ [w]))
        exact (List.perm_middle.cons w).trans ((List.Perm.swap s w _).trans (List.perm_middle.symm.cons s))
      · rw [if_neg hlt]
        exact ⟨pre, w, s, .refl _, List.mem_of_getElem? hs, by omega, by simp⟩
    obtain ⟨pre, w, s, p1, p2, p3, p4⟩ := s1
    simp only []
    rw [p4]
    simp only [Bind.bind, Except.bind]
    have hlp : pre.length + 1 = ws.length := by have := p1.length_eq; simpa using this
    have hmp : Rd P m d (pre ++ [w]) := hm.perm p1
    rw [← hlp, Nat.add_sub_cancel]
    have hodd : pre.length % 2 = 1 := by omega
    obtain ⟨w1, q1, q2, q3⟩ := buildHeap_ok X (A := A) (B := (w : Int) :: B) hodd (pre.length / 2) pre rfl (by omega) hmp.left (by
      intro j c x y hj hc hx hy
      obtain ⟨hlt, _⟩ := List.getElem?_eq_some_iff.1 hx
      unfold Child at hc
      omega)
    rw [q3]
    simp only []
    have hw1l : w1.length = pre.length := q1.length_eq
    match w1, q1, q2, q3, hw1l with
    | [], _, _, _, h => simp at h; omega
    | u :: rest, q1, q2, q3, hw1l =>
    unfold heapLast
    rw [if_pos (by omega)]
    have e1 : A ++ ((u :: rest).map Int.ofNat ++ (w : Int) :: B) = A ++ (u : Int) :: (rest.map Int.ofNat ++ (w : Int) :: B) := by simp
    have hlr : rest.length + 1 = pre.length := by simpa using hw1l
    rw [e1, swapAt_mid rfl (by simp; omega)]
    simp only [Bind.bind, Except.bind]
    have hmr : Rd P m d (w :: rest) := fun r hr => hmp r (by
      rcases List.mem_cons.1 hr with rfl | hr
      · simp
      · exact List.mem_append_left _ (q1.subset (List.mem_cons_of_mem _ hr)))
    obtain ⟨w2, r1, r2, r3⟩ := ssFixdown_ok X (A := A) (B := (u : Int) :: B) (size := pre.length) (i := 0) (v := w) (by simpa using hlr) hmr rfl (.inl hodd) (by
      intro j c x y hj hc hx hy
      have hgc : ∀ (q x : Nat), 0 < q → (w :: rest)[q]? = some x → (u :: rest)[q]? = some x := by
        intro q x hq hx
        obtain ⟨q, rfl⟩ : ∃ p, q = p + 1 := ⟨q - 1, by omega⟩
        exact hx
      exact q2 j c x y (Nat.zero_le _) hc (hgc c x (by unfold Child at hc; omega) hx) (hgc j y (by omega) hy))
    have e2 : A ++ (w : Int) :: (rest.map Int.ofNat ++ (u : Int) :: B) = A ++ ((w :: rest).map Int.ofNat ++ (u : Int) :: B) := by simp
    rw [e2, r3]
    simp only []
    obtain ⟨out, t1, t2, t3⟩ := heapMax_ok X (A := A) (pre.length - 1) w2 ((u : Int) :: B) (by rw [r1.length_eq]; simp; omega) (hmr.perm r1) r2
    rw [t3]
    have hperm : (out ++ [u]).Perm ws := by
      refine List.perm_append_comm.trans (.trans ?_ p1)
      refine (List.Perm.cons u ((t1.trans r1))).trans ((List.Perm.swap w u _).trans ?_)
      exact (q1.cons w).trans (List.perm_append_comm (l₁ := [w]) (l₂ := pre))
    refine ⟨out ++ [u], hperm, ?_, by simp⟩
    refine List.pairwise_append.2 ⟨t2, List.pairwise_singleton _ _, fun x hx y hy => ?_⟩
    rw [List.mem_singleton.1 hy]
    have hmax : ∀ z, z ∈ u :: rest → kc e P d z ≤ kc e P d u := by
      intro z hz
      obtain ⟨q, hq⟩ := List.mem_iff_getElem?.1 hz
      exact q2.max (u := u) rfl q z hq
    rcases List.mem_cons.1 ((t1.trans r1).subset hx) with rfl | hx
    · exact Nat.le_trans p3 (hmax s (q1.symm.subset p2))
    · exact hmax x (List.mem_cons_of_mem _ hx)
  · rw [if_neg hev]
    simp only []
    unfold heapEven
    rw [if_neg hev]
    simp only [Bind.bind, Except.bind]
    obtain ⟨w1, q1, q2, q3⟩ := buildHeap_ok X (A := A) (B := B) (by omega) (ws.length / 2) ws rfl (by omega) hm (by
      intro j c x y hj hc hx hy
      obtain ⟨hlt, _⟩ := List.getElem?_eq_some_iff.1 hx
      unfold Child at hc
      omega)
    rw [q3]
    simp only []
    unfold heapLast
    rw [if_neg hev]
    simp only []
    obtain ⟨out, t1, t2, t3⟩ := heapMax_ok X (A := A) (ws.length - 1) w1 B (by rw [q1.length_eq]; omega) (hm.perm q1) q2
    exact ⟨out, t1.trans q1, t2, t3⟩

end

end Dss
end Detools
