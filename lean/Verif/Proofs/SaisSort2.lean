import Verif.Proofs.SaisMarks
import Verif.Proofs.SaisNames1
/-
SA-IS: the second way to sort and name the left-most S substrings.
-/
namespace Detools
namespace Sais

variable {t : List Nat} {k p0 : Nat}

theorem wrIf_ok {α : Type} {c : Prop} [Decidable c] {a : List α} {i : Nat} (v : α) (h : i < a.length) :
    wrIf (decide c) a i v = .ok (if c then a.set i v else a) := by
  unfold wrIf
  by_cases hc : c
  · simp only [hc, decide_true, if_true]
    exact wr_ok _ h
  · simp only [hc, decide_false, Bool.false_eq_true, if_false]

/-! ### The first pass -/

theorem mark_range {n : Nat} (hn2 : Half n) (f : Prop) {v : Nat} (h : v < n) :
    (-2 ^ 31 ≤ mark n f v ∧ mark n f v < 2 ^ 31) ∧ (-2 ^ 31 ≤ inv (mark n f v) ∧ inv (mark n f v) < 2 ^ 31) := by
  have g1 := mark_nonneg (n := n) f v
  have g2 : mark n f (v : Int) < 2 * n := by
    by_cases hf : f
    · rw [mark_pos hf]; omega
    · rw [mark_neg hf]; omega
  exact ⟨half_range hn2 (by omega) g2, half_range hn2 (by unfold inv; omega) (by unfold inv; omega)⟩

theorem stIf_ok {c : Prop} [Decidable c] {a : List Int} {i : Nat} {v : Int} (hv : -2 ^ 31 ≤ v ∧ v < 2 ^ 31) (h : i < a.length) :
    stIf (decide c) a i v = .ok (if c then a.set i v else a) := by
  unfold stIf
  by_cases hc : c
  · simp only [hc, decide_true, if_true]
    exact st_ok hv h
  · simp only [hc, decide_false, Bool.false_eq_true, if_false]

/-- The element for a position in the first pass. -/
noncomputable def entL (t : List Nat) (p0 x : Nat) : Int :=
  if isS t (x - 1) then inv (mark t.length (flagL t p0 x) ((x - 1 : Nat) : Int)) else mark t.length (flagL t p0 x) ((x - 1 : Nat) : Int)

theorem entL_range (hn2 : Half t.length) {x : Nat} (h : x - 1 < t.length) : -2 ^ 31 ≤ entL t p0 x ∧ entL t p0 x < 2 ^ 31 := by
  unfold entL
  split
  · exact (mark_range hn2 _ h).2
  · exact (mark_range hn2 _ h).1

/-- What is left of it. -/
noncomputable def entL' (t : List Nat) (p0 x : Nat) : Int :=
  if isS t (x - 1) then mark t.length (flagL t p0 x) ((x - 1 : Nat) : Int) else 0

/-- Before element `i` is looked at. -/
def Inv2L (t : List Nat) (p0 k i : Nat) (s : SaBD) : Prop :=
  LInv t (lowP t p0) (seedP t p0) (KL t) (entL t p0) (entL' t p0) 0 0 k i ⟨s.sa, s.b⟩ ∧
  DInv t.length (ch t) (memL t p0) (actL t) (posL t p0) (WL t) k 0 i s.d s.cur

/-- The value stored for the L position `y`. -/
theorem entL_L {y : Nat} (hy : isL t y) (h0 : 0 < y) :
    (if ch t (y - 1) < ch t y then inv (mark t.length (flagL t p0 y) ((y - 1 : Nat) : Int)) else mark t.length (flagL t p0 y) ((y - 1 : Nat) : Int)) = entL t p0 y := by
  unfold entL
  cases y with
  | zero => omega
  | succ z =>
    have hb := isS_before_L hy.1 hy.2
    simp only [Nat.add_sub_cancel]
    by_cases h : ch t z < ch t (z + 1)
    · rw [if_pos h, if_pos (hb.2 h)]
    · rw [if_neg h, if_neg (fun hs => h (hb.1 hs))]

theorem bit_L {y : Nat} (hy : isL t y) (h0 : 0 < y) : (if ch t (y - 1) < ch t y then 1 else 0) = (if actL t y then 0 else 1) := by
  cases y with
  | zero => omega
  | succ z =>
    have hb := isS_before_L hy.1 hy.2
    unfold actL
    simp only [Nat.add_sub_cancel]
    rcases S_or_L t z with hs | hs
    · rw [if_pos (hb.1 hs), hs]; rfl
    · rw [if_neg (fun h => by have := hb.2 h; rw [hs] at this; cases this), hs]; rfl

open Classical in
theorem sort2L_step (hn2 : Half t.length) (hk : ∀ x ∈ t, x < k) (hf : IsFirst t p0) (i : Nat) (s : SaBD) (hi : i < t.length) (hh : Inv2L t p0 k i s) :
    ∃ s', sort2LStep t i s = .ok s' ∧ Inv2L t p0 k (i + 1) s' := by
  have o := subL hf
  obtain ⟨h, hd⟩ := hh
  by_cases hx : ∃ x, (lowP t p0 x ∨ seedP t p0 x) ∧ pos t (lowP t p0) (seedP t p0) (KL t) x = i
  · obtain ⟨x, hx, hp⟩ := hx
    have hj := o.at h hx hp
    have hxl : x < t.length := hx.elim o.ltA o.ltB
    obtain ⟨y, rfl, hy, hy0⟩ := sub_next hf hx
    have hj : s.sa[i]? = some (entL t p0 (y + 1)) := hj
    unfold sort2LStep
    rw [rd_ok hj]
    simp only [Bind.bind, Except.bind]
    rcases S_or_L t y with hs | hs
    · have he : entL t p0 (y + 1) = inv (mark t.length (flagL t p0 (y + 1)) (y : Int)) := by simp [entL, hs]
      have hge := mark_nonneg (n := t.length) (flagL t p0 (y + 1)) y
      have he' : inv (inv (mark t.length (flagL t p0 (y + 1)) (y : Int))) = entL' t p0 (y + 1) := by simp [entL', hs, inv]; omega
      rw [he, if_neg (by unfold inv; omega), if_pos (by unfold inv; omega), st_ok (by rw [he']; unfold entL'; rw [Nat.add_sub_cancel, if_pos hs]; exact (mark_range hn2 _ (by omega)).1) (get_lt hj), he']
      refine ⟨_, rfl, o.keep h hx hp (fun z hz hl => ?_), hd.skip fun z hz1 hz2 hz3 => ?_⟩
      · have : z = y := by omega
        subst this
        exact (sufS t).disj hl.1 hs
      · have := o.pos_inj hz1 hx (hz3.trans hp.symm)
        subst this
        rw [actL_succ, hs] at hz2
        cases hz2
    · have he : entL t p0 (y + 1) = mark t.length (flagL t p0 (y + 1)) (y : Int) := by simp [entL, hs]
      have he' : entL' t p0 (y + 1) = 0 := by simp [entL', hs]
      have hl : lowP t p0 y := low_child hf hx hs
      have hck : ch t y < k := hk _ (List.mem_of_getElem? (ch_get (t := t) (x := y) (by omega)))
      have hge := mark_ge (n := t.length) (f := flagL t p0 (y + 1)) (v := y) (by omega)
      have hcur : (if (t.length : Int) ≤ mark t.length (flagL t p0 (y + 1)) (y : Int) then s.cur + 1 else s.cur) = if flagL t p0 (y + 1) then s.cur + 1 else s.cur := by
        by_cases hfl : flagL t p0 (y + 1)
        · rw [if_pos hfl, if_pos (hge.2 hfl)]
        · rw [if_neg hfl, if_neg (fun h => hfl (hge.1 h))]
      obtain ⟨v, v1, v2, v3⟩ := hd.push (groupsL hf) (y := y) hx (actL_succ.2 hs) hp hck rfl
      rw [he, if_pos (mark_gt _ hy0), mark_sub (by omega), Int.toNat_natCast, rd_ch (by omega)]
      simp only []
      rw [dec_ok (j := y - 1) (by omega)]
      simp only []
      rw [rd_ch (by omega)]
      obtain ⟨hq, hlt⟩ := o.slot h hk hx hl hp
      have hq : s.b[ch t y]? = some (pos t (lowP t p0) (seedP t p0) (KL t) y) := hq
      simp only []
      rw [rd_ok hq]
      simp only []
      rw [hcur, bit_L hl.1 hy0, rd_ok v1]
      simp only []
      have hcd : (flag (memL t p0) (actL t) (posL t p0) (WL t) (y + 1)) = flagL t p0 (y + 1) := rfl
      rw [hcd] at v2 v3
      rw [wrIf_ok _ (get_lt v1)]
      simp only []
      have hval : (if v ≠ (if flagL t p0 (y + 1) then s.cur + 1 else s.cur) then (y : Int) - 1 + t.length else (y : Int) - 1) =
          mark t.length (flagL t p0 y) ((y - 1 : Nat) : Int) := by
        have e : ((y - 1 : Nat) : Int) = (y : Int) - 1 := by omega
        by_cases hfl : flagL t p0 y
        · rw [if_pos (v2.2 hfl), mark_pos hfl, e]
        · rw [if_neg (fun h => hfl (v2.1 h)), mark_neg hfl, e]
      rw [hval, entL_L hl.1 hy0, st_ok (entL_range hn2 (by omega)) (by rw [h.lenA]; exact o.pos_lt (.inl hl))]
      simp only []
      rw [wr_ok _ (get_lt hq)]
      simp only []
      rw [wr_ok _ (by rw [List.length_set]; exact get_lt hj)]
      refine ⟨_, rfl, ?_, v3⟩
      have := o.push h hk hx hl hp
      rw [he'] at this
      exact this
  · have hx' : ∀ x, lowP t p0 x ∨ seedP t p0 x → pos t (lowP t p0) (seedP t p0) (KL t) x ≠ i := fun x h1 h2 => hx ⟨x, h1, h2⟩
    obtain ⟨hj, hn⟩ := o.empty h hi hx'
    rw [set_id hj] at hn
    have hj : s.sa[i]? = some 0 := hj
    unfold sort2LStep
    rw [rd_ok hj]
    exact ⟨_, rfl, hn, hd.skip fun z hz1 _ hz3 => hx' z hz1 hz3⟩

/-! ### The second pass -/

/-- The element for a position in the second pass. -/
noncomputable def entS (t : List Nat) (p0 x : Nat) : Int :=
  if isS t (x - 1) then mark t.length (flagS t p0 x) ((x - 1 : Nat) : Int) else if isS t x then inv (mark t.length (flagS t p0 x) (x : Int)) else 0

theorem entS_range (hn2 : Half t.length) {x : Nat} (h : x < t.length) : -2 ^ 31 ≤ entS t p0 x ∧ entS t p0 x < 2 ^ 31 := by
  unfold entS
  split
  · exact (mark_range hn2 _ (by omega)).1
  · split
    · exact (mark_range hn2 _ h).2
    · omega

/-- What is left of it. -/
noncomputable def entS' (t : List Nat) (p0 x : Nat) : Int :=
  if isS t (x - 1) then 0 else if isS t x then inv (mark t.length (flagS t p0 x) (x : Int)) else 0

/-- After the elements from `i` on were looked at. -/
def Inv2S (t : List Nat) (p0 k base i : Nat) (s : SaBD) : Prop :=
  SInv t (lowP t p0) (highP t p0) (KS t) (entS t p0) (entS' t p0) 0 0 k i ⟨s.sa, s.b⟩ ∧
  DInv t.length (ch t) (memS t p0) (actS t) (timeS t p0) (WS t) k base (t.length - i) s.d s.cur

theorem bit_S {y : Nat} (hy : isS t y = true) (h0 : 0 < y) : (if ch t y < ch t (y - 1) then 1 else 0) = (if actS t y then 0 else 1) := by
  cases y with
  | zero => omega
  | succ z =>
    have hb := isL_before_S hy
    unfold actS
    simp only [Nat.add_sub_cancel]
    rcases S_or_L t z with hs | hs
    · rw [if_neg (fun h => by have := hb.2 h; rw [hs] at this; cases this), hs]; rfl
    · rw [if_pos (hb.1 hs), hs]; rfl

/-- The value stored for the S position `y`. -/
theorem entS_S {y : Nat} (hy : isS t y = true) (h0 : 0 < y) {j : Int} (hj : j = mark t.length (flagS t p0 y) ((y - 1 : Nat) : Int)) :
    (if ch t y < ch t (y - 1) then inv (j + 1) else j) = entS t p0 y := by
  unfold entS
  cases y with
  | zero => omega
  | succ z =>
    have hb := isL_before_S hy
    simp only [Nat.add_sub_cancel] at hj ⊢
    by_cases h : ch t (z + 1) < ch t z
    · rw [if_pos h, if_neg (by rw [hb.2 h]; simp), if_pos hy, hj]
      congr 1
      by_cases hfl : flagS t p0 (z + 1)
      · rw [mark_pos hfl, mark_pos hfl]; omega
      · rw [mark_neg hfl, mark_neg hfl]; omega
    · rw [if_neg h, if_pos, hj]
      rcases S_or_L t z with hz | hz
      · exact hz
      · exact absurd (hb.1 hz) h

open Classical in
theorem sort2S_step (hn2 : Half t.length) (hk : ∀ x ∈ t, x < k) (hf : IsFirst t p0) {base : Nat} (i : Nat) (s : SaBD) (hi : i < t.length) (hh : Inv2S t p0 k base (i + 1) s) :
    ∃ s', sort2SStep t i s = .ok s' ∧ Inv2S t p0 k base i s' := by
  have o := subS hf
  obtain ⟨h, hd⟩ := hh
  have et : t.length - i = t.length - (i + 1) + 1 := by omega
  by_cases hx : ∃ x, (lowP t p0 x ∨ highP t p0 x) ∧ pos t (lowP t p0) (highP t p0) (KS t) x = i
  · obtain ⟨x, hx, hp⟩ := hx
    have hj := o.at h hx hp
    have hxl : x < t.length := hx.elim o.ltA o.ltB
    have htime : timeS t p0 x = t.length - (i + 1) := by unfold timeS subPos; omega
    obtain ⟨y, rfl, hy⟩ := high_next hf hx
    have hj : s.sa[i]? = some (entS t p0 (y + 1)) := hj
    unfold sort2SStep
    rw [rd_ok hj]
    simp only [Bind.bind, Except.bind]
    rcases S_or_L t y with hs | hs
    · obtain ⟨hy, hy0⟩ := hy hs
      have he : entS t p0 (y + 1) = mark t.length (flagS t p0 (y + 1)) (y : Int) := by simp [entS, hs]
      have he' : entS' t p0 (y + 1) = 0 := by simp [entS', hs]
      have hl : highP t p0 y := ⟨hs, hy⟩
      have hck : ch t y < k := hk _ (List.mem_of_getElem? (ch_get (t := t) (x := y) (by omega)))
      have hge := mark_ge (n := t.length) (f := flagS t p0 (y + 1)) (v := y) (by omega)
      have hcur : (if (t.length : Int) ≤ mark t.length (flagS t p0 (y + 1)) (y : Int) then s.cur + 1 else s.cur) = if flagS t p0 (y + 1) then s.cur + 1 else s.cur := by
        by_cases hfl : flagS t p0 (y + 1)
        · rw [if_pos hfl, if_pos (hge.2 hfl)]
        · rw [if_neg hfl, if_neg (fun h => hfl (hge.1 h))]
      obtain ⟨v, v1, v2, v3⟩ := hd.push (groupsS hf) (y := y) hx (actS_succ.trans hs) htime hck rfl
      rw [he, if_pos (mark_gt _ hy0), mark_sub (by omega), Int.toNat_natCast, rd_ch (by omega)]
      simp only []
      rw [dec_ok (j := y - 1) (by omega)]
      simp only []
      rw [rd_ch (by omega)]
      obtain ⟨hq, hlt⟩ := o.slot h hk hx hl hp
      have hq : s.b[ch t y]? = some (pos t (lowP t p0) (highP t p0) (KS t) y + 1) := hq
      simp only []
      rw [rd_ok hq]
      simp only []
      rw [dec_succ]
      simp only []
      rw [wr_ok _ (get_lt hq)]
      simp only []
      rw [hcur, bit_S hs hy0, rd_ok v1]
      simp only []
      have hcd : (flag (memS t p0) (actS t) (timeS t p0) (WS t) (y + 1)) = flagS t p0 (y + 1) := rfl
      rw [hcd] at v2 v3
      rw [wrIf_ok _ (get_lt v1)]
      simp only []
      have hval : (if v ≠ (if flagS t p0 (y + 1) then s.cur + 1 else s.cur) then (y : Int) - 1 + t.length else (y : Int) - 1) =
          mark t.length (flagS t p0 y) ((y - 1 : Nat) : Int) := by
        have e : ((y - 1 : Nat) : Int) = (y : Int) - 1 := by omega
        by_cases hfl : flagS t p0 y
        · rw [if_pos (v2.2 hfl), mark_pos hfl, e]
        · rw [if_neg (fun h => hfl (v2.1 h)), mark_neg hfl, e]
      rw [entS_S hs hy0 hval, st_ok (entS_range hn2 (by omega)) (by rw [h.lenA]; exact o.pos_lt (.inr hl))]
      simp only []
      rw [wr_ok _ (by rw [List.length_set]; exact get_lt hj)]
      refine ⟨_, rfl, ?_, by rw [et]; exact v3⟩
      have := o.push h hk hx hl hp
      rw [he'] at this
      exact this
    · have he : entS' t p0 (y + 1) = entS t p0 (y + 1) := by simp [entS', entS, hs]
      have hle : ¬ 0 < entS t p0 (y + 1) := by
        have := mark_nonneg (n := t.length) (flagS t p0 (y + 1)) (y + 1)
        unfold entS inv
        simp only [Nat.add_sub_cancel, hs, Bool.false_eq_true, if_false]
        split <;> omega
      rw [if_neg hle]
      refine ⟨_, rfl, ?_, ?_⟩
      · have := o.keep h hx hp (fun z hz hl => by
          have : z = y := by omega
          subst this
          have hl := hl.1
          rw [hs] at hl
          cases hl)
        rw [he, set_id hj] at this
        exact this
      · rw [et]
        refine hd.skip fun z hz1 hz2 hz3 => ?_
        have := (groupsS hf).inj hz1 hx (hz3.trans htime.symm)
        subst this
        rw [actS_succ, hs] at hz2
        cases hz2
  · have hx' : ∀ x, lowP t p0 x ∨ highP t p0 x → pos t (lowP t p0) (highP t p0) (KS t) x ≠ i := fun x h1 h2 => hx ⟨x, h1, h2⟩
    obtain ⟨hj, hn⟩ := o.empty h hi hx'
    rw [set_id hj] at hn
    have hj : s.sa[i]? = some 0 := hj
    unfold sort2SStep
    rw [rd_ok hj]
    refine ⟨_, rfl, hn, ?_⟩
    rw [et]
    refine hd.skip fun z hz1 _ hz3 => hx' z hz1 ?_
    have := subPos_lt hf hz1
    unfold timeS at hz3
    unfold subPos at *
    omega

/-! ### Both passes -/

/-- The L positions after an S position. -/
def edgeP (t : List Nat) (p0 x : Nat) : Prop := lowP t p0 x ∧ isS t (x - 1) = true

theorem pos_low {x : Nat} (hx : lowP t p0 x) : subPos t p0 x = posL t p0 x := by
  unfold subPos posL
  rw [pos_A hx, pos_A hx]
  congr 1
  apply cnt_congr
  intro y _
  constructor
  · rintro ⟨h1, h2, h3⟩
    rw [KS_L h1.1.1 h1.1.2, KS_L hx.1.1 hx.1.2] at h3
    exact ⟨h1, h2, h3⟩
  · rintro ⟨h1, h2, h3⟩
    rw [KS_L h1.1.1 h1.1.2, KS_L hx.1.1 hx.1.2]
    exact ⟨h1, h2, h3⟩

theorem flagL_edge (hf : IsFirst t p0) {x : Nat} (hx : edgeP t p0 x) : flagL t p0 x ↔ ∀ y, edgeP t p0 y → posL t p0 y < posL t p0 x → WL t y ≠ WL t x := by
  have hax : actL t x = false := by unfold actL; rw [hx.2]; rfl
  constructor
  · intro h y hy hlt hw
    refine h y (.inl hy.1) hlt ⟨hw, ?_⟩
    rw [hax]
    unfold actL
    rw [hy.2]
    rfl
  · intro h y hy hlt ⟨hw, ha⟩
    have hyl : y < t.length := hy.elim (subL hf).ltA (subL hf).ltB
    obtain ⟨_, c2⟩ := code_eq (WL_code hyl hx.1.1.1 hw)
    rw [hx.1.1.2] at c2
    have hy' : lowP t p0 y := by
      rcases hy with hy | hy
      · exact hy
      · have := isLms_S hy.1
        rw [c2] at this; cases this
    refine h y ⟨hy', ?_⟩ hlt hw
    rw [hax] at ha
    unfold actL at ha
    simpa using ha

theorem flagS_edge (hf : IsFirst t p0) {x : Nat} (hx : edgeP t p0 x) : flagS t p0 x ↔ ∀ y, edgeP t p0 y → posL t p0 x < posL t p0 y → WL t y ≠ WL t x := by
  have htime : ∀ y, lowP t p0 y → (timeS t p0 y < timeS t p0 x ↔ posL t p0 x < posL t p0 y) := by
    intro y hy
    have h1 := subPos_lt hf (.inl hx.1)
    have h2 := subPos_lt hf (.inl hy)
    have h3 := pos_low hx.1
    have h4 := pos_low hy
    unfold timeS
    omega
  constructor
  · intro h y hy hlt hw
    refine h y (.inl hy.1) ((htime y hy.1).2 hlt) ⟨?_, ?_⟩
    · rw [WS_L hy.1.1.1 hy.1.1.2, WS_L hx.1.1.1 hx.1.1.2]
      exact hw
    · unfold actS
      rw [hy.2, hx.2]
  · intro h y hy hlt ⟨hw, ha⟩
    have hyl : y < t.length := hy.elim (subS hf).ltA (subS hf).ltB
    obtain ⟨_, c2⟩ := code_eq (WS_code hyl hx.1.1.1 hw)
    rw [hx.1.1.2] at c2
    have hy' : lowP t p0 y := by
      rcases hy with hy | hy
      · exact hy
      · have := hy.1
        rw [c2] at this; cases this
    refine h y ⟨hy', ?_⟩ ((htime y hy').1 hlt) ?_
    · unfold actS at ha
      rw [ha]
      exact hx.2
    · rw [WS_L hy'.1.1 hy'.1.2, WS_L hx.1.1.1 hx.1.1.2] at hw
      exact hw

/-- The marked left-most S positions before sorting. -/
structure Marked (t : List Nat) (p0 : Nat) (sa : List Int) : Prop where
  len : sa.length = t.length
  elem : ∀ y, seedP t p0 y → sa[slotOf t y]? = some (mark t.length (flagL t p0 y) ((y - 1 : Nat) : Int))
  zero : ∀ q, q < t.length → (∀ y, seedP t p0 y → slotOf t y ≠ q) → sa[q]? = some 0

theorem markFirst_ok (hn2 : Half t.length) {c b : List Nat} {sa : List Int} (hk : ∀ x ∈ t, x < k) (hf : IsFirst t p0) (hc : IsCounts t k c) (hbl : b.length = k)
    (hb : ∀ e, e < k → b[e]? = some (fin t e - cnt t.length (fun y => seedP t p0 y ∧ ch t y = e)))
    (hl : sa.length = t.length) (h1 : ∀ y, seedP t p0 y → sa[slotOf t y]? = some ((y - 1 : Nat) : Int))
    (h2 : ∀ q, q < t.length → (∀ y, seedP t p0 y → slotOf t y ≠ q) → sa[q]? = some 0) :
    ∃ sa', markFirst t.length c b 0 sa = .ok sa' ∧ Marked t p0 sa' := by
  obtain ⟨sa', g1, g2, g3, g4⟩ := markFirst_loop hn2 hf hc hbl hb k 0 sa (by omega) hl (fun y hy => by rw [mark_neg (by omega)]; exact h1 y hy) h2
  have e : start t 0 = 0 := cnt_false fun x _ h => by omega
  rw [e] at g1
  refine ⟨sa', g1, g2, fun y hy => ?_, g4⟩
  rw [g3 y hy]
  congr 1
  apply mark_congr
  have : ch t y < k := hk _ (List.mem_of_getElem? (ch_get (t := t) (x := y) (by have := isLms_lt hy.1; omega)))
  exact ⟨And.right, fun h => ⟨this, h⟩⟩

theorem dinv_zero {n : Nat} {chf : Nat → Nat} {mem : Nat → Prop} {act : Nat → Bool} {τ : Nat → Nat} {W : Nat → List Nat} {base : Nat} {d : List Nat}
    (hl : d.length = 2 * k) (hd : ∀ c, c < k → ∀ b : Bool, ∃ v, d[2 * c + (if b then 0 else 1)]? = some v ∧ v ≤ base) :
    DInv n chf mem act τ W k base 0 d base := by
  refine ⟨hl, by rw [met_zero]; rfl, fun c hc b => ?_⟩
  obtain ⟨v, h1, h2⟩ := hd c hc b
  refine ⟨v, h1, h2, fun h => ?_⟩
  rw [met_zero] at h
  omega

theorem flagL_last (hf : IsFirst t p0) : flagL t p0 (t.length - 1) := by
  intro y hy hlt
  have o := subL hf
  have hp := isLms_lt hf.lms
  rintro ⟨hw, _⟩
  have hyl : y < t.length := hy.elim o.ltA o.ltB
  have hll := isS_last (t := t) (x := t.length - 1) (by omega)
  obtain ⟨_, c2⟩ := code_eq (WL_code hyl (by omega) hw)
  rw [hll] at c2
  have hne : y ≠ t.length - 1 := by
    intro e
    rw [e] at hlt
    exact Nat.lt_irrefl _ hlt
  rw [WL_L hyl c2, WL_L (x := t.length - 1) (by omega) hll, WL_end (x := t.length - 1 + 1) (by omega)] at hw
  obtain ⟨r, hr⟩ := WL_head (t := t) (x := y + 1) (by omega)
  rw [hr] at hw
  injection hw with _ hw
  injection hw with hw
  have := code_pos t (y + 1)
  omega

theorem lmsSort2_ok (hn2 : Half t.length) {c : List Nat} {sa : List Int} (hk : ∀ x ∈ t, x < k) (hc : IsCounts t k c) (hf : IsFirst t p0) (hs : Marked t p0 sa) :
    ∃ sa', lmsSort2 t c (List.replicate (2 * c.length) 0) sa = .ok sa' ∧ SubSorted t p0 (fun x => inv (mark t.length (flagS t p0 x) (x : Int))) sa' := by
  have oL := subL hf
  have oS := subS hf
  have h0 := oL.pos
  have hp0 := isLms_lt hf.lms
  have hpp := isLms_pos hf.lms
  have hck : ch t (t.length - 1) < k := hk _ (List.mem_of_getElem? (ch_get (t := t) (x := t.length - 1) (by omega)))
  have hb : (bucketStarts 0 c)[ch t (t.length - 1)]? = some (start t (ch t (t.length - 1))) := starts_get hc hck
  have hlt : start t (ch t (t.length - 1)) < sa.length := by
    rw [hs.len, ← oL.pos_last]
    exact oL.pos_lt (.inl oL.last)
  unfold lmsSort2
  simp only []
  rw [rd_ch (by omega)]
  simp only [Bind.bind, Except.bind]
  rw [rd_ok hb]
  simp only []
  rw [rd_ch (by omega)]
  simp only []
  have e2 : ((t.length - 2 : Nat) : Int) + t.length = mark t.length (flagL t p0 (t.length - 1)) ((t.length - 1 - 1 : Nat) : Int) := by
    rw [mark_pos (flagL_last hf)]
    omega
  have e3 : t.length - 2 = t.length - 1 - 1 := by omega
  rw [e2, e3, entL_L oL.last.1 (by omega), st_ok (entL_range hn2 (by omega)) hlt]
  simp only []
  rw [wr_ok _ (get_lt hb)]
  simp only []
  have hinit := oL.init (k := k) (ent := entL t p0) (ent' := entL' t p0) (emp := 0) (emp' := 0) (sa := sa) (b := bucketStarts 0 c) hk hs.len
    (by rw [bucketStarts_length, hc.1])
    (fun x hx => by
      rw [pos_seed hf hx, hs.elem x hx]
      obtain ⟨y, rfl, _, _⟩ := sub_next hf (.inr hx)
      simp [entL, isLms_pred hx.1])
    (fun q hq hx => hs.zero q hq fun y hy => by rw [← pos_seed hf hy]; exact hx y hy)
    (fun x hx => starts_get hc hx)
  obtain ⟨s1, g1, g2, g2d⟩ := upLoop_inv (n := t.length)
    (Inv2L t p0 k) (sort2L_step hn2 hk hf) t.length 0 ⟨_, _, List.replicate (2 * c.length) 0, 0⟩ (by omega) ⟨hinit, dinv_zero (by rw [List.length_replicate, hc.1]) (fun e he b => by
      refine ⟨0, ?_, Nat.le_refl _⟩
      rw [List.getElem?_replicate, if_pos]
      rw [hc.1]
      cases b <;> simp <;> omega)⟩
  rw [g1]
  simp only []
  obtain ⟨d1, d2⟩ := oL.done g2
  have d1 : ∀ x, lowP t p0 x ∨ seedP t p0 x → s1.sa[posL t p0 x]? = some (entL' t p0 x) := d1
  have hlenS1 : s1.sa.length = t.length := g2.lenA
  have hzero : ∀ q, q < t.length → (∀ x, edgeP t p0 x → posL t p0 x ≠ q) → s1.sa[q]? = some 0 := by
    intro q hq hx
    by_cases he : ∃ x, (lowP t p0 x ∨ seedP t p0 x) ∧ posL t p0 x = q
    · obtain ⟨x, hx1, hx2⟩ := he
      have hn : isS t (x - 1) = false := by
        rcases hx1 with hx1 | hx1
        · rcases S_or_L t (x - 1) with h | h
          · exact absurd hx2 (hx x ⟨hx1, h⟩)
          · exact h
        · obtain ⟨y, rfl, _, _⟩ := sub_next hf (.inr hx1)
          exact isLms_pred hx1.1
      rw [← hx2, d1 x hx1]
      unfold entL'
      rw [hn]
      rfl
    · exact d2 q hq fun x h1 h2 => he ⟨x, h1, h2⟩
  obtain ⟨sa2, m1, m2⟩ := moveMarks_ok hn2 (U := edgeP t p0) (P := posL t p0) (W := WL t) (n := t.length) (val := fun x => x - 1)
    (fun x hx => oL.pos_lt (.inl hx.1)) (fun x y hx hy => oL.pos_inj (.inl hx.1) (.inl hy.1))
    (fun x hx => by have := hx.1.2; have := hx.1.1.1; constructor <;> omega)
    (fun x y z hx hy hz => (groupsL hf).convex (.inl hx.1) (.inl hy.1) (.inl hz.1))
    (t.length + 1) t.length s1.sa (by omega) (Nat.le_refl _)
    ⟨hlenS1, fun x hx h => by have := oL.pos_lt (.inl hx.1); unfold posL at h; omega,
      fun x hx _ => by
        rw [d1 x (.inl hx.1)]
        unfold entL'
        rw [hx.2, if_pos rfl, mark_congr (flagL_edge hf hx)],
      hzero, fun x y hx hy h1 h2 => by have := oL.pos_lt (.inl hy.1); unfold posL at h2; omega⟩
  rw [m1]
  simp only []
  have hinit2 := oS.init (k := k) (ent := entS t p0) (ent' := entS' t p0) (emp := 0) (emp' := 0) (sa := sa2) (b := bucketEnds 0 c) m2.len
    (by rw [bucketEnds_length, hc.1])
    (fun x hx => by
      have hpl := pos_low hx
      unfold subPos at hpl
      rw [hpl]
      by_cases hed : isS t (x - 1) = true
      · rw [m2.hi x ⟨hx, hed⟩ (by omega)]
        unfold entS
        rw [if_pos hed, mark_congr (flagS_edge hf ⟨hx, hed⟩)]
      · rw [m2.zero (posL t p0 x) (oL.pos_lt (.inl hx)) (fun y hy e => by
          have := oL.pos_inj (.inl hy.1) (.inl hx) e
          rw [this] at hy
          exact hed hy.2)]
        unfold entS
        rw [if_neg hed, if_neg (by rw [hx.1.2]; simp)])
    (fun q hq hx => m2.zero q hq fun x hx1 hx2 => hx x (.inl hx1.1) (by
      have hpl := pos_low hx1.1
      unfold subPos at hpl
      rw [hpl, hx2]))
    (fun x hx => ends_get hc hx)
  obtain ⟨s2, g3, g4, _⟩ := downLoop_inv (n := t.length)
    (Inv2S t p0 k (s1.cur + 1)) (sort2S_step hn2 hk hf) t.length ⟨_, _, s1.d, s1.cur + 1⟩ (Nat.le_refl _) ⟨hinit2, by
      rw [Nat.sub_self]
      refine dinv_zero g2d.len fun e he b => ?_
      obtain ⟨v, v1, v2, _⟩ := g2d.ent e he b
      exact ⟨v, v1, by omega⟩⟩
  rw [g3]
  obtain ⟨e1, e4⟩ := oS.done g4
  refine ⟨_, rfl, g4.lenA, ?_, ?_⟩
  · intro x hx
    have := e1 x (.inr (lms_high hf hx))
    unfold subPos
    rw [this]
    obtain ⟨_, y, rfl, hy⟩ := isLms_iff.1 hx
    simp [entS', hy, isLms_S hx]
  · intro q hq hh
    by_cases he : ∃ x, (lowP t p0 x ∨ highP t p0 x) ∧ pos t (lowP t p0) (highP t p0) (KS t) x = q
    · obtain ⟨x, hx1, hx2⟩ := he
      have := e1 x hx1
      rw [← hx2, this]
      obtain ⟨y, rfl, _⟩ := high_next hf hx1
      have hn : isLms t (y + 1) = false := by
        cases hl : isLms t (y + 1) with
        | false => rfl
        | true => exact absurd hx2 (hh _ hl)
      unfold entS'
      simp only [isLms, Bool.and_eq_false_iff, Bool.not_eq_false'] at hn
      simp only [Nat.add_sub_cancel]
      rcases hn with hn | hn
      · rw [hn]; simp
      · rw [hn]; simp
    · exact e4 q hq fun x h1 h2 => he ⟨x, h1, h2⟩

/-! ### Names -/

/-- A left-most S substring is marked if the next one in order differs from it. -/
theorem flagS_lms (hf : IsFirst t p0) {x : Nat} (hx : isLms t x = true) : flagS t p0 x ↔ srank t x + 1 = lcount t ∨ fI t (srank t x + 1) := by
  have hxl : x < t.length := by have := isLms_lt hx; omega
  have hax : ∀ z, isLms t z = true → actS t z = false := by
    intro z hz
    obtain ⟨_, u, rfl, hu⟩ := isLms_iff.1 hz
    rw [actS_succ]; exact hu
  have htime : ∀ y, isLms t y = true → (timeS t p0 y < timeS t p0 x ↔ srank t x < srank t y) := by
    intro y hy
    rw [timeS_lt hf (.inr (lms_high hf hy)) (.inr (lms_high hf hx))]
    exact ((subRanked t).mono_iff hx hy).symm
  have key : flagS t p0 x ↔ ∀ y, isLms t y = true → srank t x < srank t y → WS t y ≠ WS t x := by
    constructor
    · intro h y hy hlt hw
      exact h y (.inr (lms_high hf hy)) ((htime y hy).2 hlt) ⟨hw, by rw [hax y hy, hax x hx]⟩
    · intro h y hy hlt ⟨hw, ha⟩
      have hyl : y < t.length := hy.elim (subS hf).ltA (subS hf).ltB
      obtain ⟨_, c2⟩ := code_eq (WS_code hyl hxl hw)
      rw [isLms_S hx] at c2
      obtain ⟨z, rfl, _⟩ := high_next hf hy
      rw [hax x hx, actS_succ] at ha
      have hy' : isLms t (z + 1) = true := isLms_iff.2 ⟨c2, z, rfl, ha⟩
      exact h _ hy' ((htime _ hy').1 hlt) hw
  rw [key]
  constructor
  · intro h
    by_cases he : srank t x + 1 = lcount t
    · exact .inl he
    · obtain ⟨y, hy, hyr⟩ := srank_surj (t := t) (r := srank t x + 1) (by have := srank_lt hx; omega)
      rw [← hyr, fI_iff hx hy hyr.symm]
      exact .inr fun e => h y hy (by omega) e.symm
  · intro h y hy hlt hw
    rcases h with h | h
    · have := srank_lt hy
      omega
    · obtain ⟨z, hz, hzr⟩ := srank_surj (t := t) (r := srank t x + 1) (by have := srank_lt hy; omega)
      rw [← hzr, fI_iff hx hz hzr.symm] at h
      by_cases he : srank t y = srank t z
      · rw [(subRanked t).rnk_inj hy hz he] at hw
        exact h hw.symm
      · have := WS_convex hxl (by have := isLms_lt hz; omega) (by have := isLms_lt hy; omega)
          (((subRanked t).mono_iff hx hz).1 (show srank t x < srank t z by omega))
          (((subRanked t).mono_iff hz hy).1 (show srank t z < srank t y by omega)) hw.symm
        exact h this.symm

theorem countP_take {α : Type} {l : List α} {p : α → Bool} : ∀ (m : Nat), m ≤ l.length →
    (l.take m).countP p = cnt m (fun i => ∃ v, l[i]? = some v ∧ p v = true)
  | 0, _ => by simp [cnt]
  | m + 1, h => by
    have hg : l[m]? = some l[m] := List.getElem?_eq_getElem (by omega)
    rw [List.take_add_one, List.countP_append, countP_take m (by omega), cnt, hg]
    congr 1
    by_cases hp : p l[m] = true
    · rw [if_pos ⟨_, rfl, hp⟩]
      simp [hp]
    · rw [if_neg (by rintro ⟨v, h1, h2⟩; injection h1 with h1; rw [← h1] at h2; exact hp h2)]
      simp [hp]

theorem names_marked (h : 0 < lcount t) : cnt (lcount t) (fun i => i + 1 = lcount t ∨ fI t (i + 1)) = names t := by
  unfold names
  generalize lcount t = m at *
  cases m with
  | zero => omega
  | succ m =>
    rw [cnt_shift (p := fI t) m]
    have h1 : cnt 1 (fI t) = 1 := cnt_true fun x hx => by
      have : x = 0 := by omega
      subst this
      exact fI_zero t
    have h2 : cnt m (fun i => i + 1 = m + 1 ∨ fI t (i + 1)) = cnt m (fun i => fI t (i + 1)) := cnt_congr fun x hx => by
      constructor
      · rintro (h | h)
        · omega
        · exact h
      · exact .inr
    rw [cnt, if_pos (.inl rfl), h2, h1]
    omega

theorem storeNames_ok (hn2 : Half t.length) (hf : IsFirst t p0) : ∀ (i d : Nat) (sa : List Int), i ≤ lcount t → d = (if i = lcount t then names t + 1 else cnt (i + 1) (fI t)) →
    Slots t (fun x => mark t.length (flagS t p0 x) (x : Int)) (fun x => if i ≤ srank t x then (nm t x : Int) else 0) sa →
    ∃ sa', storeNames t.length (lcount t) i d sa = .ok sa' ∧ Slots t (fun x => mark t.length (flagS t p0 x) (x : Int)) (fun x => (nm t x : Int)) sa'
  | 0, d, sa, _, _, h => ⟨sa, rfl, h.congr fun y _ => by rw [if_pos (by omega)]⟩
  | i + 1, d, sa, hi, hd, h => by
    obtain ⟨x, hx, hxr⟩ := srank_surj (t := t) (r := i) (by omega)
    have hxl : x < t.length := by have := isLms_lt hx; omega
    have he := h.elem x hx
    rw [hxr] at he
    unfold storeNames
    rw [rd_ok he]
    simp only [Bind.bind, Except.bind]
    have hnm : nm t x = cnt (i + 1) (fI t) := by unfold nm; rw [hxr]
    have hd' : (if (t.length : Int) ≤ mark t.length (flagS t p0 x) (x : Int) then d - 1 else d) = nm t x := by
      have hge := mark_ge (n := t.length) (f := flagS t p0 x) hxl
      have hfs := flagS_lms hf hx
      rw [hxr] at hfs
      rw [hnm]
      by_cases hm : i + 1 = lcount t
      · rw [if_pos (hge.2 (hfs.2 (.inl hm))), hd, if_pos hm, hm]
        rfl
      · rw [if_neg hm] at hd
        classical
        have hc : cnt (i + 1 + 1) (fI t) = cnt (i + 1) (fI t) + if fI t (i + 1) then 1 else 0 := by rw [cnt]
        by_cases hfi : fI t (i + 1)
        · rw [if_pos (hge.2 (hfs.2 (.inr hfi))), hd, hc, if_pos hfi]
          omega
        · rw [if_neg (fun h => (hfs.1 (hge.1 h)).elim hm hfi), hd, hc, if_neg hfi]
          omega
    rw [hd', mark_sub hxl, Int.toNat_natCast]
    have hlen := nslot_lt hx
    unfold nslot at hlen
    have hnl : nm t x ≤ t.length := by
      have g1 := cnt_le (i + 1) (fI t)
      have g2 := lcount_half (t := t) (by omega)
      omega
    rw [st_ok (half_range hn2 (by omega) (by omega)) (by rw [h.len]; exact hlen)]
    refine storeNames_ok hn2 hf i (nm t x) _ (by omega) (by rw [if_neg (by omega), hnm]) ?_
    have hset := h.set (g := fun x => if i ≤ srank t x then (nm t x : Int) else 0) hx (fun y hy hne => by
      have hr : srank t y ≠ i := fun e => hne ((subRanked t).rnk_inj hy hx (show srank t y = srank t x by omega))
      by_cases g1 : i ≤ srank t y
      · rw [if_pos g1, if_pos (by omega)]
      · rw [if_neg g1, if_neg (by omega)])
    rw [if_pos (by omega)] at hset
    exact hset

theorem unmark_ok (hn2 : Half t.length) : ∀ (todo i : Nat) (sa : List Int), i + todo = lcount t → sa.length = t.length →
    (∀ x, isLms t x = true → sa[srank t x]? = some (if srank t x < i then (x : Int) else mark t.length (flagS t p0 x) (x : Int))) →
    ∃ sa', unmark t.length todo i sa = .ok sa' ∧ sa'.length = t.length ∧ ∀ x, isLms t x = true → sa'[srank t x]? = some (x : Int)
  | 0, i, sa, hi, hl, h => ⟨sa, rfl, hl, fun x hx => by rw [h x hx, if_pos (by have := srank_lt hx; omega)]⟩
  | todo + 1, i, sa, hi, hl, h => by
    obtain ⟨x, hx, hxr⟩ := srank_surj (t := t) (r := i) (by omega)
    have hxl : x < t.length := by have := isLms_lt hx; omega
    have he := h x hx
    rw [if_neg (by omega), hxr] at he
    unfold unmark
    rw [rd_ok he]
    simp only [Bind.bind, Except.bind]
    have hun : -2 ^ 31 ≤ mark t.length (flagS t p0 x) (x : Int) - t.length ∧ mark t.length (flagS t p0 x) (x : Int) - t.length < 2 ^ 31 := by
      have g1 := mark_nonneg (n := t.length) (flagS t p0 x) x
      have g2 := (mark_range hn2 (flagS t p0 x) hxl).1
      exact ⟨(half_range (v := mark t.length (flagS t p0 x) (x : Int) - t.length) hn2 (by omega) (by
        by_cases hfl : flagS t p0 x
        · rw [mark_pos hfl]; omega
        · rw [mark_neg hfl]; omega)).1, by omega⟩
    rw [stIf_ok hun (get_lt he)]
    simp only []
    have hge := mark_ge (n := t.length) (f := flagS t p0 x) hxl
    have hsub := mark_sub (n := t.length) (f := flagS t p0 x) hxl
    refine unmark_ok hn2 todo (i + 1) _ (by omega) ?_ (fun y hy => ?_)
    · split
      · rw [List.length_set]; exact hl
      · exact hl
    · by_cases hyx : y = x
      · subst hyx
        rw [hxr, if_pos (Nat.lt_succ_self i)]
        by_cases hfl : (t.length : Int) ≤ mark t.length (flagS t p0 y) (y : Int)
        · rw [if_pos hfl] at hsub ⊢
          rw [get_set_eq (get_lt he), hsub]
        · rw [if_neg hfl] at hsub ⊢
          rw [he, hsub]
      · have hne : srank t y ≠ i := fun e => hyx ((subRanked t).rnk_inj hy hx (show srank t y = srank t x by omega))
        have hy' := h y hy
        have : (if (t.length : Int) ≤ mark t.length (flagS t p0 x) (x : Int) then sa.set i (mark t.length (flagS t p0 x) (x : Int) - t.length) else sa)[srank t y]? = sa[srank t y]? := by
          by_cases hfl : (t.length : Int) ≤ mark t.length (flagS t p0 x) (x : Int)
          · rw [if_pos hfl, get_set_ne (Ne.symm hne)]
          · rw [if_neg hfl]
        rw [this, hy']
        by_cases g1 : srank t y < i
        · rw [if_pos g1, if_pos (by omega)]
        · rw [if_neg g1, if_neg (by omega)]

theorem lmsPostproc2_ok (hn2 : Half t.length) (hf : IsFirst t p0) {sa : List Int} (h : SubSorted t p0 (fun x => inv (mark t.length (flagS t p0 x) (x : Int))) sa) :
    ∃ sa', lmsPostproc2 t.length (lcount t) sa = .ok (sa', names t) ∧ Stage1 t sa' := by
  obtain ⟨sa1, h1, h2⟩ := compact_front hf h (fun x _ => by
    have := mark_nonneg (n := t.length) (flagS t p0 x) x
    unfold inv
    omega) (fun x hx => (mark_range hn2 _ (by have := isLms_lt hx; omega)).2.1)
  have e : (fun x : Nat => inv (inv (mark t.length (flagS t p0 x) (x : Int)))) = fun x : Nat => mark t.length (flagS t p0 x) (x : Int) := by
    funext x
    unfold inv
    omega
  rw [e] at h2
  have h0 := (subL hf).pos
  have hm0 : 0 < lcount t := by
    have := srank_lt hf.lms
    omega
  have hhalf := lcount_half h0
  have hcount : (sa1.take (lcount t)).countP (fun j => decide ((t.length : Int) ≤ j)) = names t := by
    rw [countP_take _ (by rw [h2.len]; omega), ← names_marked hm0]
    apply cnt_congr
    intro i hi
    obtain ⟨x, hx, hxr⟩ := srank_surj (t := t) (r := i) hi
    have hxl : x < t.length := by have := isLms_lt hx; omega
    have hg := h2.elem x hx
    have hge := mark_ge (n := t.length) (f := flagS t p0 x) hxl
    have hfs := flagS_lms hf hx
    rw [hxr] at hg hfs
    rw [← hfs, ← hge, hg]
    constructor
    · rintro ⟨v, v1, v2⟩
      injection v1 with v1
      rw [v1]
      exact of_decide_eq_true v2
    · intro hv
      exact ⟨_, rfl, decide_eq_true hv⟩
  unfold lmsPostproc2
  rw [h1]
  simp only [Bind.bind, Except.bind]
  rw [hcount]
  have hle : names t ≤ lcount t := cnt_le _ _
  by_cases hlt : names t < lcount t
  · rw [if_pos hlt]
    obtain ⟨sa2, h3, h4⟩ := storeNames_ok hn2 hf (lcount t) (names t + 1) sa1 (Nat.le_refl _) (by rw [if_pos rfl])
      (h2.slots.congr fun y hy => by rw [if_neg (by have := srank_lt hy; omega)])
    rw [h3]
    exact ⟨_, rfl, h4.len, fun he => by omega, fun _ => h4.slot, fun _ => h4.zero⟩
  · rw [if_neg hlt]
    obtain ⟨sa2, h3, h4, h5⟩ := unmark_ok hn2 (p0 := p0) (lcount t) 0 sa1 (by omega) h2.len (fun x hx => by rw [if_neg (by omega)]; exact h2.elem x hx)
    rw [h3]
    exact ⟨_, rfl, h4, fun _ => h5, fun he => by omega, fun he => by omega⟩

end Sais
end Detools
