import Verif.Proofs.SaisTypes
/-
SA-IS: the suffix array from the sorted left-most S suffixes (`induce_sa`).
-/
namespace Detools
namespace Sais

theorem upLoop_inv {σ : Type} {step : Nat → σ → C σ} {n : Nat} (P : Nat → σ → Prop)
    (h : ∀ i s, i < n → P i s → ∃ s', step i s = .ok s' ∧ P (i + 1) s') :
    ∀ (todo i : Nat) (s : σ), i + todo = n → P i s → ∃ s', upLoop step todo i s = .ok s' ∧ P n s'
  | 0, i, s, hn, hp => ⟨s, rfl, by have : i = n := by omega
                                   rw [← this]; exact hp⟩
  | todo + 1, i, s, hn, hp => by
    obtain ⟨s1, h1, h2⟩ := h i s (by omega) hp
    obtain ⟨s2, h3, h4⟩ := upLoop_inv P h todo (i + 1) s1 (by omega) h2
    refine ⟨s2, ?_, h4⟩
    unfold upLoop
    rw [h1]
    exact h3

theorem downLoop_inv {σ : Type} {step : Nat → σ → C σ} {n : Nat} (P : Nat → σ → Prop)
    (h : ∀ i s, i < n → P (i + 1) s → ∃ s', step i s = .ok s' ∧ P i s') :
    ∀ (i : Nat) (s : σ), i ≤ n → P i s → ∃ s', downLoop step i s = .ok s' ∧ P 0 s'
  | 0, s, _, hp => ⟨s, rfl, hp⟩
  | i + 1, s, hn, hp => by
    obtain ⟨s1, h1, h2⟩ := h i s (by omega) hp
    obtain ⟨s2, h3, h4⟩ := downLoop_inv P h i s1 (by omega) h2
    refine ⟨s2, ?_, h4⟩
    unfold downLoop
    rw [h1]
    exact h3

theorem set_id {α : Type} {l : List α} {i : Nat} {v : α} (h : l[i]? = some v) : l.set i v = l := by
  apply List.ext_getElem?
  intro j
  by_cases he : i = j
  · subst he
    rw [get_set_eq (get_lt h), h]
  · rw [get_set_ne he]

variable {t : List Nat} {k : Nat}

/-- The position is of type L. -/
def isL (t : List Nat) (x : Nat) : Prop := x < t.length ∧ isS t x = false

theorem L_or_S {x : Nat} (h : x < t.length) : isL t x ∨ isS t x = true := by
  by_cases hs : isS t x = true
  · exact .inr hs
  · exact .inl ⟨h, by simpa using hs⟩

theorem sufS (t : List Nat) : SPass t (isL t) (fun x => isS t x = true) t.drop where
  ltA h := h.1
  ltB h := by have := isS_lt h; omega
  disj h1 h2 := by rw [h1.2] at h2; cases h2
  bucket {x y} h1 h2 h3 := by
    refine drop_char ?_ ?_ h3
    · rcases h1 with h | h
      · exact h.1
      · have := isS_lt h; omega
    · rcases h2 with h | h
      · exact h.1
      · have := isS_lt h; omega
  type h1 h2 h3 := L_before_S h1.2 h1.1 h2 h3
  inj {x y} h1 h2 h3 := by
    refine drop_inj ?_ ?_ h3
    · rcases h1 with h | h
      · exact h.1
      · have := isS_lt h; omega
    · rcases h2 with h | h
      · exact h.1
      · have := isS_lt h; omega
  next h := L_or_S (isS_lt h)
  step h1 h2 h3 := drop_step (by have := isS_lt h1; omega) (by have := isS_lt h2; omega) h3
  asc h := S_asc h

theorem sufL (h : 0 < t.length) : LPass t (isL t) (fun x => isLms t x = true) t.drop where
  ltA h := h.1
  ltB h := by have := isLms_lt h; omega
  disj h1 h2 := (sufS t).disj h1 (isLms_S h2)
  bucket h1 h2 h3 := (sufS t).bucket (h1.imp id isLms_S) (h2.imp id isLms_S) h3
  type h1 h2 h3 := (sufS t).type h1 (isLms_S h2) h3
  inj h1 h2 h3 := (sufS t).inj (h1.imp id isLms_S) (h2.imp id isLms_S) h3
  pos := h
  last := ⟨by omega, isS_last (by omega)⟩
  next {x} hx hl := by
    rcases L_or_S hl with h | h
    · exact .inl h
    · exact .inr (isLms_iff.2 ⟨h, x, rfl, hx.2⟩)
  step h1 h2 h3 _ _ := drop_step h1.1 h2.1 h3
  lastMin {y} h1 h2 h3 := by
    rw [drop_step (by omega) h1.1 h2.symm, List.drop_eq_nil_of_le (by omega)]
    have := h1.1
    rw [drop_ch (x := y + 1) (by omega)]
    trivial
  desc h1 _ := L_desc h1.2 h1.1

/-- The place of a suffix. -/
noncomputable def spos (t : List Nat) (x : Nat) : Nat := pos t (isL t) (fun x => isS t x = true) t.drop x

/-- The place of the suffix of a left-most S position in the first pass. -/
noncomputable def lpos (t : List Nat) (x : Nat) : Nat := pos t (isL t) (fun x => isLms t x = true) t.drop x

theorem spos_lpos {x : Nat} (h : isL t x) : spos t x = lpos t x := by
  unfold spos lpos
  rw [pos_A h, pos_A h]

theorem spos_surj {q : Nat} (h : q < t.length) : ∃ x, x < t.length ∧ spos t x = q := by
  apply inj_surj (f := spos t) _ _ q h
  · intro x hx
    exact (sufS t).pos_lt (L_or_S hx)
  · intro x y hx hy
    exact (sufS t).pos_inj (L_or_S hx) (L_or_S hy)

/-- The element for a position in the first pass. -/
def entI (t : List Nat) (x : Nat) : Int := if x = 0 then 0 else if isS t (x - 1) then inv x else x

/-- The element for a position in the second pass. -/
def entJ (t : List Nat) (x : Nat) : Int := if x = 0 then -1 else if isS t (x - 1) then x else inv x

theorem inv_entI (t : List Nat) (x : Nat) : inv (entI t x) = entJ t x := by
  unfold entI entJ inv
  by_cases h : x = 0
  · simp [h]
  · by_cases h1 : isS t (x - 1) = true
    · simp only [h, h1, if_true, if_false]; omega
    · simp [h, h1]

theorem entI_range (hn : Small t) {x : Nat} (hx : x < t.length) : -2 ^ 31 ≤ entI t x ∧ entI t x < 2 ^ 31 := by
  refine range_of hn ?_ ?_ <;> (unfold entI inv; repeat' split) <;> omega

theorem entJ_range (hn : Small t) {x : Nat} (hx : x < t.length) : -2 ^ 31 ≤ entJ t x ∧ entJ t x < 2 ^ 31 := by
  refine range_of hn ?_ ?_ <;> (unfold entJ inv; repeat' split) <;> omega

theorem entI_L {y : Nat} (hy : isL t y) :
    ∃ pred, smallerBefore t y (ch t y) = .ok pred ∧ (if pred then inv (y : Int) else (y : Int)) = entI t y := by
  unfold entI smallerBefore
  cases y with
  | zero => exact ⟨false, rfl, rfl⟩
  | succ z =>
    have := hy.1
    rw [if_pos (by omega), Nat.add_sub_cancel, rd_ch (by omega)]
    refine ⟨_, rfl, ?_⟩
    have hb := isS_before_L this hy.2
    by_cases h : ch t z < ch t (z + 1)
    · rw [if_neg (Nat.succ_ne_zero z), if_pos (hb.2 h), if_pos (decide_eq_true h)]
    · rw [if_neg (Nat.succ_ne_zero z), if_neg (fun hs => h (hb.1 hs)), if_neg (by simpa using h)]

theorem induceL_step (hn31 : Small t) (hk : ∀ x ∈ t, x < k) (h0 : 0 < t.length) (i : Nat) (s : SaB) (hi : i < t.length)
    (h : LInv t (isL t) (fun x => isLms t x = true) t.drop (entI t) (entJ t) 0 (-1) k i s) :
    ∃ s', induceLStep t i s = .ok s' ∧ LInv t (isL t) (fun x => isLms t x = true) t.drop (entI t) (entJ t) 0 (-1) k (i + 1) s' := by
  have o := sufL h0
  by_cases hx : ∃ x, (isL t x ∨ isLms t x = true) ∧ pos t (isL t) (fun x => isLms t x = true) t.drop x = i
  · obtain ⟨x, hx, hp⟩ := hx
    have hj := o.at h hx hp
    have hxl : x < t.length := hx.elim o.ltA o.ltB
    unfold induceLStep
    rw [rd_ok hj]
    simp only [Bind.bind, Except.bind]
    rw [st_ok (by rw [inv_entI]; exact entJ_range hn31 hxl) (get_lt hj)]
    simp only [inv_entI]
    cases x with
    | zero =>
      refine ⟨⟨s.sa.set i (entJ t 0), s.b⟩, by simp [entI], o.keep h hx hp (fun y hy => by omega)⟩
    | succ y =>
      by_cases hs : isS t y = true
      · refine ⟨⟨s.sa.set i (entJ t (y + 1)), s.b⟩, ?_, o.keep h hx hp (fun z hz => ?_)⟩
        · rw [if_neg]
          unfold entI inv
          simp [hs]
          omega
        · have : z = y := by omega
          subst this
          exact fun hl => (sufS t).disj hl hs
      · have hl : isL t y := ⟨by omega, by simpa using hs⟩
        have he : entI t (y + 1) = ((y + 1 : Nat) : Int) := by simp [entI, hl.2]
        rw [he, if_pos (by omega)]
        have hnat : (((y + 1 : Nat) : Int)).toNat - 1 = y := by omega
        rw [hnat, rd_ch hl.1]
        obtain ⟨hq, hlt⟩ := o.slot h hk hx hl hp
        simp only []
        rw [rd_ok hq]
        simp only []
        obtain ⟨pred, h1, h2⟩ := entI_L hl
        rw [h1]
        simp only []
        rw [h2, st_ok (entI_range hn31 hl.1) (by rw [List.length_set, h.lenA]; exact o.pos_lt (.inl hl))]
        simp only []
        rw [wr_ok _ (get_lt hq)]
        refine ⟨_, rfl, ?_⟩
        rw [List.set_comm _ _ (by omega)]
        exact o.push h hk hx hl hp
  · have hx' : ∀ x, isL t x ∨ isLms t x = true → pos t (isL t) (fun x => isLms t x = true) t.drop x ≠ i := fun x h1 h2 => hx ⟨x, h1, h2⟩
    obtain ⟨hj, hn⟩ := o.empty h hi hx'
    unfold induceLStep
    rw [rd_ok hj]
    simp only [Bind.bind, Except.bind]
    rw [st_ok (by decide) (get_lt hj)]
    exact ⟨_, rfl, hn⟩

theorem entJ_S {y : Nat} (hy : isS t y = true) :
    ∃ pred, largerBefore t y (ch t y) = .ok pred ∧ (if pred then inv (y : Int) else (y : Int)) = entJ t y := by
  unfold entJ largerBefore
  cases y with
  | zero => exact ⟨true, rfl, rfl⟩
  | succ z =>
    have := isS_lt hy
    rw [if_neg (by omega), Nat.add_sub_cancel, rd_ch (by omega)]
    refine ⟨_, rfl, ?_⟩
    have hb := isL_before_S hy
    by_cases h : ch t (z + 1) < ch t z
    · rw [if_neg (Nat.succ_ne_zero z), if_pos (decide_eq_true h), if_neg (by rw [hb.2 h]; simp)]
    · have : isS t z = true := by
        by_cases hz : isS t z = true
        · exact hz
        · exact absurd (hb.1 (by simpa using hz)) h
      rw [if_neg (Nat.succ_ne_zero z), if_pos this, if_neg (by simpa using h)]

theorem induceS_step (hn31 : Small t) (hk : ∀ x ∈ t, x < k) (i : Nat) (s : SaB) (hi : i < t.length)
    (h : SInv t (isL t) (fun x => isS t x = true) t.drop (entJ t) (fun x => (x : Int)) 0 0 k (i + 1) s) :
    ∃ s', induceSStep t i s = .ok s' ∧ SInv t (isL t) (fun x => isS t x = true) t.drop (entJ t) (fun x => (x : Int)) 0 0 k i s' := by
  have o := sufS t
  obtain ⟨x, hxl, hp⟩ := spos_surj hi
  have hx := L_or_S hxl
  have hj := o.at h hx hp
  unfold induceSStep
  rw [rd_ok hj]
  simp only [Bind.bind, Except.bind]
  cases x with
  | zero =>
    have he : entJ t 0 = -1 := rfl
    rw [he, if_neg (by omega), st_ok (by decide) (get_lt hj)]
    exact ⟨_, rfl, o.keep h hx hp (fun y hy => by omega)⟩
  | succ y =>
    by_cases hs : isS t y = true
    · have he : entJ t (y + 1) = ((y + 1 : Nat) : Int) := by simp [entJ, hs]
      rw [he] at hj ⊢
      rw [if_pos (by omega)]
      have hnat : (((y + 1 : Nat) : Int)).toNat - 1 = y := by omega
      rw [hnat, rd_ch (by omega)]
      obtain ⟨hq, hlt⟩ := o.slot h hk hx hs hp
      simp only []
      rw [rd_ok hq]
      simp only []
      rw [dec_succ]
      simp only []
      rw [wr_ok _ (get_lt hq)]
      simp only []
      obtain ⟨pred, h1, h2⟩ := entJ_S hs
      rw [h1]
      simp only []
      rw [h2, st_ok (entJ_range (x := y) hn31 (by omega)) (by rw [h.lenA]; exact o.pos_lt (.inr hs))]
      refine ⟨_, rfl, ?_⟩
      have hpush := o.push h hk hx hs hp
      rw [set_id (by rw [get_set_ne (by omega)]; exact hj)] at hpush
      exact hpush
    · have he : entJ t (y + 1) = inv ((y + 1 : Nat) : Int) := by simp [entJ, hs]
      rw [he, if_neg (by unfold inv; omega), st_ok (range_of hn31 (by unfold inv; omega) (by unfold inv; omega)) (get_lt hj)]
      refine ⟨_, rfl, ?_⟩
      have e : inv (inv ((y + 1 : Nat) : Int)) = ((y + 1 : Nat) : Int) := by unfold inv; omega
      rw [e]
      refine o.keep h hx hp (fun z hz => ?_)
      have : z = y := by omega
      subst this
      exact hs

/-- The sorted left-most S suffixes are in their buckets. -/
def Seeded (t : List Nat) (sa : List Int) : Prop :=
  sa.length = t.length ∧ (∀ x, isLms t x = true → sa[lpos t x]? = some (x : Int)) ∧
    ∀ q, q < t.length → (∀ x, isLms t x = true → lpos t x ≠ q) → sa[q]? = some 0

theorem entI_lms {x : Nat} (h : isLms t x = true) : entI t x = x := by
  cases x with
  | zero => rfl
  | succ y => simp [entI, isLms_pred h]

/-- `induce_sa` sorts all suffixes. -/
theorem induceSa_ok {c : List Nat} {sa : List Int} (hn31 : Small t) (hk : ∀ x ∈ t, x < k) (h0 : 0 < t.length) (hc : IsCounts t k c) (hs : Seeded t sa) :
    ∃ sa', induceSa t c sa = .ok sa' ∧ IsSa t sa' := by
  have oL := sufL h0
  have oS := sufS t
  have hck : ch t (t.length - 1) < k := hk _ (List.mem_of_getElem? (ch_get (t := t) (x := t.length - 1) (by omega)))
  have hb : (bucketStarts 0 c)[ch t (t.length - 1)]? = some (start t (ch t (t.length - 1))) := starts_get hc hck
  have hlt : start t (ch t (t.length - 1)) < sa.length := by
    rw [hs.1, ← oL.pos_last]
    exact oL.pos_lt (.inl oL.last)
  unfold induceSa
  simp only []
  rw [rd_ch (by omega)]
  simp only [Bind.bind, Except.bind]
  rw [rd_ok hb]
  simp only []
  obtain ⟨pred, h1, h2⟩ := entI_L oL.last
  rw [h1]
  simp only []
  rw [h2, st_ok (entI_range hn31 (by omega)) hlt]
  simp only []
  rw [wr_ok _ (get_lt hb)]
  simp only []
  have hinit := oL.init (k := k) (ent := entI t) (ent' := entJ t) (emp := 0) (emp' := -1) (sa := sa) (b := bucketStarts 0 c) hk hs.1
    (by rw [bucketStarts_length, hc.1]) (fun x hx => by rw [entI_lms hx]; exact hs.2.1 x hx) (fun q hq hx => hs.2.2 q hq hx)
    (fun x hx => starts_get hc hx)
  obtain ⟨s1, g1, g2⟩ := upLoop_inv (n := t.length)
    (LInv t (isL t) (fun x => isLms t x = true) t.drop (entI t) (entJ t) 0 (-1) k) (induceL_step hn31 hk h0) t.length 0 _ (by omega) hinit
  rw [g1]
  simp only []
  obtain ⟨d1, d2⟩ := oL.done g2
  have hinit2 := oS.init (k := k) (ent := entJ t) (ent' := fun x => (x : Int)) (emp := 0) (emp' := 0) (sa := s1.sa) (b := bucketEnds 0 c) g2.lenA
    (by rw [bucketEnds_length, hc.1])
    (fun x hx => by
      have := d1 x (.inl hx)
      rw [pos_A hx] at this ⊢
      exact this)
    (fun q hq hx => by
      obtain ⟨x, h1, h2⟩ := spos_surj hq
      exact absurd h2 (hx x (L_or_S h1)))
    (fun x hx => ends_get hc hx)
  obtain ⟨s2, g3, g4⟩ := downLoop_inv (n := t.length)
    (SInv t (isL t) (fun x => isS t x = true) t.drop (entJ t) (fun x => (x : Int)) 0 0 k) (induceS_step hn31 hk) t.length _ (Nat.le_refl _) hinit2
  rw [g3]
  obtain ⟨e1, _⟩ := oS.done g4
  refine ⟨_, rfl, g4.lenA, spos t, fun x hx => ⟨oS.pos_lt (L_or_S hx), e1 x (L_or_S hx)⟩, fun x y hx hy => oS.mono (L_or_S hx) (L_or_S hy)⟩

end Sais
end Detools
