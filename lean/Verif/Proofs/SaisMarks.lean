import Verif.Proofs.SaisNames
import Verif.Proofs.SaisGroups
/-
SA-IS: the groups of equal substrings in the second way to sort the left-most S substrings.
-/
namespace Detools
namespace Sais

variable {t : List Nat} {k p0 : Nat}

open Classical in
/-- A marked entry. -/
noncomputable def mark (n : Nat) (f : Prop) (v : Int) : Int := if f then v + n else v

theorem mark_pos {n : Nat} {f : Prop} {v : Int} (h : f) : mark n f v = v + n := by unfold mark; rw [if_pos h]
theorem mark_neg {n : Nat} {f : Prop} {v : Int} (h : ¬ f) : mark n f v = v := by unfold mark; rw [if_neg h]

theorem mark_ge {n : Nat} {f : Prop} {v : Nat} (h : v < n) : (n : Int) ≤ mark n f v ↔ f := by
  by_cases hf : f
  · rw [mark_pos hf]; simp only [hf, iff_true]; omega
  · rw [mark_neg hf]; simp only [hf, iff_false]; omega

theorem mark_nonneg {n : Nat} (f : Prop) (v : Nat) : 0 ≤ mark n f v := by
  by_cases hf : f
  · rw [mark_pos hf]; omega
  · rw [mark_neg hf]; omega

theorem mark_gt {n : Nat} (f : Prop) {v : Nat} (h : 0 < v) : 0 < mark n f v := by
  by_cases hf : f
  · rw [mark_pos hf]; omega
  · rw [mark_neg hf]; omega

theorem mark_congr {n : Nat} {f g : Prop} (h : f ↔ g) (v : Int) : mark n f v = mark n g v := by
  by_cases hf : f
  · rw [mark_pos hf, mark_pos (h.1 hf)]
  · rw [mark_neg hf, mark_neg (fun hg => hf (h.2 hg))]

/-- Without the mark. -/
theorem mark_sub {n : Nat} {f : Prop} {v : Nat} (h : v < n) : (if (n : Int) ≤ mark n f v then mark n f v - n else mark n f v) = (v : Int) := by
  by_cases hf : f
  · rw [if_pos ((mark_ge h).2 hf), mark_pos hf]; omega
  · rw [if_neg (fun hg => hf ((mark_ge h).1 hg)), mark_neg hf]

/-! ### Groups in the first pass -/

/-- The positions looked at in the first pass. -/
def memL (t : List Nat) (p0 x : Nat) : Prop := lowP t p0 x ∨ seedP t p0 x

/-- The position before it is an L position. -/
def actL (t : List Nat) (x : Nat) : Bool := !isS t (x - 1)

/-- Its place in the first pass. -/
noncomputable def posL (t : List Nat) (p0 x : Nat) : Nat := pos t (lowP t p0) (seedP t p0) (KL t) x

theorem actL_succ {y : Nat} : actL t (y + 1) = true ↔ isS t y = false := by simp [actL]

theorem low_child (hf : IsFirst t p0) {y : Nat} (h : memL t p0 (y + 1)) (ha : isS t y = false) : lowP t p0 y := by
  have hl : y + 1 < t.length := h.elim (subL hf).ltA (subL hf).ltB
  have h1 : p0 < y + 1 := h.elim And.right And.right
  refine ⟨⟨by omega, ha⟩, ?_⟩
  by_cases e : p0 = y
  · have := isLms_S hf.lms
    rw [e, ha] at this; cases this
  · omega

theorem WL_convex {x y z : Nat} (h1 : Lex (KL t x) (KL t y)) (h2 : Lex (KL t y) (KL t z)) (h : WL t x = WL t z) : WL t y = WL t x := by
  rcases KL_WL h1 with h3 | h3
  · exact h3.symm
  · rcases KL_WL h2 with h4 | h4
    · rw [h4, h]
    · rw [h] at h3
      exact absurd h4 h3.asymm

theorem WL_code {x y : Nat} (hx : x < t.length) (hy : y < t.length) (h : WL t x = WL t y) : code t x = code t y := by
  obtain ⟨r, hr⟩ := WL_head hx
  obtain ⟨r', hr'⟩ := WL_head hy
  rw [hr, hr'] at h
  injection h

theorem WS_code {x y : Nat} (hx : x < t.length) (hy : y < t.length) (h : WS t x = WS t y) : code t x = code t y := by
  obtain ⟨r, hr⟩ := WS_head hx
  obtain ⟨r', hr'⟩ := WS_head hy
  rw [hr, hr'] at h
  injection h

theorem groupsL (hf : IsFirst t p0) : Groups t.length (ch t) (memL t p0) (actL t) (posL t p0) (WL t) where
  lt h := h.elim (subL hf).ltA (subL hf).ltB
  inj h1 h2 h3 := (subL hf).pos_inj h1 h2 h3
  convex {x y z} h1 h2 h3 h4 h5 h6 :=
    WL_convex (((subL hf).mono_iff h1 h2).1 h4) (((subL hf).mono_iff h2 h3).1 h5) h6
  child {y} h1 h2 := .inl (low_child hf h1 (actL_succ.1 h2))
  word {y z} h1 h2 h3 h4 := by
    have hy := (low_child hf h1 (actL_succ.1 h2)).1
    have hz := (low_child hf h3 (actL_succ.1 h4)).1
    rw [WL_L hy.1 hy.2, WL_L hz.1 hz.2, List.cons.injEq]
    constructor
    · rintro ⟨e1, e2⟩
      exact ⟨(code_eq e1).1, e2⟩
    · rintro ⟨e1, e2⟩
      exact ⟨code_congr e1 (by rw [hy.2, hz.2]), e2⟩
  time {y z} h1 h2 h3 h4 h5 := by
    have hy := low_child hf h1 (actL_succ.1 h2)
    have hz := low_child hf h3 (actL_succ.1 h4)
    have l1 : y + 1 < t.length := h1.elim (subL hf).ltA (subL hf).ltB
    have l2 : z + 1 < t.length := h3.elim (subL hf).ltA (subL hf).ltB
    have m1 := (subL hf).mono_iff (.inl hy) (.inl hz)
    have m2 := (subL hf).mono_iff h1 h3
    have m3 := (subL hf).step hy hz h5 l1 l2
    unfold posL
    rw [m1, m3, m2]
  sibling {y z} h1 h2 h3 h4 h5 := by
    have hy := low_child hf h1 (actL_succ.1 h2)
    have l1 : y + 1 < t.length := h1.elim (subL hf).ltA (subL hf).ltB
    have hzl : z < t.length := h3.elim (subL hf).ltA (subL hf).ltB
    have hzL : isS t z = false := (code_eq (WL_code hzl hy.1.1 h4)).2.trans hy.1.2
    have hz : lowP t p0 z := by
      rcases h3 with h3 | h3
      · exact h3
      · have := isLms_S h3.1
        rw [hzL] at this; cases this
    have hz1 : z + 1 < t.length := by
      by_cases he : z + 1 < t.length
      · exact he
      · rw [WL_L hzl hzL, WL_L hy.1.1 hy.1.2, WL_end (x := z + 1) (by omega)] at h4
        obtain ⟨r, hr⟩ := WL_head l1
        rw [hr] at h4
        injection h4 with _ h4
        injection h4 with h4
        have := code_pos t (y + 1)
        omega
    exact ⟨(subL hf).next hz hz1, actL_succ.2 hzL⟩

/-- The first of a group in the first pass. -/
def flagL (t : List Nat) (p0 x : Nat) : Prop := flag (memL t p0) (actL t) (posL t p0) (WL t) x

/-! ### Groups in the second pass -/

/-- The positions looked at in the second pass. -/
def memS (t : List Nat) (p0 x : Nat) : Prop := lowP t p0 x ∨ highP t p0 x

/-- The position before it is an S position. -/
def actS (t : List Nat) (x : Nat) : Bool := isS t (x - 1)

/-- When it is looked at in the second pass. -/
noncomputable def timeS (t : List Nat) (p0 x : Nat) : Nat := t.length - 1 - subPos t p0 x

theorem actS_succ {y : Nat} : actS t (y + 1) = isS t y := by simp [actS]

theorem subPos_lt (hf : IsFirst t p0) {x : Nat} (h : memS t p0 x) : subPos t p0 x < t.length := (subS hf).pos_lt h

theorem timeS_lt (hf : IsFirst t p0) {x y : Nat} (hx : memS t p0 x) (hy : memS t p0 y) : timeS t p0 x < timeS t p0 y ↔ Lex (KS t y) (KS t x) := by
  have := subPos_lt hf hx
  have := subPos_lt hf hy
  have m := (subS hf).mono_iff hy hx
  rw [← m]
  unfold timeS
  unfold subPos at *
  omega

theorem high_child (hf : IsFirst t p0) {y : Nat} (h : memS t p0 (y + 1)) (ha : isS t y = true) : highP t p0 y := by
  obtain ⟨z, h1, h2⟩ := high_next hf h
  have : y = z := by omega
  subst this
  exact ⟨ha, (h2 ha).1⟩

theorem WS_convex {x y z : Nat} (hx : x < t.length) (hy : y < t.length) (hz : z < t.length)
    (h1 : Lex (KS t x) (KS t y)) (h2 : Lex (KS t y) (KS t z)) (h : WS t x = WS t z) : WS t y = WS t x := by
  rcases KS_WS hx hy h1 with h3 | h3
  · exact h3.symm
  · rcases KS_WS hy hz h2 with h4 | h4
    · rw [h4, h]
    · rw [h] at h3
      exact absurd h4 h3.asymm

theorem groupsS (hf : IsFirst t p0) : Groups t.length (ch t) (memS t p0) (actS t) (timeS t p0) (WS t) where
  lt h := h.elim (subS hf).ltA (subS hf).ltB
  inj {x y} h1 h2 h3 := by
    have := subPos_lt hf h1
    have := subPos_lt hf h2
    unfold timeS at h3
    exact (subS hf).pos_inj h1 h2 (show subPos t p0 x = subPos t p0 y by omega)
  convex {x y z} h1 h2 h3 h4 h5 h6 := by
    have lx : x < t.length := h1.elim (subS hf).ltA (subS hf).ltB
    have ly : y < t.length := h2.elim (subS hf).ltA (subS hf).ltB
    have lz : z < t.length := h3.elim (subS hf).ltA (subS hf).ltB
    rw [timeS_lt hf h1 h2] at h4
    rw [timeS_lt hf h2 h3] at h5
    exact (WS_convex lz ly lx h5 h4 h6.symm).trans h6.symm
  child {y} h1 h2 := .inr (high_child hf h1 (actS_succ ▸ h2))
  word {y z} h1 h2 h3 h4 := by
    have hy := (high_child hf h1 (actS_succ ▸ h2)).1
    have hz := (high_child hf h3 (actS_succ ▸ h4)).1
    rw [WS_S hy, WS_S hz, List.cons.injEq]
    constructor
    · rintro ⟨e1, e2⟩
      exact ⟨(code_eq e1).1, e2⟩
    · rintro ⟨e1, e2⟩
      exact ⟨code_congr e1 (by rw [hy, hz]), e2⟩
  time {y z} h1 h2 h3 h4 h5 := by
    have hy := high_child hf h1 (actS_succ ▸ h2)
    have hz := high_child hf h3 (actS_succ ▸ h4)
    rw [timeS_lt hf (.inr hy) (.inr hz), timeS_lt hf h1 h3]
    exact (subS hf).step hz hy h5.symm
  sibling {y z} h1 h2 h3 h4 h5 := by
    have hy := high_child hf h1 (actS_succ ▸ h2)
    have hzl : z < t.length := h3.elim (subS hf).ltA (subS hf).ltB
    have hyl := isS_lt hy.1
    have hzS : isS t z = true := (code_eq (WS_code hzl (by omega) h4)).2.trans hy.1
    have hz : highP t p0 z := by
      rcases h3 with h3 | h3
      · have := h3.1.2
        rw [hzS] at this; cases this
      · exact h3
    exact ⟨(subS hf).next hz, actS_succ.trans hzS⟩

/-- The last of a group, which is the first one met in the second pass. -/
def flagS (t : List Nat) (p0 x : Nat) : Prop := flag (memS t p0) (actS t) (timeS t p0) (WS t) x

/-! ### The marks of the seeds -/

theorem flagL_seed (hf : IsFirst t p0) {y : Nat} (hy : seedP t p0 y) : flagL t p0 y ↔ ∀ z, seedP t p0 z → ch t z = ch t y → y ≤ z := by
  have hyl : y < t.length := by have := isLms_lt hy.1; omega
  have hact : ∀ z, isLms t z = true → actL t z = true := by
    intro z hz
    obtain ⟨_, u, rfl, hu⟩ := isLms_iff.1 hz
    exact actL_succ.2 hu
  have key : ∀ z, isLms t z = true → ch t z = ch t y → (Lex (KL t z) (KL t y) ↔ z < y) := by
    intro z hz hc
    rw [KL_S (isLms_S hz), KL_S (isLms_S hy.1), code_congr hc (by rw [isLms_S hz, isLms_S hy.1])]
    have : ¬ Lex ([] : List Nat) [] := Lex.irrefl _
    simp only [lex_cons, Nat.lt_irrefl, false_or, true_and, this, and_false, or_false]
  constructor
  · intro h z hz hc
    apply Classical.byContradiction
    intro hn
    refine h z (.inr hz) (((subL hf).mono_iff (.inr hz) (.inr hy)).2 ((key z hz.1 hc).2 (by omega))) ⟨?_, by rw [hact z hz.1, hact y hy.1]⟩
    rw [WL_S (isLms_S hz.1), WL_S (isLms_S hy.1), code_congr hc (by rw [isLms_S hz.1, isLms_S hy.1])]
  · intro h z hz hlt ⟨hw, _⟩
    have hzl : z < t.length := hz.elim (subL hf).ltA (subL hf).ltB
    obtain ⟨c1, c2⟩ := code_eq (WL_code hzl hyl hw)
    rw [isLms_S hy.1] at c2
    have hz' : seedP t p0 z := by
      rcases hz with hz | hz
      · have := hz.1.2
        rw [c2] at this; cases this
      · exact hz
    have h1 := h z hz' c1
    have h2 := (key z hz'.1 c1).1 (((subL hf).mono_iff (.inr hz') (.inr hy)).1 hlt)
    omega

/-- The first element for a seed of a bucket. -/
theorem slotOf_first (hf : IsFirst t p0) {y : Nat} (hy : seedP t p0 y) (h : flagL t p0 y) :
    slotOf t y = fin t (ch t y) - cnt t.length (fun z => seedP t p0 z ∧ ch t z = ch t y) := by
  have h1 := slotOf_eq hy.1
  have h2 : cnt t.length (fun z => isLms t z = true ∧ ch t z = ch t y ∧ y ≤ z) = cnt t.length (fun z => seedP t p0 z ∧ ch t z = ch t y) := by
    apply cnt_congr
    intro z _
    constructor
    · rintro ⟨g1, g2, g3⟩
      exact ⟨⟨g1, by have := hy.2; omega⟩, g2⟩
    · rintro ⟨g1, g2⟩
      exact ⟨g1.1, g2, (flagL_seed hf hy).1 h z g1 g2⟩
  omega

theorem markFirst_loop (hn2 : Half t.length) (hf : IsFirst t p0) {c b : List Nat} (hc : IsCounts t k c) (hbl : b.length = k)
    (hb : ∀ e, e < k → b[e]? = some (fin t e - cnt t.length (fun y => seedP t p0 y ∧ ch t y = e))) :
    ∀ (todo e : Nat) (sa : List Int), e + todo = k → sa.length = t.length →
      (∀ y, seedP t p0 y → sa[slotOf t y]? = some (mark t.length (ch t y < e ∧ flagL t p0 y) ((y - 1 : Nat) : Int))) →
      (∀ q, q < t.length → (∀ y, seedP t p0 y → slotOf t y ≠ q) → sa[q]? = some 0) →
      ∃ sa', markFirst t.length (c.drop e) (b.drop e) (start t e) sa = .ok sa' ∧ sa'.length = t.length ∧
        (∀ y, seedP t p0 y → sa'[slotOf t y]? = some (mark t.length (ch t y < k ∧ flagL t p0 y) ((y - 1 : Nat) : Int))) ∧
        (∀ q, q < t.length → (∀ y, seedP t p0 y → slotOf t y ≠ q) → sa'[q]? = some 0)
  | 0, e, sa, he, hl, h1, h2 => by
    have : e = k := by omega
    subst this
    rw [List.drop_eq_nil_of_le (by rw [hc.1]; omega)]
    exact ⟨sa, rfl, hl, h1, h2⟩
  | todo + 1, e, sa, he, hl, h1, h2 => by
    have hc1 := hc.2 e (by omega)
    have hb1 := hb e (by omega)
    obtain ⟨hcl, hcv⟩ := List.getElem?_eq_some_iff.1 hc1
    obtain ⟨hbl', hbv⟩ := List.getElem?_eq_some_iff.1 hb1
    rw [List.drop_eq_getElem_cons hcl, List.drop_eq_getElem_cons hbl', hcv, hbv]
    unfold markFirst
    have hfin : start t e + cnt t.length (fun y => ch t y = e) = fin t e := (fin_eq t e).symm
    have hst : fin t e = start t (e + 1) := by
      unfold fin start
      apply cnt_congr
      intro x _
      omega
    rw [hfin]
    have hle : cnt t.length (fun y => seedP t p0 y ∧ ch t y = e) ≤ fin t e := by
      have : cnt t.length (fun y => seedP t p0 y ∧ ch t y = e) ≤ cnt t.length (fun y => ch t y = e) := cnt_mono fun y _ h => h.2
      omega
    by_cases hex : cnt t.length (fun y => seedP t p0 y ∧ ch t y = e) = 0
    · rw [hex, Nat.sub_zero]
      have hm : markAt t.length (decide (fin t e ≠ fin t e)) (fin t e) sa = .ok sa := by simp [markAt]
      rw [hm]
      simp only [Bind.bind, Except.bind]
      rw [hst]
      refine markFirst_loop hn2 hf hc hbl hb todo (e + 1) sa (by omega) hl (fun y hy => ?_) h2
      rw [h1 y hy]
      congr 1
      apply mark_congr
      have : ch t y ≠ e := by
        intro he
        have := cnt_pos (p := fun y => seedP t p0 y ∧ ch t y = e) (n := t.length) (a := y) (by have := isLms_lt hy.1; omega) ⟨hy, he⟩
        omega
      constructor
      · rintro ⟨g1, g2⟩
        exact ⟨by omega, g2⟩
      · rintro ⟨g1, g2⟩
        exact ⟨by omega, g2⟩
    · obtain ⟨x, hxl, hx, hxe⟩ := cnt_pos_ex (p := fun y => seedP t p0 y ∧ ch t y = e) (n := t.length) (by omega)
      obtain ⟨y0, y1, y2, y3, y4, y5⟩ := flag_first (mem := memL t p0) (act := actL t) (τ := posL t p0) (W := WL t) (posL t p0 x + 1) x (by omega) (.inr hx)
      have hyl : y0 < t.length := y1.elim (subL hf).ltA (subL hf).ltB
      obtain ⟨c1, c2⟩ := code_eq (WL_code hyl hxl y4)
      rw [isLms_S hx.1] at c2
      have hy0 : seedP t p0 y0 := by
        rcases y1 with hz | hz
        · have := hz.1.2
          rw [c2] at this; cases this
        · exact hz
      have hslot := slotOf_first hf hy0 y3
      rw [c1, hxe] at hslot
      rw [← hslot]
      have hlt : slotOf t y0 < fin t e := by omega
      have hv := h1 y0 hy0
      rw [mark_neg (by omega)] at hv
      have hm : markAt t.length (decide (slotOf t y0 ≠ fin t e)) (slotOf t y0) sa = .ok (sa.set (slotOf t y0) (((y0 - 1 : Nat) : Int) + t.length)) := by
        unfold markAt
        rw [if_pos (by simp; omega), rd_ok hv]
        simp only [Bind.bind, Except.bind]
        exact st_ok (half_range hn2 (by omega) (by have := hy0.1; omega)) (get_lt hv)
      rw [hm]
      simp only [Bind.bind, Except.bind]
      rw [hst]
      refine markFirst_loop hn2 hf hc hbl hb todo (e + 1) _ (by omega) (by rw [List.length_set, hl]) (fun y hy => ?_) (fun q hq hh => ?_)
      · by_cases he : y = y0
        · subst he
          rw [get_set_eq (get_lt hv), mark_pos ⟨by omega, y3⟩]
        · rw [get_set_ne (fun e => he (slotOf_inj hy0.1 hy.1 e).symm), h1 y hy]
          congr 1
          apply mark_congr
          constructor
          · rintro ⟨g1, g2⟩
            exact ⟨by omega, g2⟩
          · rintro ⟨g1, g2⟩
            refine ⟨?_, g2⟩
            by_cases hce : ch t y = e
            · have := slotOf_first hf hy g2
              rw [hce] at this
              exact absurd (slotOf_inj hy.1 hy0.1 (by omega)) he
            · omega
      · rw [get_set_ne (hh y0 hy0)]
        exact h2 q hq hh

/-! ### Moving the marks -/

theorem findMarked_ok {n : Int} {sa : List Int} : ∀ (i f : Nat) (v : Int), f < i → sa[f]? = some v → n ≤ v →
    (∀ r, f < r → r < i → ∃ w, sa[r]? = some w ∧ w < n) → findMarked n sa i = .ok f
  | 0, _, _, h, _, _, _ => by omega
  | i + 1, f, v, h, h1, h2, h3 => by
    unfold findMarked
    by_cases he : f = i
    · subst he
      rw [rd_ok h1]
      simp only [Bind.bind, Except.bind]
      rw [if_neg (by omega)]
    · obtain ⟨w, w1, w2⟩ := h3 i (by omega) (by omega)
      rw [rd_ok w1]
      simp only [Bind.bind, Except.bind]
      rw [if_pos w2]
      exact findMarked_ok i f v (by omega) h1 h2 fun r r1 r2 => h3 r r1 (by omega)

section
variable {U : Nat → Prop} {P : Nat → Nat} {W : Nat → List Nat} {n : Nat} {val : Nat → Nat}

/-- The elements from `i` on have the marks at the last of their groups, those before at the
first. -/
structure MInv (U : Nat → Prop) (P : Nat → Nat) (W : Nat → List Nat) (val : Nat → Nat) (n i : Nat) (sa : List Int) : Prop where
  len : sa.length = n
  hi : ∀ x, U x → i ≤ P x → sa[P x]? = some (mark n (∀ y, U y → P x < P y → W y ≠ W x) (val x))
  lo : ∀ x, U x → P x < i → sa[P x]? = some (mark n (∀ y, U y → P y < P x → W y ≠ W x) (val x))
  zero : ∀ q, q < n → (∀ x, U x → P x ≠ q) → sa[q]? = some 0
  edge : ∀ x y, U x → U y → P x < i → i ≤ P y → W x ≠ W y

theorem first_ex : ∀ (u x : Nat), P x < u → U x → ∃ y, U y ∧ W y = W x ∧ P y ≤ P x ∧ ∀ z, U z → P z < P y → W z ≠ W y
  | 0, _, h, _ => by omega
  | u + 1, x, h, hx => by
    by_cases hf : ∀ z, U z → P z < P x → W z ≠ W x
    · exact ⟨x, hx, rfl, Nat.le_refl _, hf⟩
    · have : ∃ y, U y ∧ P y < P x ∧ W y = W x := by
        apply Classical.byContradiction
        intro hn
        exact hf fun y h1 h2 h3 => hn ⟨y, h1, h2, h3⟩
      obtain ⟨y, h1, h2, h3⟩ := this
      obtain ⟨z, z1, z2, z3, z4⟩ := first_ex u y (by omega) h1
      exact ⟨z, z1, z2.trans h3, by omega, z4⟩

theorem moveMarks_ok (hn2 : Half n) (hP : ∀ x, U x → P x < n) (hinj : ∀ x y, U x → U y → P x = P y → x = y) (hv : ∀ x, U x → 0 < val x ∧ val x < n)
    (hcon : ∀ x y z, U x → U y → U z → P x < P y → P y < P z → W x = W z → W y = W x) :
    ∀ (fuel i : Nat) (sa : List Int), i ≤ fuel → i ≤ n → MInv U P W val n i sa →
      ∃ sa', moveMarks n fuel i sa = .ok sa' ∧ MInv U P W val n 0 sa'
  | fuel, 0, sa, _, _, h => ⟨sa, by unfold moveMarks; rfl, h⟩
  | 0, _ + 1, _, hfu, _, _ => by omega
  | fuel + 1, i + 1, sa, hfu, hin, h => by
    unfold moveMarks
    by_cases hx : ∃ x, U x ∧ P x = i
    · obtain ⟨x, hx, hp⟩ := hx
      obtain ⟨v1, v2⟩ := hv x hx
      have hlo := h.lo x hx (by omega)
      have hlast : ∀ y, U y → P x < P y → W y ≠ W x := fun y hy hlt e => h.edge x y hx hy (by omega) (by omega) e.symm
      rw [hp] at hlo
      rw [rd_ok hlo]
      simp only [Bind.bind, Except.bind]
      by_cases hfirst : ∀ y, U y → P y < P x → W y ≠ W x
      · have hge := (mark_ge (f := ∀ y, U y → P y < i → W y ≠ W x) v2).2 (by rw [← hp]; exact hfirst)
        rw [if_neg (by omega)]
        refine moveMarks_ok hn2 hP hinj hv hcon fuel i sa (by omega) (by omega) ⟨h.len, fun y hy h1 => ?_, fun y hy h1 => h.lo y hy (by omega), h.zero, fun y z hy hz h1 h2 => ?_⟩
        · by_cases he : P y = i
          · have := hinj y x hy hx (by omega)
            subst this
            rw [h.lo y hy (by omega), mark_pos hfirst, mark_pos hlast]
          · exact h.hi y hy (by omega)
        · by_cases he : P z = i
          · have := hinj z x hz hx (by omega)
            subst this
            exact hfirst y hy (by omega)
          · exact h.edge y z hy hz (by omega) (by omega)
      · have hfalse : ¬ ∀ y, U y → P y < i → W y ≠ W x := by rw [← hp]; exact hfirst
        rw [mark_neg hfalse] at hlo ⊢
        rw [if_pos (by omega), st_ok (half_range hn2 (by omega) (by omega)) (get_lt hlo)]
        simp only []
        obtain ⟨f, f1, f2, f3, f4⟩ := first_ex (U := U) (P := P) (W := W) (P x + 1) x (by omega) hx
        have hflt : P f < P x := by
          rcases Nat.lt_or_ge (P f) (P x) with h1 | h1
          · exact h1
          · rw [hinj f x f1 hx (by omega)] at f4
            exact absurd f4 hfirst
        have hin' : ∀ r, U r → P f < P r → P r < P x → W r = W f := fun r hr r1 r2 => hcon f r x f1 hr hx r1 r2 f2
        have hfget := h.lo f f1 (by omega)
        rw [mark_pos f4] at hfget
        have hfget' : (sa.set i ((val x : Int) + n))[P f]? = some ((val f : Int) + n) := by
          rw [get_set_ne (by omega)]; exact hfget
        have hfm := findMarked_ok (n := (n : Int)) (sa := sa.set i ((val x : Int) + n)) i (P f) _ (by omega) hfget' (by omega) (fun r r1 r2 => by
          rw [get_set_ne (by omega)]
          by_cases hr : ∃ y, U y ∧ P y = r
          · obtain ⟨y, y1, rfl⟩ := hr
            refine ⟨val y, ?_, by have := (hv y y1).2; omega⟩
            rw [h.lo y y1 (by omega), mark_neg]
            intro hh
            exact hh f f1 r1 (hin' y y1 r1 (by omega)).symm
          · have := h.zero r (by omega) (fun y hy e => hr ⟨y, hy, e⟩)
            exact ⟨0, this, by omega⟩)
        rw [hfm]
        simp only []
        rw [rd_ok hfget']
        simp only []
        rw [st_ok (half_range hn2 (by omega) (by have := (hv f f1).2; omega)) (get_lt hfget')]
        simp only []
        have e : (val f : Int) + n - n = val f := by omega
        rw [e]
        have hlen : i < sa.length := get_lt hlo
        refine moveMarks_ok hn2 hP hinj hv hcon fuel (P f) _ (by omega) (by omega) ⟨by simp only [List.length_set]; exact h.len, fun y hy h1 => ?_, fun y hy h1 => ?_, fun q hq hh => ?_, fun y z hy hz h1 h2 => ?_⟩
        · by_cases hyf : y = f
          · subst hyf
            rw [get_set_eq (get_lt hfget'), mark_neg]
            intro hh
            exact hh x hx hflt f2.symm
          · have hne : P f ≠ P y := fun e => hyf (hinj _ _ f1 hy e).symm
            rw [get_set_ne hne]
            by_cases hyx : y = x
            · subst hyx
              rw [hp, get_set_eq hlen, mark_pos (by rw [← hp]; exact hlast)]
            · have hne2 : P x ≠ P y := fun e => hyx (hinj _ _ hx hy e).symm
              rw [get_set_ne (by omega)]
              by_cases hlt : P y < P x
              · have hw := hin' y hy (by omega) hlt
                rw [h.lo y hy (by omega), mark_neg (fun hh => hh f f1 (by omega) hw.symm), mark_neg (fun hh => hh x hx hlt (f2.symm.trans hw.symm))]
              · exact h.hi y hy (by omega)
        · rw [get_set_ne (by omega), get_set_ne (by omega)]
          exact h.lo y hy (by omega)
        · rw [get_set_ne (hh f f1), get_set_ne (by rw [← hp]; exact hh x hx)]
          exact h.zero q hq hh
        · rcases Nat.lt_trichotomy (P z) (P x) with hlt | hlt | hlt
          · intro hw
            have hzf : W z = W f := by
              by_cases hzf : P f = P z
              · rw [hinj z f hz f1 hzf.symm]
              · exact hin' z hz (by omega) hlt
            exact f4 y hy h1 (hw.trans hzf)
          · have := hinj z x hz hx hlt
            subst this
            intro hw
            exact f4 y hy h1 (hw.trans f2.symm)
          · exact h.edge y z hy hz (by omega) (by omega)
    · have hz := h.zero i (by omega) (fun x h1 h2 => hx ⟨x, h1, h2⟩)
      rw [rd_ok hz]
      simp only [Bind.bind, Except.bind]
      rw [if_neg (by omega)]
      have hne : ∀ y, U y → P y ≠ i := fun y hy e => hx ⟨y, hy, e⟩
      refine moveMarks_ok hn2 hP hinj hv hcon fuel i sa (by omega) (by omega) ⟨h.len, fun y hy h1 => ?_, fun y hy h1 => h.lo y hy (by omega), h.zero, fun y z hy hz h1 h2 => ?_⟩
      · have := hne y hy
        exact h.hi y hy (by omega)
      · have := hne z hz
        exact h.edge y z hy hz (by omega) (by omega)
end

end Sais
end Detools
