import Verif.Proofs.SaisKeys
/-
SA-IS: the first way to sort the left-most S substrings.
-/
namespace Detools
namespace Sais

variable {t : List Nat} {k p0 : Nat}

/-! ### The left-most S positions in their buckets -/

theorem slotOrder (t : List Nat) : Order t (fun _ => False) (fun x => isLms t x = true) (fun x => [ch t x, x]) where
  ltA h := h.elim
  ltB h := by have := isLms_lt h; omega
  disj h := h.elim
  bucket h1 h2 h3 := .inl h3
  type h := h.elim
  inj h1 h2 h3 := by
    injection h3 with _ h3
    injection h3

/-- The element for a left-most S position in stage 1. -/
noncomputable def slotOf (t : List Nat) (x : Nat) : Nat := pos t (fun _ => False) (fun x => isLms t x = true) (fun x => [ch t x, x]) x

theorem slotOf_lt {x : Nat} (h : isLms t x = true) : slotOf t x < t.length := (slotOrder t).pos_lt (.inr h)

theorem slotOf_inj {x y : Nat} (hx : isLms t x = true) (hy : isLms t y = true) (h : slotOf t x = slotOf t y) : x = y :=
  (slotOrder t).pos_inj (.inr hx) (.inr hy) h

theorem slotOf_eq {x : Nat} (h : isLms t x = true) :
    slotOf t x + cnt t.length (fun y => isLms t y = true ∧ ch t y = ch t x ∧ x ≤ y) = fin t (ch t x) := by
  have := ((slotOrder t).posB h).2.2
  rw [← this]
  congr 1
  apply cnt_congr
  intro y _
  constructor
  · rintro ⟨h1, h2, h3⟩
    refine ⟨h1, h2, ?_⟩
    simp only [lex_cons, h2, Nat.lt_irrefl, false_or, true_and]
    have : ¬ Lex ([] : List Nat) [] := Lex.irrefl _
    simp only [this, and_false, or_false]
    omega
  · rintro ⟨h1, h2, h3⟩
    refine ⟨h1, h2, ?_⟩
    simp only [lex_cons, h2, Nat.lt_irrefl, false_or, true_and] at h3
    have : ¬ Lex ([] : List Nat) [] := Lex.irrefl _
    simp only [this, and_false, or_false] at h3
    omega

/-- The seeds of the first pass are in these elements. -/
theorem pos_seed (hf : IsFirst t p0) {x : Nat} (h : seedP t p0 x) : pos t (lowP t p0) (seedP t p0) (KL t) x = slotOf t x := by
  have h1 := ((sub_order hf).posB h).2.2
  have h2 := slotOf_eq h.1
  have h3 : cnt t.length (fun y => seedP t p0 y ∧ ch t y = ch t x ∧ ¬ Lex (KL t y) (KL t x)) =
      cnt t.length (fun y => isLms t y = true ∧ ch t y = ch t x ∧ x ≤ y) := by
    apply cnt_congr
    intro y _
    have key : ∀ (_ : isLms t y = true) (_ : ch t y = ch t x), ¬ Lex (KL t y) (KL t x) ↔ x ≤ y := by
      intro hy hc
      rw [KL_S (isLms_S hy), KL_S (isLms_S h.1), code_congr hc (by rw [isLms_S hy, isLms_S h.1])]
      have : ¬ Lex ([] : List Nat) [] := Lex.irrefl _
      simp only [lex_cons, Nat.lt_irrefl, false_or, true_and, this, and_false, or_false]
      omega
    constructor
    · rintro ⟨h1, h2, h3⟩
      exact ⟨h1.1, h2, (key h1.1 h2).1 h3⟩
    · rintro ⟨h1, h2, h3⟩
      have := h.2
      exact ⟨⟨h1, by omega⟩, h2, (key h1 h2).2 h3⟩
  omega

/-- After the left-most S positions above `i` were found. -/
structure PlInv (t : List Nat) (k i : Nat) (s : SaB) (pend : Pending) : Prop where
  lenA : s.sa.length = t.length
  lenB : s.b.length = k
  buck : ∀ c, c < k → s.b[c]? = some (fin t c - cnt t.length (fun y => isLms t y = true ∧ ch t y = c ∧ i < y))
  pend : match pend.slot with
    | none => ∀ y, isLms t y = true → y ≤ i
    | some q => isLms t (pend.j + 1) = true ∧ i < pend.j + 1 ∧ (∀ z, isLms t z = true → i < z → pend.j + 1 ≤ z) ∧ q = slotOf t (pend.j + 1)
  elem : ∀ y z, isLms t y = true → isLms t z = true → i < z → z < y → s.sa[slotOf t y]? = some ((y - 1 : Nat) : Int)
  zero : ∀ q, q < t.length → (∀ y z, isLms t y = true → isLms t z = true → i < z → z < y → slotOf t y ≠ q) → s.sa[q]? = some 0

theorem placeLms_loop (hn31 : Small t) (hk : ∀ x ∈ t, x < k) : ∀ (i : Nat) (s : SaB) (pend : Pending), i < t.length → PlInv t k i s pend →
    ∃ s' pend', placeLms t (lmsUpto t i) s pend = .ok (s', pend') ∧ PlInv t k 0 s' pend'
  | 0, s, pend, _, h => ⟨s, pend, rfl, h⟩
  | i + 1, s, pend, hi, h => by
    unfold lmsUpto
    by_cases hl : isLms t (i + 1) = true
    · rw [if_pos hl]
      have hck : ch t (i + 1) < k := hk _ (List.mem_of_getElem? (ch_get hi))
      have hsl := slotOf_eq hl
      have hc : cnt t.length (fun y => isLms t y = true ∧ ch t y = ch t (i + 1) ∧ i + 1 ≤ y) =
          cnt t.length (fun y => isLms t y = true ∧ ch t y = ch t (i + 1) ∧ i + 1 < y) + 1 := by
        rw [← cnt_insert (a := i + 1) hi (fun h => by omega)]
        apply cnt_congr
        intro y _
        constructor
        · rintro ⟨h1, h2, h3⟩
          by_cases he : y = i + 1
          · exact .inr he
          · exact .inl ⟨h1, h2, by omega⟩
        · rintro (⟨h1, h2, h3⟩ | rfl)
          · exact ⟨h1, h2, by omega⟩
          · exact ⟨hl, rfl, Nat.le_refl _⟩
      have hslot : fin t (ch t (i + 1)) - cnt t.length (fun y => isLms t y = true ∧ ch t y = ch t (i + 1) ∧ i + 1 < y) = slotOf t (i + 1) + 1 := by omega
      -- the pending one is stored
      have hst : ∃ sa, storePending s.sa pend = .ok sa ∧ sa.length = t.length ∧
          (∀ y z, isLms t y = true → isLms t z = true → i < z → z < y → sa[slotOf t y]? = some ((y - 1 : Nat) : Int)) ∧
          (∀ q, q < t.length → (∀ y z, isLms t y = true → isLms t z = true → i < z → z < y → slotOf t y ≠ q) → sa[q]? = some 0) := by
        have hp := h.pend
        cases hsl : pend.slot with
        | none =>
          rw [hsl] at hp
          refine ⟨s.sa, by rw [storePending, hsl], h.lenA, fun y z hy hz h1 h2 => ?_, fun q hq hh => ?_⟩
          · exact absurd (hp y hy) (by omega)
          · exact h.zero q hq fun y z hy hz h1 h2 => hh y z hy hz (by omega) h2
        | some q =>
          rw [hsl] at hp
          obtain ⟨p1, p2, p3, rfl⟩ := hp
          refine ⟨s.sa.set (slotOf t (pend.j + 1)) pend.j, by rw [storePending, hsl]; exact st_ok (range_of hn31 (by omega) (by have := isLms_lt p1; omega)) (by rw [h.lenA]; exact slotOf_lt p1), by rw [List.length_set, h.lenA], fun y z hy hz h1 h2 => ?_, fun q hq hh => ?_⟩
          · by_cases he : y = pend.j + 1
            · subst he
              rw [get_set_eq (by rw [h.lenA]; exact slotOf_lt p1)]
              rfl
            · rw [get_set_ne (fun e => he (slotOf_inj p1 hy e).symm)]
              have := p3 y hy (by omega)
              exact h.elem y (pend.j + 1) hy p1 p2 (by omega)
          · rw [get_set_ne (hh (pend.j + 1) (i + 1) p1 hl (by omega) p2)]
            exact h.zero q hq fun y z hy hz h1 h2 => hh y z hy hz (by omega) h2
      obtain ⟨sa, e1, e2, e3, e4⟩ := hst
      unfold placeLms
      rw [e1]
      simp only [Bind.bind, Except.bind]
      rw [rd_ch hi]
      simp only []
      rw [rd_ok (h.buck _ hck)]
      simp only []
      rw [dec_ok hslot]
      simp only []
      rw [wr_ok _ (by rw [h.lenB]; exact hck)]
      refine placeLms_loop hn31 hk i _ _ (by omega) ⟨e2, by rw [List.length_set]; exact h.lenB, ?_, ?_, e3, e4⟩
      · intro c hcc
        by_cases he : ch t (i + 1) = c
        · subst he
          rw [get_set_eq (by rw [h.lenB]; exact hcc)]
          congr 1
          have : cnt t.length (fun y => isLms t y = true ∧ ch t y = ch t (i + 1) ∧ i < y) =
            cnt t.length (fun y => isLms t y = true ∧ ch t y = ch t (i + 1) ∧ i + 1 ≤ y) := cnt_congr fun y _ => Iff.rfl
          omega
        · rw [get_set_ne he, h.buck c hcc]
          congr 2
          apply cnt_congr
          intro y _
          constructor
          · rintro ⟨h1, h2, h3⟩
            exact ⟨h1, h2, by omega⟩
          · rintro ⟨h1, h2, h3⟩
            refine ⟨h1, h2, ?_⟩
            by_cases hy : y = i + 1
            · subst hy; exact absurd h2 he
            · omega
      · exact ⟨hl, Nat.lt_succ_self i, fun z _ hz => hz, rfl⟩
    · rw [if_neg hl]
      have hne : ∀ y, isLms t y = true → (i < y ↔ i + 1 < y) := by
        intro y hy
        by_cases he : y = i + 1
        · subst he; exact absurd hy hl
        · omega
      refine placeLms_loop hn31 hk i _ _ (by omega) ⟨h.lenA, h.lenB, ?_, ?_, ?_, ?_⟩
      · intro c hcc
        rw [h.buck c hcc]
        congr 2
        apply cnt_congr
        intro y _
        constructor
        · rintro ⟨h1, h2, h3⟩
          exact ⟨h1, h2, (hne y h1).2 h3⟩
        · rintro ⟨h1, h2, h3⟩
          exact ⟨h1, h2, (hne y h1).1 h3⟩
      · have hp := h.pend
        cases hsl : pend.slot with
        | none =>
          rw [hsl] at hp
          intro y hy
          have := hp y hy
          have := hne y hy
          omega
        | some q =>
          rw [hsl] at hp
          exact ⟨hp.1, (hne _ hp.1).2 hp.2.1, fun z hz h1 => hp.2.2.1 z hz ((hne z hz).1 h1), hp.2.2.2⟩
      · intro y z hy hz h1 h2
        exact h.elem y z hy hz ((hne z hz).1 h1) h2
      · intro q hq hh
        exact h.zero q hq fun y z hy hz h1 h2 => hh y z hy hz ((hne z hz).2 h1) h2

/-- Stage 1 before sorting. -/
structure Placed (t : List Nat) (k p0 : Nat) (s : SaB) : Prop where
  lenA : s.sa.length = t.length
  lenB : s.b.length = k
  buck : ∀ c, c < k → s.b[c]? = some (fin t c - cnt t.length (fun y => isLms t y = true ∧ ch t y = c))
  elem : ∀ y, seedP t p0 y → s.sa[slotOf t y]? = some ((y - 1 : Nat) : Int)
  zero : ∀ q, q < t.length → (∀ y, seedP t p0 y → slotOf t y ≠ q) → s.sa[q]? = some 0

theorem placeLms_ok {c : List Nat} (hn31 : Small t) (hk : ∀ x ∈ t, x < k) (hc : IsCounts t k c) (hf : IsFirst t p0) :
    ∃ s, placeLms t (lmsList t) ⟨List.replicate t.length 0, bucketEnds 0 c⟩ ⟨none, t.length⟩ = .ok (s, ⟨some (slotOf t p0), p0 - 1⟩) ∧
      Placed t k p0 s := by
  have hp0 := isLms_lt hf.lms
  have hpp := isLms_pos hf.lms
  have hle : ∀ y, isLms t y = true → y ≤ t.length - 1 := fun y hy => by have := isLms_lt hy; omega
  obtain ⟨s, pend, h1, h2⟩ := placeLms_loop (t := t) (k := k) hn31 hk (t.length - 1) ⟨List.replicate t.length 0, bucketEnds 0 c⟩ ⟨none, t.length⟩ (by omega)
    ⟨by simp, by rw [bucketEnds_length, hc.1], fun x hx => by
        rw [ends_get hc hx, cnt_false, Nat.sub_zero]
        rintro y _ ⟨h1, _, h3⟩
        have := hle y h1
        omega,
      hle, fun y z hy hz h1 h2 => by have := hle z hz; omega, fun q hq _ => by rw [List.getElem?_replicate, if_pos hq]⟩
  have hp := h2.pend
  refine ⟨s, ?_, h2.lenA, h2.lenB, ?_, ?_, ?_⟩
  · unfold lmsList
    rw [h1]
    obtain ⟨slot, j⟩ := pend
    cases slot with
    | none => exact absurd (hp p0 hf.lms) (by omega)
    | some q =>
      obtain ⟨q1, q2, q3, q4⟩ := hp
      simp only at q1 q3 q4
      have := hf.first _ q1
      have := q3 _ hf.lms hpp
      have e : j + 1 = p0 := by omega
      have e2 : j = p0 - 1 := by omega
      rw [q4, e, e2]
  · intro x hx
    rw [h2.buck x hx]
    congr 2
    apply cnt_congr
    intro y _
    exact ⟨fun h => ⟨h.1, h.2.1⟩, fun h => ⟨h.1, h.2, isLms_pos h.1⟩⟩
  · intro y hy
    exact h2.elem y p0 hy.1 hf.lms hpp hy.2
  · intro q hq hh
    exact h2.zero q hq fun y z hy hz h3 h4 => hh y ⟨hy, by have := hf.first z hz; omega⟩

/-! ### The first pass -/

/-- The element for a position in the first pass. -/
def ent1 (t : List Nat) (x : Nat) : Int := if isS t (x - 1) then inv ((x - 1 : Nat) : Int) else ((x - 1 : Nat) : Int)

/-- What is left of it. -/
def ent1' (t : List Nat) (x : Nat) : Int := if isS t (x - 1) then ((x - 1 : Nat) : Int) else 0

theorem ent1_range (hn : Small t) {x : Nat} (hx : x < t.length) : -2 ^ 31 ≤ ent1 t x ∧ ent1 t x < 2 ^ 31 := by
  refine range_of hn ?_ ?_ <;> (unfold ent1 inv; repeat' split) <;> omega

/-- The value stored for the L position `y`. -/
theorem ent1_L {y : Nat} (hy : isL t y) (h0 : 0 < y) :
    (if ch t (y - 1) < ch t y then inv ((y : Int) - 1) else (y : Int) - 1) = ent1 t y := by
  unfold ent1
  have e : ((y - 1 : Nat) : Int) = (y : Int) - 1 := by omega
  cases y with
  | zero => omega
  | succ z =>
    have hb := isS_before_L hy.1 hy.2
    rw [e]
    simp only [Nat.add_sub_cancel]
    by_cases h : ch t z < ch t (z + 1)
    · rw [if_pos h, if_pos (hb.2 h)]
    · rw [if_neg h, if_neg (fun hs => h (hb.1 hs))]

theorem sub_next (hf : IsFirst t p0) {x : Nat} (hx : lowP t p0 x ∨ seedP t p0 x) : ∃ y, x = y + 1 ∧ p0 ≤ y ∧ 0 < y := by
  have := isLms_pos hf.lms
  have : p0 < x := hx.elim And.right And.right
  exact ⟨x - 1, by omega, by omega, by omega⟩

theorem sort1L_step (hn31 : Small t) (hk : ∀ x ∈ t, x < k) (hf : IsFirst t p0) (i : Nat) (s : SaB) (hi : i < t.length)
    (h : LInv t (lowP t p0) (seedP t p0) (KL t) (ent1 t) (ent1' t) 0 0 k i s) :
    ∃ s', sort1LStep t i s = .ok s' ∧ LInv t (lowP t p0) (seedP t p0) (KL t) (ent1 t) (ent1' t) 0 0 k (i + 1) s' := by
  have o := subL hf
  by_cases hx : ∃ x, (lowP t p0 x ∨ seedP t p0 x) ∧ pos t (lowP t p0) (seedP t p0) (KL t) x = i
  · obtain ⟨x, hx, hp⟩ := hx
    have hj := o.at h hx hp
    have hxl : x < t.length := hx.elim o.ltA o.ltB
    obtain ⟨y, rfl, hy, hy0⟩ := sub_next hf hx
    unfold sort1LStep
    rw [rd_ok hj]
    simp only [Bind.bind, Except.bind]
    rcases S_or_L t y with hs | hs
    · have he : ent1 t (y + 1) = inv (y : Int) := by simp [ent1, hs]
      have he' : inv (inv (y : Int)) = ent1' t (y + 1) := by simp [ent1', hs, inv]; omega
      rw [he, if_neg (by unfold inv; omega), if_pos (by unfold inv; omega), st_ok (range_of hn31 (by unfold inv; omega) (by unfold inv; omega)) (get_lt hj), he']
      refine ⟨_, rfl, o.keep h hx hp (fun z hz hl => ?_)⟩
      have : z = y := by omega
      subst this
      exact (sufS t).disj hl.1 hs
    · have he : ent1 t (y + 1) = (y : Int) := by simp [ent1, hs]
      have he' : ent1' t (y + 1) = 0 := by simp [ent1', hs]
      have hl : lowP t p0 y := by
        refine ⟨⟨by omega, hs⟩, ?_⟩
        by_cases e : p0 = y
        · have := isLms_S hf.lms
          rw [e, hs] at this; cases this
        · omega
      rw [he, if_pos (by omega), Int.toNat_natCast, rd_ch (by omega)]
      simp only []
      rw [dec_ok (j := y - 1) (by omega)]
      simp only []
      rw [rd_ch (by omega)]
      obtain ⟨hq, hlt⟩ := o.slot h hk hx hl hp
      simp only []
      rw [rd_ok hq]
      simp only []
      rw [ent1_L hl.1 hy0, st_ok (ent1_range hn31 hl.1.1) (by rw [h.lenA]; exact o.pos_lt (.inl hl))]
      simp only []
      rw [wr_ok _ (get_lt hq)]
      simp only []
      rw [wr_ok _ (by rw [List.length_set]; exact get_lt hj)]
      refine ⟨_, rfl, ?_⟩
      have := o.push h hk hx hl hp
      rw [he'] at this
      exact this
  · have hx' : ∀ x, lowP t p0 x ∨ seedP t p0 x → pos t (lowP t p0) (seedP t p0) (KL t) x ≠ i := fun x h1 h2 => hx ⟨x, h1, h2⟩
    obtain ⟨hj, hn⟩ := o.empty h hi hx'
    rw [set_id hj] at hn
    unfold sort1LStep
    rw [rd_ok hj]
    exact ⟨_, rfl, hn⟩

/-! ### The second pass -/

/-- The element for a position in the second pass. -/
def ent2 (t : List Nat) (x : Nat) : Int :=
  if isS t (x - 1) then ((x - 1 : Nat) : Int) else if isS t x then inv (x : Int) else 0

/-- What is left of it. -/
def ent2' (t : List Nat) (x : Nat) : Int :=
  if isS t (x - 1) then 0 else if isS t x then inv (x : Int) else 0

/-- The value stored for the S position `y`. -/
theorem ent2_S {y : Nat} (hy : isS t y = true) (h0 : 0 < y) :
    (if ch t y < ch t (y - 1) then inv (y : Int) else (y : Int) - 1) = ent2 t y := by
  unfold ent2
  have e : ((y - 1 : Nat) : Int) = (y : Int) - 1 := by omega
  cases y with
  | zero => omega
  | succ z =>
    have hb := isL_before_S hy
    rw [e]
    simp only [Nat.add_sub_cancel]
    by_cases h : ch t (z + 1) < ch t z
    · rw [if_pos h, if_neg (by rw [hb.2 h]; simp), if_pos hy]
    · rw [if_neg h, if_pos]
      rcases S_or_L t z with hz | hz
      · exact hz
      · exact absurd (hb.1 hz) h

theorem high_next (hf : IsFirst t p0) {x : Nat} (hx : lowP t p0 x ∨ highP t p0 x) : ∃ y, x = y + 1 ∧ (isS t y = true → p0 ≤ y ∧ 0 < y) := by
  have h0 := isLms_pos hf.lms
  obtain ⟨_, z, hz, hzL⟩ := isLms_iff.1 hf.lms
  have : p0 ≤ x := by
    rcases hx with h | h
    · exact Nat.le_of_lt h.2
    · exact h.2
  refine ⟨x - 1, by omega, fun hs => ?_⟩
  by_cases he : x = p0
  · have e : x - 1 = z := by omega
    rw [e, hzL] at hs; cases hs
  · omega

theorem ent2_range (hn : Small t) {x : Nat} (hx : x < t.length) : -2 ^ 31 ≤ ent2 t x ∧ ent2 t x < 2 ^ 31 := by
  refine range_of hn ?_ ?_ <;> (unfold ent2 inv; repeat' split) <;> omega

theorem sort1S_step (hn31 : Small t) (hk : ∀ x ∈ t, x < k) (hf : IsFirst t p0) (i : Nat) (s : SaB) (hi : i < t.length)
    (h : SInv t (lowP t p0) (highP t p0) (KS t) (ent2 t) (ent2' t) 0 0 k (i + 1) s) :
    ∃ s', sort1SStep t i s = .ok s' ∧ SInv t (lowP t p0) (highP t p0) (KS t) (ent2 t) (ent2' t) 0 0 k i s' := by
  have o := subS hf
  by_cases hx : ∃ x, (lowP t p0 x ∨ highP t p0 x) ∧ pos t (lowP t p0) (highP t p0) (KS t) x = i
  · obtain ⟨x, hx, hp⟩ := hx
    have hj := o.at h hx hp
    have hxl : x < t.length := hx.elim o.ltA o.ltB
    obtain ⟨y, rfl, hy⟩ := high_next hf hx
    unfold sort1SStep
    rw [rd_ok hj]
    simp only [Bind.bind, Except.bind]
    rcases S_or_L t y with hs | hs
    · obtain ⟨hy, hy0⟩ := hy hs
      have he : ent2 t (y + 1) = (y : Int) := by simp [ent2, hs]
      have he' : ent2' t (y + 1) = 0 := by simp [ent2', hs]
      have hl : highP t p0 y := ⟨hs, hy⟩
      rw [he, if_pos (by omega), Int.toNat_natCast, rd_ch (by omega)]
      simp only []
      rw [dec_ok (j := y - 1) (by omega)]
      simp only []
      rw [rd_ch (by omega)]
      obtain ⟨hq, hlt⟩ := o.slot h hk hx hl hp
      simp only []
      rw [rd_ok hq]
      simp only []
      rw [dec_succ]
      simp only []
      rw [wr_ok _ (get_lt hq)]
      simp only []
      rw [ent2_S hs hy0, st_ok (ent2_range hn31 (x := y) (by omega)) (by rw [h.lenA]; exact o.pos_lt (.inr hl))]
      simp only []
      rw [wr_ok _ (by rw [List.length_set]; exact get_lt hj)]
      refine ⟨_, rfl, ?_⟩
      have := o.push h hk hx hl hp
      rw [he'] at this
      exact this
    · have he : ent2' t (y + 1) = ent2 t (y + 1) := by simp [ent2', ent2, hs]
      have hle : ¬ 0 < ent2 t (y + 1) := by
        unfold ent2 inv
        simp only [Nat.add_sub_cancel, hs, Bool.false_eq_true, if_false]
        split <;> omega
      rw [if_neg hle]
      refine ⟨_, rfl, ?_⟩
      have := o.keep h hx hp (fun z hz hl => by
        have : z = y := by omega
        subst this
        have hl := hl.1
        rw [hs] at hl
        cases hl)
      rw [he, set_id hj] at this
      exact this
  · have hx' : ∀ x, lowP t p0 x ∨ highP t p0 x → pos t (lowP t p0) (highP t p0) (KS t) x ≠ i := fun x h1 h2 => hx ⟨x, h1, h2⟩
    obtain ⟨hj, hn⟩ := o.empty h hi hx'
    rw [set_id hj] at hn
    unfold sort1SStep
    rw [rd_ok hj]
    exact ⟨_, rfl, hn⟩

/-- The place of a left-most S substring. -/
noncomputable def subPos (t : List Nat) (p0 x : Nat) : Nat := pos t (lowP t p0) (highP t p0) (KS t) x

/-- The sorted left-most S substrings: `v x` is the element for position `x`. -/
structure SubSorted (t : List Nat) (p0 : Nat) (v : Nat → Int) (sa : List Int) : Prop where
  len : sa.length = t.length
  elem : ∀ x, isLms t x = true → sa[subPos t p0 x]? = some (v x)
  zero : ∀ q, q < t.length → (∀ x, isLms t x = true → subPos t p0 x ≠ q) → sa[q]? = some 0

theorem lms_high (hf : IsFirst t p0) {x : Nat} (h : isLms t x = true) : highP t p0 x := ⟨isLms_S h, hf.first x h⟩

theorem lmsSort1_ok {c : List Nat} {s : SaB} (hn31 : Small t) (hk : ∀ x ∈ t, x < k) (hc : IsCounts t k c) (hf : IsFirst t p0) (hs : Placed t k p0 s) :
    ∃ sa', lmsSort1 t c s.sa = .ok sa' ∧ SubSorted t p0 (fun x => inv (x : Int)) sa' := by
  have oL := subL hf
  have oS := subS hf
  have h0 := oL.pos
  have hp0 := isLms_lt hf.lms
  have hpp := isLms_pos hf.lms
  have hck : ch t (t.length - 1) < k := hk _ (List.mem_of_getElem? (ch_get (t := t) (x := t.length - 1) (by omega)))
  have hb : (bucketStarts 0 c)[ch t (t.length - 1)]? = some (start t (ch t (t.length - 1))) := starts_get hc hck
  have hlt : start t (ch t (t.length - 1)) < s.sa.length := by
    rw [hs.lenA, ← oL.pos_last]
    exact oL.pos_lt (.inl oL.last)
  unfold lmsSort1
  simp only []
  rw [rd_ch (by omega)]
  simp only [Bind.bind, Except.bind]
  rw [rd_ok hb]
  simp only []
  rw [rd_ch (by omega)]
  simp only []
  have e2 : ((t.length - 2 : Nat) : Int) = ((t.length - 1 : Nat) : Int) - 1 := by omega
  have e3 : t.length - 2 = t.length - 1 - 1 := by omega
  rw [e2, e3, ent1_L oL.last.1 (by omega), st_ok (ent1_range hn31 oL.last.1.1) hlt]
  simp only []
  rw [wr_ok _ (get_lt hb)]
  simp only []
  have hinit := oL.init (k := k) (ent := ent1 t) (ent' := ent1' t) (emp := 0) (emp' := 0) (sa := s.sa) (b := bucketStarts 0 c) hk hs.lenA
    (by rw [bucketStarts_length, hc.1])
    (fun x hx => by
      rw [pos_seed hf hx, hs.elem x hx]
      obtain ⟨y, rfl, _, _⟩ := sub_next hf (.inr hx)
      simp [ent1, isLms_pred hx.1])
    (fun q hq hx => hs.zero q hq fun y hy => by rw [← pos_seed hf hy]; exact hx y hy)
    (fun x hx => starts_get hc hx)
  obtain ⟨s1, g1, g2⟩ := upLoop_inv (n := t.length)
    (LInv t (lowP t p0) (seedP t p0) (KL t) (ent1 t) (ent1' t) 0 0 k) (sort1L_step hn31 hk hf) t.length 0 _ (by omega) hinit
  rw [g1]
  simp only []
  obtain ⟨d1, d2⟩ := oL.done g2
  have hpos : ∀ x, lowP t p0 x → pos t (lowP t p0) (highP t p0) (KS t) x = pos t (lowP t p0) (seedP t p0) (KL t) x := by
    intro x hx
    rw [pos_A hx, pos_A hx]
    congr 1
    apply cnt_congr
    intro y _
    constructor
    · rintro ⟨h1, h2, h3⟩
      rw [KS_L h1.1.1 h1.1.2, KS_L hx.1.1 hx.1.2] at h3
      exact ⟨h1, h2, h3⟩
    · rintro ⟨h1, h2, h3⟩
      rw [KS_L h1.1.1 h1.1.2, KS_L hx.1.1 hx.1.2]
      exact ⟨h1, h2, h3⟩
  have hinit2 := oS.init (k := k) (ent := ent2 t) (ent' := ent2' t) (emp := 0) (emp' := 0) (sa := s1.sa) (b := bucketEnds 0 c) g2.lenA
    (by rw [bucketEnds_length, hc.1])
    (fun x hx => by
      rw [hpos x hx, d1 x (.inl hx)]
      simp [ent1', ent2, hx.1.2])
    (fun q hq hx => by
      by_cases he : ∃ x, (lowP t p0 x ∨ seedP t p0 x) ∧ pos t (lowP t p0) (seedP t p0) (KL t) x = q
      · obtain ⟨x, hx1, hx2⟩ := he
        rcases hx1 with hx1 | hx1
        · exact absurd (by rw [hpos x hx1, hx2]) (hx x (.inl hx1))
        · rw [← hx2, d1 x (.inr hx1)]
          obtain ⟨y, rfl, _, _⟩ := sub_next hf (.inr hx1)
          simp [ent1', isLms_pred hx1.1]
      · exact d2 q hq fun x h1 h2 => he ⟨x, h1, h2⟩)
    (fun x hx => ends_get hc hx)
  obtain ⟨s2, g3, g4⟩ := downLoop_inv (n := t.length)
    (SInv t (lowP t p0) (highP t p0) (KS t) (ent2 t) (ent2' t) 0 0 k) (sort1S_step hn31 hk hf) t.length _ (Nat.le_refl _) hinit2
  rw [g3]
  obtain ⟨e1, e4⟩ := oS.done g4
  refine ⟨_, rfl, g4.lenA, ?_, ?_⟩
  · intro x hx
    have := e1 x (.inr (lms_high hf hx))
    unfold subPos
    rw [this]
    obtain ⟨_, y, rfl, hy⟩ := isLms_iff.1 hx
    simp [ent2', hy, isLms_S hx]
  · intro q hq hh
    by_cases he : ∃ x, (lowP t p0 x ∨ highP t p0 x) ∧ pos t (lowP t p0) (highP t p0) (KS t) x = q
    · obtain ⟨x, hx1, hx2⟩ := he
      rw [← hx2, e1 x hx1]
      obtain ⟨y, rfl, _⟩ := high_next hf hx1
      have hn : isLms t (y + 1) = false := by
        cases hl : isLms t (y + 1) with
        | false => rfl
        | true => exact absurd hx2 (hh _ hl)
      unfold ent2'
      simp only [isLms, Bool.and_eq_false_iff, Bool.not_eq_false'] at hn
      simp only [Nat.add_sub_cancel]
      rcases hn with hn | hn
      · rw [hn]; simp
      · rw [hn]; simp
    · exact e4 q hq fun x h1 h2 => he ⟨x, h1, h2⟩

end Sais
end Detools
