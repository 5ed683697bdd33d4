import Verif.Proofs.SaisNames
/-
SA-IS: the first way to name the left-most S substrings.
-/
namespace Detools
namespace Sais

variable {t : List Nat} {k p0 : Nat}

/-- The element for the name of a position. -/
noncomputable def nslot (t : List Nat) (x : Nat) : Nat := lcount t + x / 2

theorem lms_two {x y : Nat} (hx : isLms t x = true) (hy : isLms t y = true) (h : x < y) : x + 2 ≤ y := by
  by_cases he : y = x + 1
  · subst he
    rw [isLms_apart hx] at hy
    cases hy
  · omega

theorem nslot_inj {x y : Nat} (hx : isLms t x = true) (hy : isLms t y = true) (h : nslot t x = nslot t y) : x = y := by
  unfold nslot at h
  rcases Nat.lt_trichotomy x y with h1 | h1 | h1
  · have := lms_two hx hy h1; omega
  · exact h1
  · have := lms_two hy hx h1; omega

theorem nslot_lt {x : Nat} (hx : isLms t x = true) : nslot t x < t.length := by
  have := isLms_lt hx
  have := lcount_half (t := t) (by omega)
  unfold nslot
  omega

/-- The sorted substrings, and a number for each position. -/
structure Slots (t : List Nat) (w f : Nat → Int) (sa : List Int) : Prop where
  len : sa.length = t.length
  elem : ∀ x, isLms t x = true → sa[srank t x]? = some (w x)
  slot : ∀ x, isLms t x = true → sa[nslot t x]? = some (f x)
  zero : ∀ r, lcount t ≤ r → r < t.length → (∀ x, isLms t x = true → nslot t x ≠ r) → sa[r]? = some 0

/-- One number is changed. -/
theorem Slots.set {w f g : Nat → Int} {sa : List Int} (h : Slots t w f sa) {x : Nat} (hx : isLms t x = true)
    (hg : ∀ y, isLms t y = true → y ≠ x → g y = f y) : Slots t w g (sa.set (nslot t x) (g x)) := by
  refine ⟨by rw [List.length_set, h.len], fun y hy => ?_, fun y hy => ?_, fun r h1 h2 h3 => ?_⟩
  · rw [get_set_ne (by have := srank_lt hy; unfold nslot; omega)]
    exact h.elem y hy
  · by_cases he : y = x
    · subst he
      exact get_set_eq (by rw [h.len]; exact nslot_lt hx)
    · rw [get_set_ne (fun e => he (nslot_inj hx hy e).symm), h.slot y hy, hg y hy he]
  · rw [get_set_ne (h3 x hx)]
    exact h.zero r h1 h2 h3

theorem Slots.congr {w f g : Nat → Int} {sa : List Int} (h : Slots t w f sa) (hg : ∀ y, isLms t y = true → g y = f y) : Slots t w g sa :=
  ⟨h.len, h.elem, fun x hx => by rw [hg x hx]; exact h.slot x hx, h.zero⟩

theorem Front.slots {w : Nat → Int} {sa : List Int} (h : Front t w sa) : Slots t w (fun _ => 0) sa :=
  ⟨h.len, h.elem, fun x hx => h.zero _ (by unfold nslot; omega) (nslot_lt hx), fun r h1 h2 _ => h.zero r h1 h2⟩

/-! ### Lengths -/

/-- The length of a left-most S substring. -/
def sublen (t : List Nat) (x : Nat) : Nat := if ns t x = t.length then t.length - x else ns t x - x + 1

theorem sublen_pos {x : Nat} (hx : x < t.length) : 0 < sublen t x := by
  unfold sublen
  split <;> omega

theorem ns_is {x j : Nat} (hx : x < t.length) (hj : isLms t j = true) (h : x < j) (hm : ∀ z, isLms t z = true → x < z → j ≤ z) : ns t x = j := by
  obtain ⟨h1, h2, h3, h4⟩ := ns_spec hx
  by_cases hl : ns t x < t.length
  · have h5 := hm _ (h3 hl) h1
    by_cases he : j < ns t x
    · rw [h4 j h he] at hj; cases hj
    · omega
  · have := isLms_lt hj
    rw [h4 j h (by omega)] at hj; cases hj

theorem ns_none {x : Nat} (hx : x < t.length) (hm : ∀ z, isLms t z = true → z ≤ x) : ns t x = t.length := by
  obtain ⟨h1, h2, h3, h4⟩ := ns_spec hx
  by_cases hl : ns t x < t.length
  · have := hm _ (h3 hl)
    omega
  · omega

theorem storeLengths_ok (hn31 : Small t) {w : Nat → Int} : ∀ (i j : Nat) (sa : List Int), i < t.length →
    ((j = t.length - 1 ∧ ∀ y, isLms t y = true → y ≤ i) ∨ (isLms t j = true ∧ i < j ∧ ∀ z, isLms t z = true → i < z → j ≤ z)) →
    Slots t w (fun x => if i < x then (sublen t x : Int) else 0) sa →
    ∃ sa', storeLengths (lcount t) (lmsUpto t i) j sa = .ok sa' ∧ Slots t w (fun x => (sublen t x : Int)) sa'
  | 0, j, sa, hi, _, h => ⟨sa, rfl, h.congr fun y hy => by rw [if_pos (isLms_pos hy)]⟩
  | i + 1, j, sa, hi, hj, h => by
    unfold lmsUpto
    by_cases hl : isLms t (i + 1) = true
    · rw [if_pos hl]
      unfold storeLengths
      have hj31 : j ≤ t.length := by
        rcases hj with ⟨h1, _⟩ | ⟨h1, _⟩
        · omega
        · have := isLms_lt h1
          omega
      have hw := st_ok (a := sa) (i := nslot t (i + 1)) (v := (j : Int) - (i + 1 - 1 : Nat)) (range_of hn31 (by omega) (by omega)) (by rw [h.len]; exact nslot_lt hl)
      unfold nslot at hw
      rw [hw]
      have hv : (j : Int) - (i + 1 - 1 : Nat) = (if i < i + 1 then (sublen t (i + 1) : Int) else 0) := by
        rw [if_pos (by omega)]
        unfold sublen
        rcases hj with ⟨h1, h2⟩ | ⟨h1, h2, h3⟩
        · rw [ns_none hi h2, if_pos rfl]
          omega
        · rw [ns_is hi h1 h2 h3, if_neg (by have := isLms_lt h1; omega)]
          omega
      have hset := h.set (g := fun x => if i < x then (sublen t x : Int) else 0) hl (fun y hy hne => by
        by_cases h1 : i < y
        · rw [if_pos h1, if_pos (by omega)]
        · rw [if_neg h1, if_neg (by omega)])
      simp only [Bind.bind, Except.bind]
      refine storeLengths_ok hn31 i (i + 1) _ (by omega) (.inr ⟨hl, by omega, fun z _ hz => hz⟩) ?_
      have hset' := hset
      rw [← hv] at hset'
      exact hset'
    · rw [if_neg hl]
      have hne : ∀ y, isLms t y = true → y ≠ i + 1 := fun y hy e => hl (e ▸ hy)
      refine storeLengths_ok hn31 i j sa (by omega) ?_ (h.congr fun y hy => ?_)
      · rcases hj with ⟨h1, h2⟩ | ⟨h1, h2, h3⟩
        · exact .inl ⟨h1, fun y hy => by have := h2 y hy; have := hne y hy; omega⟩
        · exact .inr ⟨h1, by omega, fun z hz h4 => h3 z hz (by have := hne z hz; omega)⟩
      · have := hne y hy
        by_cases h1 : i < y
        · rw [if_pos h1, if_pos (by omega)]
        · rw [if_neg h1, if_neg (by omega)]

/-! ### Comparing substrings -/

theorem sameChars_ok : ∀ (len p q : Nat), p + len ≤ t.length → q + len ≤ t.length →
    ∃ b, sameChars t len p q = .ok b ∧ (b = true ↔ ∀ i, i < len → ch t (p + i) = ch t (q + i))
  | 0, p, q, _, _ => ⟨true, rfl, by simp⟩
  | len + 1, p, q, hp, hq => by
    unfold sameChars
    rw [rd_ch (by omega)]
    simp only [Bind.bind, Except.bind]
    rw [rd_ch (by omega)]
    simp only []
    by_cases h : ch t p = ch t q
    · rw [if_pos h]
      obtain ⟨b, h1, h2⟩ := sameChars_ok len (p + 1) (q + 1) (by omega) (by omega)
      refine ⟨b, h1, h2.trans ⟨fun hh i hi => ?_, fun hh i hi => ?_⟩⟩
      · cases i with
        | zero => exact h
        | succ i =>
          have := hh i (by omega)
          rw [Nat.add_right_comm, Nat.add_right_comm q] at this
          exact this
      · have := hh (i + 1) (by omega)
        rw [Nat.add_right_comm, Nat.add_right_comm q]
        exact this
    · rw [if_neg h]
      refine ⟨false, rfl, ?_⟩
      simp only [Bool.false_eq_true, false_iff]
      intro hh
      exact h (hh 0 (by omega))

/-- Equal characters and an equal last type mean equal types. -/
theorem types_eq {p q : Nat} : ∀ (d : Nat), p + d < t.length → q + d < t.length → (∀ i, i ≤ d → ch t (p + i) = ch t (q + i)) →
    isS t (p + d) = isS t (q + d) → isS t p = isS t q
  | 0, _, _, _, h => h
  | d + 1, hp, hq, hc, h => by
    have h1 : isS t (p + d) = isS t (q + d) := by
      have c1 := hc d (by omega)
      have c2 := hc (d + 1) (by omega)
      have e1 := isS_iff (t := t) (x := p + d) hp
      have e2 := isS_iff (t := t) (x := q + d) hq
      rw [c1, show p + d + 1 = p + (d + 1) from rfl, c2, h] at e1
      rw [Bool.eq_iff_iff, e1, e2]
      rfl
    exact types_eq d (by omega) (by omega) (fun i hi => hc i (by omega)) h1

theorem codes_eq {p q d : Nat} (hp : p + d < t.length) (hq : q + d < t.length) (hc : ∀ i, i ≤ d → ch t (p + i) = ch t (q + i))
    (h : isS t (p + d) = isS t (q + d)) (i : Nat) (hi : i ≤ d) : code t (p + i) = code t (q + i) := by
  refine code_congr (hc i hi) ?_
  obtain ⟨e, rfl⟩ : ∃ e, d = i + e := ⟨d - i, by omega⟩
  refine types_eq e (by omega) (by omega) (fun j hj => ?_) ?_
  · have := hc (i + j) (by omega)
    rw [Nat.add_assoc, Nat.add_assoc]
    exact this
  · rw [Nat.add_assoc, Nat.add_assoc]
    exact h

theorem WL_congr : ∀ (d p q : Nat), q + d < t.length → p + d < t.length → nl t q = q + d → (∀ i, i ≤ d → code t (p + i) = code t (q + i)) → WL t p = WL t q
  | 0, p, q, hq, hp, hn, hc => by
    have h0 := hc 0 (Nat.le_refl _)
    have hs := (nl_spec (t := t) (x := q) (by omega)).2.2.1
    rw [hn] at hs
    have hs := hs hq
    have := (code_eq h0).2
    rw [Nat.add_zero, Nat.add_zero] at *
    rw [WL_S hs, WL_S (this.trans hs), h0]
  | d + 1, p, q, hq, hp, hn, hc => by
    have h0 := hc 0 (by omega)
    rw [Nat.add_zero, Nat.add_zero] at h0
    have hL : isS t q = false := (nl_spec (t := t) (x := q) (by omega)).2.2.2 q (Nat.le_refl _) (by omega)
    have hL' : isS t p = false := (code_eq h0).2.trans hL
    rw [WL_L (x := q) (by omega) hL, WL_L (x := p) (by omega) hL', h0]
    rw [nl_L (by omega) hL] at hn
    rw [WL_congr d (p + 1) (q + 1) (by omega) (by omega) (by omega) (fun i hi => by
      have := hc (i + 1) (by omega)
      rw [Nat.add_right_comm, Nat.add_right_comm q]
      exact this)]

theorem WS_congr : ∀ (d p q : Nat), q + d < t.length → p + d < t.length → ns t q = q + d → (∀ i, i ≤ d → code t (p + i) = code t (q + i)) → WS t p = WS t q
  | 0, p, q, hq, hp, hn, hc => by
    have := (ns_spec (t := t) (x := q) (by omega)).1
    omega
  | d + 1, p, q, hq, hp, hn, hc => by
    have h0 := hc 0 (by omega)
    rw [Nat.add_zero, Nat.add_zero] at h0
    rcases S_or_L t q with hs | hs
    · have hs' : isS t p = true := (code_eq h0).2.trans hs
      rw [WS_S hs, WS_S hs', h0]
      rw [ns_S hs] at hn
      rw [WS_congr d (p + 1) (q + 1) (by omega) (by omega) (by omega) (fun i hi => by
        have := hc (i + 1) (by omega)
        rw [Nat.add_right_comm, Nat.add_right_comm q]
        exact this)]
    · have hs' : isS t p = false := (code_eq h0).2.trans hs
      rw [ns_L (by omega) hs] at hn
      rw [WS_L (x := q) (by omega) hs, WS_L (x := p) (by omega) hs']
      exact WL_congr (d + 1) p q hq hp hn hc

/-- The substring that ends with the text is before one that continues with an S
position. -/
theorem KL_last : ∀ (d p q : Nat), q + d < t.length → p + d < t.length → nl t q = q + d → (∀ i, i < d → code t (p + i) = code t (q + i)) →
    code t (p + d) < code t (q + d) → Lex (KL t p) (KL t q)
  | 0, p, q, hq, hp, hn, hc, hl => by
    obtain ⟨r, hr⟩ := KL_head (t := t) (x := p) hp
    obtain ⟨r', hr'⟩ := KL_head (t := t) (x := q) hq
    rw [hr, hr', lex_cons]
    exact .inl hl
  | d + 1, p, q, hq, hp, hn, hc, hl => by
    have h0 := hc 0 (by omega)
    rw [Nat.add_zero, Nat.add_zero] at h0
    have hL : isS t q = false := (nl_spec (t := t) (x := q) (by omega)).2.2.2 q (Nat.le_refl _) (by omega)
    have hL' : isS t p = false := (code_eq h0).2.trans hL
    rw [KL_L (x := q) (by omega) hL, KL_L (x := p) (by omega) hL', lex_cons]
    rw [nl_L (by omega) hL] at hn
    refine .inr ⟨h0, KL_last d (p + 1) (q + 1) (by omega) (by omega) (by omega) (fun i hi => ?_) ?_⟩
    · have := hc (i + 1) (by omega)
      rw [Nat.add_right_comm, Nat.add_right_comm q]
      exact this
    · rw [Nat.add_right_comm, Nat.add_right_comm q]
      exact hl

theorem KS_last : ∀ (d p q : Nat), q + d < t.length → p + d < t.length → ns t q = q + d → (∀ i, i < d → code t (p + i) = code t (q + i)) →
    code t (p + d) < code t (q + d) → Lex (KS t p) (KS t q)
  | 0, p, q, hq, hp, hn, hc, hl => by
    have := (ns_spec (t := t) (x := q) (by omega)).1
    omega
  | d + 1, p, q, hq, hp, hn, hc, hl => by
    have h0 := hc 0 (by omega)
    rw [Nat.add_zero, Nat.add_zero] at h0
    rcases S_or_L t q with hs | hs
    · have hs' : isS t p = true := (code_eq h0).2.trans hs
      rw [KS_S hs, KS_S hs', lex_cons]
      rw [ns_S hs] at hn
      refine .inr ⟨h0, KS_last d (p + 1) (q + 1) (by omega) (by omega) (by omega) (fun i hi => ?_) ?_⟩
      · have := hc (i + 1) (by omega)
        rw [Nat.add_right_comm, Nat.add_right_comm q]
        exact this
      · rw [Nat.add_right_comm, Nat.add_right_comm q]
        exact hl
    · have hs' : isS t p = false := (code_eq h0).2.trans hs
      rw [ns_L (by omega) hs] at hn
      rw [KS_L (x := q) (by omega) hs, KS_L (x := p) (by omega) hs']
      exact KL_last (d + 1) p q hq hp hn hc hl

/-- The code of equal substrings. -/
theorem WL_codes : ∀ (d p q : Nat), q + d < t.length → nl t q = q + d → p ≤ t.length → WL t p = WL t q → ∀ i, i ≤ d → code t (p + i) = code t (q + i)
  | d, p, q, hq, hn, hp, h, i, hi => by
    obtain ⟨r', hr'⟩ := WL_head (t := t) (x := q) (by omega)
    have hpl : p < t.length := by
      by_cases he : t.length ≤ p
      · rw [WL_end he, hr'] at h
        have := code_pos t q
        injection h with h _
        omega
      · omega
    obtain ⟨r, hr⟩ := WL_head hpl
    have h0 : code t p = code t q := by
      rw [hr, hr'] at h
      injection h
    cases i with
    | zero => exact h0
    | succ i =>
      cases d with
      | zero => omega
      | succ d =>
        have hL : isS t q = false := (nl_spec (t := t) (x := q) (by omega)).2.2.2 q (Nat.le_refl _) (by omega)
        have hL' : isS t p = false := (code_eq h0).2.trans hL
        rw [WL_L (x := q) (by omega) hL, WL_L (x := p) hpl hL'] at h
        injection h with _ h
        rw [nl_L (by omega) hL] at hn
        have := WL_codes d (p + 1) (q + 1) (by omega) (by omega) (by omega) h i (by omega)
        rw [Nat.add_right_comm, Nat.add_right_comm q] at this
        exact this

theorem WS_codes : ∀ (d p q : Nat), q + d < t.length → ns t q = q + d → p < t.length → WS t p = WS t q → ∀ i, i ≤ d → code t (p + i) = code t (q + i)
  | d, p, q, hq, hn, hpl, h, i, hi => by
    obtain ⟨r', hr'⟩ := WS_head (t := t) (x := q) (by omega)
    obtain ⟨r, hr⟩ := WS_head hpl
    have h0 : code t p = code t q := by
      rw [hr, hr'] at h
      injection h
    rcases S_or_L t q with hs | hs
    · cases i with
      | zero => exact h0
      | succ i =>
        cases d with
        | zero => omega
        | succ d =>
          have hs' : isS t p = true := (code_eq h0).2.trans hs
          rw [WS_S hs, WS_S hs'] at h
          injection h with _ h
          rw [ns_S hs] at hn
          have := WS_codes d (p + 1) (q + 1) (by omega) (by omega) (isS_lt hs') h i (by omega)
          rw [Nat.add_right_comm, Nat.add_right_comm q] at this
          exact this
    · have hs' : isS t p = false := (code_eq h0).2.trans hs
      rw [ns_L (by omega) hs] at hn
      rw [WS_L (x := q) (by omega) hs, WS_L hpl hs'] at h
      exact WL_codes d p q hq hn (by omega) h i hi

/-- The comparison of substrings is right if the one looked at is not before the other. -/
theorem sameSubstring_ok {p q : Nat} (hp : isLms t p = true) (hq : isLms t q = true) (hlt : Lex (KS t q) (KS t p)) :
    ∃ b, sameSubstring t p q (sublen t p) (sublen t q) = .ok b ∧ (b = true ↔ WS t q = WS t p) := by
  have hpl : p < t.length := by have := isLms_lt hp; omega
  have hql : q < t.length := by have := isLms_lt hq; omega
  obtain ⟨p1, p2, p3, p4⟩ := ns_spec hpl
  obtain ⟨q1, q2, q3, q4⟩ := ns_spec hql
  unfold sameSubstring
  by_cases hcond : (sublen t p : Int) = (sublen t q : Int) ∧ (q : Int) + (sublen t p : Int) < t.length
  · rw [if_pos hcond, Int.toNat_natCast]
    obtain ⟨h1, h2⟩ := hcond
    have h1 : sublen t p = sublen t q := by omega
    have h2 : q + sublen t p < t.length := by omega
    have hqn : ns t q ≠ t.length := by
      intro e
      rw [h1] at h2
      unfold sublen at h2
      rw [if_pos e] at h2
      omega
    have hsq : sublen t q = ns t q - q + 1 := by unfold sublen; rw [if_neg hqn]
    have hlmsq := q3 (by omega)
    obtain ⟨d, hd⟩ : ∃ d, ns t q = q + d := ⟨ns t q - q, by omega⟩
    have hpd : p + d < t.length := by
      have : sublen t p = d + 1 := by omega
      unfold sublen at this
      split at this <;> omega
    obtain ⟨b, g1, g2⟩ := sameChars_ok (t := t) (sublen t p) p q (by omega) (by omega)
    refine ⟨b, g1, g2.trans ⟨fun hh => ?_, fun hh i hi => ?_⟩⟩
    · have hh' : ∀ i, i ≤ d → ch t (p + i) = ch t (q + i) := fun i hi => hh i (by omega)
      by_cases hpn : ns t p = t.length
      · -- the last substring comes before one with the same characters
        exfalso
        have hpe : p + d + 1 = t.length := by
          unfold sublen at h1
          rw [if_pos hpn, if_neg hqn] at h1
          omega
        have hlL : isS t (p + d) = false := isS_last (by omega)
        have hqS : isS t (q + d) = true := by rw [← hd]; exact isLms_S hlmsq
        obtain ⟨e, rfl⟩ : ∃ e, d = e + 1 := ⟨d - 1, by omega⟩
        have hqe : isS t (q + e) = false := by
          have := hlmsq
          rw [hd] at this
          exact isLms_pred this
        have hgt : ch t (q + e + 1) < ch t (q + e) := (isL_before_S (t := t) (y := q + e) hqS).1 hqe
        have c1 := hh' e (by omega)
        have c2 : ch t (p + e + 1) = ch t (q + e + 1) := hh' (e + 1) (Nat.le_refl _)
        have hpe' : isS t (p + e) = false := by
          rw [isL_iff (by omega)]
          exact .inl (by omega)
        have := KS_last (e + 1) p q (by omega) hpd hd (fun i hi => codes_eq (d := e) (by omega) (by omega) (fun j hj => hh' j (by omega)) (by rw [hpe', hqe]) i (by omega))
          (by rw [code_L hlL, code_S hqS, hh' (e + 1) (Nat.le_refl _)]; omega)
        exact this.asymm hlt
      · have hsp : sublen t p = ns t p - p + 1 := by unfold sublen; rw [if_neg hpn]
        have hpe : p + d = ns t p := by omega
        have hpS : isS t (p + d) = true := by rw [hpe]; exact isLms_S (p3 (by omega))
        have hqS : isS t (q + d) = true := by rw [← hd]; exact isLms_S hlmsq
        exact (WS_congr d p q (by omega) hpd hd (codes_eq hpd (by omega) hh' (by rw [hpS, hqS]))).symm
    · exact (code_eq (WS_codes d p q (by omega) hd hpl hh.symm i (by omega))).1
  · rw [if_neg hcond]
    refine ⟨false, rfl, ?_⟩
    simp only [Bool.false_eq_true, false_iff]
    intro hh
    apply hcond
    have hne : q ≠ p := by
      rintro rfl
      exact Lex.irrefl _ hlt
    obtain ⟨n1, n2⟩ := WS_next hql hpl hh hne
    obtain ⟨e1, _, _⟩ := WS_eq hql hpl hh
    have hlm := isLms_lt (q3 n1)
    have e2 : sublen t p = ns t p - p + 1 := by unfold sublen; rw [if_neg (by omega)]
    have e3 : sublen t q = ns t q - q + 1 := by unfold sublen; rw [if_neg (by omega)]
    omega

/-! ### The loop -/

theorem saisBind_ok {α β : Type} (a : α) (f : α → C β) : ((Except.ok a : C α) >>= f) = f a := rfl
theorem nameLoop_same {t : List Nat} {m todo i name q qlen p plen : Nat} {sa sa' : List Int} (h1 : rd sa i = .ok (p : Int)) (h2 : rd sa (m + p / 2) = .ok (plen : Int))
    (h3 : sameSubstring t p q plen qlen = .ok true) (h4 : st sa (m + p / 2) name = .ok sa') :
    nameLoop t m (todo + 1) i name q qlen sa = nameLoop t m todo (i + 1) name q qlen sa' := by
  rw [nameLoop, h1, saisBind_ok, Int.toNat_natCast, h2, saisBind_ok, h3, saisBind_ok, if_pos rfl, h4, saisBind_ok]

theorem nameLoop_new {t : List Nat} {m todo i name q qlen p plen : Nat} {sa sa' : List Int} (h1 : rd sa i = .ok (p : Int)) (h2 : rd sa (m + p / 2) = .ok (plen : Int))
    (h3 : sameSubstring t p q plen qlen = .ok false) (h4 : st sa (m + p / 2) ((name + 1 : Nat) : Int) = .ok sa') :
    nameLoop t m (todo + 1) i name q qlen sa = nameLoop t m todo (i + 1) (name + 1) p plen sa' := by
  rw [nameLoop, h1, saisBind_ok, Int.toNat_natCast, h2, saisBind_ok, h3, saisBind_ok, if_neg Bool.false_ne_true, h4, saisBind_ok, Int.toNat_natCast]
theorem nameLoop_ok (hn31 : Small t) : ∀ (todo i name q qlen : Nat) (sa : List Int), i + todo = lcount t → name = cnt i (fI t) →
    ((i = 0 ∧ qlen = 0) ∨ (isLms t q = true ∧ srank t q < i ∧ qlen = sublen t q ∧ ∀ x, isLms t x = true → srank t x + 1 = i → WS t q = WS t x)) →
    Slots t (fun x => (x : Int)) (fun x => if srank t x < i then (nm t x : Int) else (sublen t x : Int)) sa →
    ∃ sa', nameLoop t (lcount t) todo i name q qlen sa = .ok (sa', names t) ∧ Slots t (fun x => (x : Int)) (fun x => (nm t x : Int)) sa'
  | 0, i, name, q, qlen, sa, hi, hn, hq, h => by
    have : i = lcount t := by omega
    refine ⟨sa, ?_, h.congr fun y hy => by rw [if_pos (by have := srank_lt hy; omega)]⟩
    unfold nameLoop
    rw [hn, this]
    rfl
  | todo + 1, i, name, q, qlen, sa, hi, hn, hq, h => by
    obtain ⟨p, hp, hpr⟩ := srank_surj (t := t) (r := i) (by omega)
    have hpl : p < t.length := by have := isLms_lt hp; omega
    have he := h.elem p hp
    have hs := h.slot p hp
    rw [hpr] at he
    rw [if_neg (by omega)] at hs
    have hlen := nslot_lt hp
    unfold nslot at hs hlen
    -- whether the name is a new one
    have hsame : ∃ b, sameSubstring t p q (sublen t p) qlen = .ok b ∧ (b = true ↔ ¬ fI t i) ∧
        (b = true → isLms t q = true ∧ srank t q < i ∧ qlen = sublen t q ∧ WS t q = WS t p) := by
      rcases hq with ⟨h1, h2⟩ | ⟨h1, h2, h3, h4⟩
      · refine ⟨false, ?_, ?_, by simp⟩
        · unfold sameSubstring
          rw [if_neg]
          have := sublen_pos hpl
          omega
        · rw [h1]
          simp [fI_zero]
      · have hlt : Lex (KS t q) (KS t p) := ((subRanked t).mono_iff h1 hp).1 (show srank t q < srank t p by omega)
        obtain ⟨b, g1, g2⟩ := sameSubstring_ok hp h1 hlt
        obtain ⟨x, hx, hxr⟩ := srank_surj (t := t) (r := i - 1) (by omega)
        have hfi := fI_iff hx hp (by omega)
        have hw := h4 x hx (by omega)
        refine ⟨b, by rw [h3]; exact g1, ?_, fun hb => ⟨h1, h2, h3, g2.1 hb⟩⟩
        rw [g2, hw, ← hpr, hfi]
        exact ⟨fun h h' => h' h, fun h => Decidable.not_not.1 h⟩
    obtain ⟨b, b1, b2, b3⟩ := hsame
    have hnm : nm t p = cnt (i + 1) (fI t) := by unfold nm; rw [hpr]
    have hnle : name + 1 ≤ t.length := by
      have g1 := cnt_le i (fI t)
      have g2 := lcount_half (t := t) (by omega)
      omega
    classical
    have hstep : cnt (i + 1) (fI t) = cnt i (fI t) + if fI t i then 1 else 0 := by
      rw [cnt]
    have hset := h.set (g := fun x => if srank t x < i + 1 then (nm t x : Int) else (sublen t x : Int)) hp (fun y hy hne => by
      have hr : srank t y ≠ i := fun e => hne ((subRanked t).rnk_inj hy hp (show srank t y = srank t p by omega))
      by_cases g1 : srank t y < i
      · rw [if_pos g1, if_pos (by omega)]
      · rw [if_neg g1, if_neg (by omega)])
    rw [if_pos (by omega)] at hset
    unfold nslot at hset
    cases b with
    | true =>
      obtain ⟨c1, c2, c3, c4⟩ := b3 rfl
      rw [if_neg (b2.1 rfl), ← hnm, ← hn] at hstep
      rw [hstep] at hset
      have hst := st_ok (range_of (v := ((name : Nat) : Int)) hn31 (by omega) (by omega)) (show lcount t + p / 2 < sa.length by rw [h.len]; exact hlen)
      rw [nameLoop_same (rd_ok he) (rd_ok hs) b1 hst]
      refine nameLoop_ok hn31 todo (i + 1) name q qlen _ (by omega) (by omega) (.inr ⟨c1, by omega, c3, fun x hx hxr => ?_⟩) hset
      rw [(subRanked t).rnk_inj hx hp (show srank t x = srank t p by omega)]
      exact c4
    | false =>
      have hfi : fI t i := Decidable.not_not.1 fun hh => by cases b2.2 hh
      rw [if_pos hfi, ← hnm, ← hn] at hstep
      rw [hstep] at hset
      have hst := st_ok (range_of (v := ((name + 1 : Nat) : Int)) hn31 (by omega) (by omega)) (show lcount t + p / 2 < sa.length by rw [h.len]; exact hlen)
      rw [nameLoop_new (rd_ok he) (rd_ok hs) b1 hst]
      refine nameLoop_ok hn31 todo (i + 1) (name + 1) p (sublen t p) _ (by omega) (by omega) (.inr ⟨hp, by omega, rfl, fun x hx hxr => ?_⟩) hset
      rw [(subRanked t).rnk_inj hx hp (show srank t x = srank t p by omega)]

/-- What stage 1 gives. -/
structure Stage1 (t : List Nat) (sa : List Int) : Prop where
  len : sa.length = t.length
  sorted : names t = lcount t → ∀ x, isLms t x = true → sa[srank t x]? = some (x : Int)
  named : names t < lcount t → ∀ x, isLms t x = true → sa[nslot t x]? = some (nm t x : Int)
  zero : names t < lcount t → ∀ r, lcount t ≤ r → r < t.length → (∀ x, isLms t x = true → nslot t x ≠ r) → sa[r]? = some 0

theorem lmsPostproc1_ok (hn31 : Small t) (hf : IsFirst t p0) {sa : List Int} (h : SubSorted t p0 (fun x => inv (x : Int)) sa) :
    ∃ sa', lmsPostproc1 t (lmsList t) sa = .ok (sa', names t) ∧ Stage1 t sa' := by
  have h0 := (subL hf).pos
  have hm : (lmsList t).length = lcount t := lmsList_length h0
  obtain ⟨sa1, h1, h2⟩ := compact_front hf h (fun x _ => by unfold inv; omega)
    (fun x hx => (range_of hn31 (by have := isLms_lt hx; unfold inv; omega) (by unfold inv; omega)).1)
  have e : (fun x : Nat => inv (inv (x : Int))) = fun x : Nat => (x : Int) := by
    funext x
    unfold inv
    omega
  rw [e] at h2
  obtain ⟨sa2, h3, h4⟩ := storeLengths_ok hn31 (t.length - 1) (t.length - 1) sa1 (by omega)
    (.inl ⟨rfl, fun y hy => by have := isLms_lt hy; omega⟩)
    (h2.slots.congr fun y hy => by rw [if_neg (by have := isLms_lt hy; omega)])
  obtain ⟨sa3, h5, h6⟩ := nameLoop_ok hn31 (lcount t) 0 0 t.length 0 sa2 (by omega) rfl (.inl ⟨rfl, rfl⟩)
    (h4.congr fun y hy => by rw [if_neg (by omega)])
  unfold lmsPostproc1
  simp only [hm]
  rw [h1]
  simp only [Bind.bind, Except.bind]
  unfold lmsList
  rw [h3]
  simp only []
  rw [h5]
  exact ⟨_, rfl, h6.len, fun _ => h6.elem, fun _ => h6.slot, fun _ => h6.zero⟩

end Sais
end Detools
