import Verif.Proofs.SaisPlace
/-
SA-IS: what the left-most S substrings are sorted by.
-/
namespace Detools
namespace Sais

/-- Character and type of a position. -/
def code (t : List Nat) (x : Nat) : Nat := 2 * ch t x + (if isS t x then 1 else 0) + 1

/-- The key in the first pass: up to the next left-most S position, and that position. -/
def KL (t : List Nat) (x : Nat) : List Nat :=
  if t.length ≤ x then [0] else if isS t x then [code t x, x] else code t x :: KL t (x + 1)
termination_by t.length - x

/-- The key in the second pass. -/
def KS (t : List Nat) (x : Nat) : List Nat :=
  if t.length ≤ x then [0] else if isS t x then code t x :: KS t (x + 1) else KL t x
termination_by t.length - x

/-- The substring up to the next left-most S position. -/
def WL (t : List Nat) (x : Nat) : List Nat :=
  if t.length ≤ x then [0] else if isS t x then [code t x] else code t x :: WL t (x + 1)
termination_by t.length - x

/-- The left-most S substring. -/
def WS (t : List Nat) (x : Nat) : List Nat :=
  if t.length ≤ x then [0] else if isS t x then code t x :: WS t (x + 1) else WL t x
termination_by t.length - x

/-- The next S position from `x` on. -/
def nl (t : List Nat) (x : Nat) : Nat :=
  if t.length ≤ x then t.length else if isS t x then x else nl t (x + 1)
termination_by t.length - x

/-- The next left-most S position after the S position `x`. -/
def ns (t : List Nat) (x : Nat) : Nat :=
  if t.length ≤ x then t.length else if isS t x then ns t (x + 1) else nl t x
termination_by t.length - x

variable {t : List Nat}

theorem code_pos (t : List Nat) (x : Nat) : 0 < code t x := by unfold code; omega

theorem code_S {x : Nat} (h : isS t x = true) : code t x = 2 * ch t x + 2 := by simp [code, h]
theorem code_L {x : Nat} (h : isS t x = false) : code t x = 2 * ch t x + 1 := by simp [code, h]

theorem code_lt {x y : Nat} (h : ch t x < ch t y) : code t x < code t y := by
  unfold code; split <;> split <;> omega

theorem code_eq {x y : Nat} (h : code t x = code t y) : ch t x = ch t y ∧ isS t x = isS t y := by
  by_cases hx : isS t x = true <;> by_cases hy : isS t y = true <;>
    simp only [code, hx, hy, if_true, if_false, Bool.false_eq_true] at h
  · exact ⟨by omega, by rw [hx, hy]⟩
  · omega
  · omega
  · simp only [Bool.not_eq_true] at hx hy
    exact ⟨by omega, by rw [hx, hy]⟩

theorem code_congr {x y : Nat} (h1 : ch t x = ch t y) (h2 : isS t x = isS t y) : code t x = code t y := by
  unfold code; rw [h1, h2]

theorem code_cases {x y : Nat} (h : code t x < code t y) : ch t x < ch t y ∨ (ch t x = ch t y ∧ isS t x = false ∧ isS t y = true) := by
  by_cases hx : isS t x = true <;> by_cases hy : isS t y = true <;>
    simp only [code, hx, hy, if_true, if_false, Bool.false_eq_true] at h
  · exact .inl (by omega)
  · exact .inl (by omega)
  · simp only [Bool.not_eq_true] at hx
    by_cases h1 : ch t x < ch t y
    · exact .inl h1
    · exact .inr ⟨by omega, hx, hy⟩
  · exact .inl (by omega)

theorem KL_end {x : Nat} (h : t.length ≤ x) : KL t x = [0] := by rw [KL, if_pos h]
theorem KL_S {x : Nat} (h : isS t x = true) : KL t x = [code t x, x] := by
  rw [KL, if_neg (by have := isS_lt h; omega), if_pos h]
theorem KL_L {x : Nat} (hx : x < t.length) (h : isS t x = false) : KL t x = code t x :: KL t (x + 1) := by
  rw [KL, if_neg (by omega), if_neg (by simp [h])]
theorem KS_end {x : Nat} (h : t.length ≤ x) : KS t x = [0] := by rw [KS, if_pos h]
theorem KS_S {x : Nat} (h : isS t x = true) : KS t x = code t x :: KS t (x + 1) := by
  rw [KS, if_neg (by have := isS_lt h; omega), if_pos h]
theorem KS_L {x : Nat} (hx : x < t.length) (h : isS t x = false) : KS t x = KL t x := by
  rw [KS, if_neg (by omega), if_neg (by simp [h])]
theorem WL_end {x : Nat} (h : t.length ≤ x) : WL t x = [0] := by rw [WL, if_pos h]
theorem WL_S {x : Nat} (h : isS t x = true) : WL t x = [code t x] := by
  rw [WL, if_neg (by have := isS_lt h; omega), if_pos h]
theorem WL_L {x : Nat} (hx : x < t.length) (h : isS t x = false) : WL t x = code t x :: WL t (x + 1) := by
  rw [WL, if_neg (by omega), if_neg (by simp [h])]
theorem WS_end {x : Nat} (h : t.length ≤ x) : WS t x = [0] := by rw [WS, if_pos h]
theorem WS_S {x : Nat} (h : isS t x = true) : WS t x = code t x :: WS t (x + 1) := by
  rw [WS, if_neg (by have := isS_lt h; omega), if_pos h]
theorem WS_L {x : Nat} (hx : x < t.length) (h : isS t x = false) : WS t x = WL t x := by
  rw [WS, if_neg (by omega), if_neg (by simp [h])]
theorem nl_end {x : Nat} (h : t.length ≤ x) : nl t x = t.length := by rw [nl, if_pos h]
theorem nl_S {x : Nat} (h : isS t x = true) : nl t x = x := by
  rw [nl, if_neg (by have := isS_lt h; omega), if_pos h]
theorem nl_L {x : Nat} (hx : x < t.length) (h : isS t x = false) : nl t x = nl t (x + 1) := by
  rw [nl, if_neg (by omega), if_neg (by simp [h])]
theorem ns_end {x : Nat} (h : t.length ≤ x) : ns t x = t.length := by rw [ns, if_pos h]
theorem ns_S {x : Nat} (h : isS t x = true) : ns t x = ns t (x + 1) := by
  rw [ns, if_neg (by have := isS_lt h; omega), if_pos h]
theorem ns_L {x : Nat} (hx : x < t.length) (h : isS t x = false) : ns t x = nl t x := by
  rw [ns, if_neg (by omega), if_neg (by simp [h])]

/-- The key starts with the code. -/
theorem KL_head {x : Nat} (hx : x < t.length) : ∃ r, KL t x = code t x :: r := by
  by_cases h : isS t x = true
  · exact ⟨_, KL_S h⟩
  · exact ⟨_, KL_L hx (by simpa using h)⟩

theorem KS_head {x : Nat} (hx : x < t.length) : ∃ r, KS t x = code t x :: r := by
  by_cases h : isS t x = true
  · exact ⟨_, KS_S h⟩
  · rw [KS_L hx (by simpa using h)]
    exact KL_head hx

theorem WL_head {x : Nat} (hx : x < t.length) : ∃ r, WL t x = code t x :: r := by
  by_cases h : isS t x = true
  · exact ⟨_, WL_S h⟩
  · exact ⟨_, WL_L hx (by simpa using h)⟩

theorem WS_head {x : Nat} (hx : x < t.length) : ∃ r, WS t x = code t x :: r := by
  by_cases h : isS t x = true
  · exact ⟨_, WS_S h⟩
  · rw [WS_L hx (by simpa using h)]
    exact WL_head hx

theorem S_or_L (t : List Nat) (x : Nat) : isS t x = true ∨ isS t x = false := by
  cases isS t x
  · exact .inr rfl
  · exact .inl rfl

/-- The next left-most S position is one, or there is none. -/
theorem nl_spec {x : Nat} (hx : x ≤ t.length) :
    x ≤ nl t x ∧ nl t x ≤ t.length ∧ (nl t x < t.length → isS t (nl t x) = true) ∧ ∀ y, x ≤ y → y < nl t x → isS t y = false := by
  by_cases h : t.length ≤ x
  · rw [nl_end h]
    exact ⟨by omega, Nat.le_refl _, by omega, fun y h1 h2 => by omega⟩
  · rcases S_or_L t x with hs | hs
    · rw [nl_S hs]
      exact ⟨Nat.le_refl _, hx, fun _ => hs, fun y h1 h2 => by omega⟩
    · obtain ⟨h1, h2, h3, h4⟩ := nl_spec (x := x + 1) (by omega)
      rw [nl_L (by omega) hs]
      refine ⟨by omega, h2, h3, fun y h5 h6 => ?_⟩
      by_cases he : y = x
      · subst he; exact hs
      · exact h4 y (by omega) h6
termination_by t.length - x

theorem ns_spec {x : Nat} (hx : x < t.length) :
    x < ns t x ∧ ns t x ≤ t.length ∧ (ns t x < t.length → isLms t (ns t x) = true) ∧ ∀ y, x < y → y < ns t x → isLms t y = false := by
  rcases S_or_L t x with hs | hs
  · have hl := isS_lt hs
    obtain ⟨h1, h2, h3, h4⟩ := ns_spec hl
    rw [ns_S hs]
    refine ⟨by omega, h2, h3, fun y h5 h6 => ?_⟩
    by_cases he : y = x + 1
    · subst he; simp [isLms, hs]
    · exact h4 y (by omega) h6
  · rw [ns_L hx hs, nl_L hx hs]
    obtain ⟨h1, h2, h3, h4⟩ := nl_spec (t := t) (x := x + 1) (by omega)
    refine ⟨by omega, h2, fun h => ?_, fun y h5 h6 => ?_⟩
    · refine isLms_iff.2 ⟨h3 h, nl t (x + 1) - 1, by omega, ?_⟩
      by_cases he : nl t (x + 1) - 1 = x
      · rw [he]; exact hs
      · exact h4 _ (by omega) (by omega)
    · have := h4 y (by omega) h6
      cases y with
      | zero => rfl
      | succ z => simp [isLms, this]
termination_by t.length - x

/-! ### The order of the keys -/

theorem KL_inj {x y : Nat} (hx : x ≤ t.length) (hy : y ≤ t.length) (h : KL t x = KL t y) : x = y := by
  by_cases h1 : t.length ≤ x
  · by_cases h2 : t.length ≤ y
    · omega
    · rw [KL_end h1] at h
      obtain ⟨r, hr⟩ := KL_head (t := t) (x := y) (by omega)
      rw [hr] at h
      have := code_pos t y
      injection h with h _
      omega
  · obtain ⟨r, hr⟩ := KL_head (t := t) (x := x) (by omega)
    by_cases h2 : t.length ≤ y
    · rw [KL_end h2, hr] at h
      have := code_pos t x
      injection h with h _
      omega
    · obtain ⟨r', hr'⟩ := KL_head (t := t) (x := y) (by omega)
      have hc : code t x = code t y := by
        rw [hr, hr'] at h
        injection h
      obtain ⟨_, hs⟩ := code_eq hc
      rcases S_or_L t x with hsx | hsx
      · rw [KL_S hsx, KL_S (hs ▸ hsx)] at h
        injection h with _ h
        injection h
      · rw [KL_L (x := x) (by omega) hsx, KL_L (x := y) (by omega) (hs ▸ hsx)] at h
        injection h with _ h
        have := KL_inj (x := x + 1) (y := y + 1) (by omega) (by omega) h
        omega
termination_by t.length - x

theorem KS_inj {x y : Nat} (hx : x < t.length) (hy : y < t.length) (h : KS t x = KS t y) : x = y := by
  obtain ⟨r, hr⟩ := KS_head hx
  obtain ⟨r', hr'⟩ := KS_head hy
  have hc : code t x = code t y := by
    rw [hr, hr'] at h
    injection h
  obtain ⟨_, hs⟩ := code_eq hc
  rcases S_or_L t x with hsx | hsx
  · have hsy : isS t y = true := hs ▸ hsx
    rw [KS_S hsx, KS_S hsy] at h
    injection h with _ h
    have := KS_inj (isS_lt hsx) (isS_lt hsy) h
    omega
  · have hsy : isS t y = false := hs ▸ hsx
    rw [KS_L hx hsx, KS_L hy hsy] at h
    exact KL_inj (by omega) (by omega) h
termination_by t.length - x

/-- The keys of the first pass go by the substrings first. -/
theorem KL_WL {x y : Nat} (h : Lex (KL t x) (KL t y)) : WL t x = WL t y ∨ Lex (WL t x) (WL t y) := by
  by_cases h1 : t.length ≤ x
  · rw [WL_end h1]
    by_cases h2 : t.length ≤ y
    · rw [WL_end h2]; exact .inl rfl
    · obtain ⟨r, hr⟩ := WL_head (t := t) (x := y) (by omega)
      rw [hr]
      exact .inr (lex_cons.2 (.inl (code_pos t y)))
  · by_cases h2 : t.length ≤ y
    · obtain ⟨r, hr⟩ := KL_head (t := t) (x := x) (by omega)
      rw [hr, KL_end h2, lex_cons] at h
      rcases h with h | h
      · have := code_pos t x
        omega
      · exact absurd h.2 (lex_nil r)
    · rcases S_or_L t x with hsx | hsx <;> rcases S_or_L t y with hsy | hsy
      · rw [KL_S hsx, KL_S hsy, lex_cons] at h
        rw [WL_S hsx, WL_S hsy]
        rcases h with h | h
        · exact .inr (lex_cons.2 (.inl h))
        · rw [h.1]; exact .inl rfl
      · rw [KL_S hsx, KL_L (x := y) (by omega) hsy, lex_cons] at h
        rw [WL_S hsx, WL_L (x := y) (by omega) hsy]
        rcases h with h | h
        · exact .inr (lex_cons.2 (.inl h))
        · have := (code_eq h.1).2
          rw [hsx, hsy] at this; cases this
      · rw [KL_L (x := x) (by omega) hsx, KL_S hsy, lex_cons] at h
        rw [WL_L (x := x) (by omega) hsx, WL_S hsy]
        rcases h with h | h
        · exact .inr (lex_cons.2 (.inl h))
        · have := (code_eq h.1).2
          rw [hsx, hsy] at this; cases this
      · rw [KL_L (x := x) (by omega) hsx, KL_L (x := y) (by omega) hsy, lex_cons] at h
        rw [WL_L (x := x) (by omega) hsx, WL_L (x := y) (by omega) hsy]
        rcases h with h | ⟨h, h'⟩
        · exact .inr (lex_cons.2 (.inl h))
        · rcases KL_WL h' with h3 | h3
          · rw [h, h3]; exact .inl rfl
          · exact .inr (lex_cons.2 (.inr ⟨h, h3⟩))
termination_by t.length - x

/-- The keys of the second pass go by the substrings first. -/
theorem KS_WS {x y : Nat} (hx : x < t.length) (hy : y < t.length) (h : Lex (KS t x) (KS t y)) : WS t x = WS t y ∨ Lex (WS t x) (WS t y) := by
  obtain ⟨r, hr⟩ := KS_head hx
  obtain ⟨r', hr'⟩ := KS_head hy
  obtain ⟨u, hu⟩ := WS_head hx
  obtain ⟨u', hu'⟩ := WS_head hy
  have h' := h
  rw [hr, hr', lex_cons] at h'
  by_cases hc : code t x = code t y
  · obtain ⟨_, hs⟩ := code_eq hc
    rcases S_or_L t x with hsx | hsx
    · have hsy : isS t y = true := hs ▸ hsx
      rw [KS_S hsx, KS_S hsy, lex_cons] at h
      rcases h with h | ⟨_, h⟩
      · omega
      · rw [WS_S hsx, WS_S hsy]
        rcases KS_WS (isS_lt hsx) (isS_lt hsy) h with h3 | h3
        · rw [hc, h3]; exact .inl rfl
        · exact .inr (lex_cons.2 (.inr ⟨hc, h3⟩))
    · have hsy : isS t y = false := hs ▸ hsx
      rw [KS_L hx hsx, KS_L hy hsy] at h
      rw [WS_L hx hsx, WS_L hy hsy]
      exact KL_WL h
  · rw [hu, hu']
    exact .inr (lex_cons.2 (.inl (by omega)))
termination_by t.length - x

/-- Smaller codes mean smaller suffixes. -/
theorem drop_code {x y : Nat} (hx : x < t.length) (hy : y < t.length) (h : code t x < code t y) : Lex (t.drop x) (t.drop y) := by
  rcases code_cases h with h | ⟨h1, h2, h3⟩
  · exact drop_char hx hy h
  · exact L_before_S h2 hx h3 h1

/-- The order of different substrings is that of the suffixes. -/
theorem WL_drop {x y : Nat} (h : Lex (WL t x) (WL t y)) : Lex (t.drop x) (t.drop y) := by
  by_cases h1 : t.length ≤ x
  · rw [List.drop_eq_nil_of_le h1]
    by_cases h2 : t.length ≤ y
    · rw [WL_end h1, WL_end h2] at h
      exact absurd h (Lex.irrefl _)
    · rw [drop_ch (x := y) (by omega)]; trivial
  · obtain ⟨r, hr⟩ := WL_head (t := t) (x := x) (by omega)
    by_cases h2 : t.length ≤ y
    · rw [hr, WL_end h2, lex_cons] at h
      rcases h with h | h
      · have := code_pos t x
        omega
      · exact absurd h.2 (lex_nil r)
    · obtain ⟨r', hr'⟩ := WL_head (t := t) (x := y) (by omega)
      have h' := h
      rw [hr, hr', lex_cons] at h'
      by_cases hc : code t x = code t y
      · obtain ⟨hch, hs⟩ := code_eq hc
        rcases S_or_L t x with hsx | hsx
        · rw [WL_S hsx, WL_S (hs ▸ hsx), hc] at h
          exact absurd h (Lex.irrefl _)
        · rw [WL_L (x := x) (by omega) hsx, WL_L (x := y) (by omega) (hs ▸ hsx), lex_cons] at h
          rw [drop_step (by omega) (by omega) hch]
          rcases h with h | ⟨_, h⟩
          · omega
          · exact WL_drop h
      · exact drop_code (by omega) (by omega) (by omega)
termination_by t.length - x

theorem WS_drop {x y : Nat} (hx : x < t.length) (hy : y < t.length) (h : Lex (WS t x) (WS t y)) : Lex (t.drop x) (t.drop y) := by
  obtain ⟨r, hr⟩ := WS_head hx
  obtain ⟨r', hr'⟩ := WS_head hy
  have h' := h
  rw [hr, hr', lex_cons] at h'
  by_cases hc : code t x = code t y
  · obtain ⟨hch, hs⟩ := code_eq hc
    rcases S_or_L t x with hsx | hsx
    · have hsy : isS t y = true := hs ▸ hsx
      rw [WS_S hsx, WS_S hsy, lex_cons] at h
      rw [drop_step hx hy hch]
      rcases h with h | ⟨_, h⟩
      · omega
      · exact WS_drop (isS_lt hsx) (isS_lt hsy) h
    · have hsy : isS t y = false := hs ▸ hsx
      rw [WS_L hx hsx, WS_L hy hsy] at h
      exact WL_drop h
  · exact drop_code hx hy (by omega)
termination_by t.length - x

/-- Equal substrings: the suffixes after them decide. -/
theorem WL_eq {x y : Nat} (hx : x ≤ t.length) (hy : y ≤ t.length) (h : WL t x = WL t y) :
    nl t x - x = nl t y - y ∧ (nl t x = t.length ↔ nl t y = t.length) ∧
    (Lex (t.drop x) (t.drop y) ↔ Lex (t.drop (nl t x)) (t.drop (nl t y))) := by
  by_cases h1 : t.length ≤ x
  · have e : x = t.length := by omega
    by_cases h2 : t.length ≤ y
    · have e2 : y = t.length := by omega
      rw [nl_end h1, nl_end h2, ← e, e2, e]
      simp
    · rw [WL_end h1] at h
      obtain ⟨r, hr⟩ := WL_head (t := t) (x := y) (by omega)
      rw [hr] at h
      have := code_pos t y
      injection h with h _
      omega
  · obtain ⟨r, hr⟩ := WL_head (t := t) (x := x) (by omega)
    by_cases h2 : t.length ≤ y
    · rw [WL_end h2, hr] at h
      have := code_pos t x
      injection h with h _
      omega
    · obtain ⟨r', hr'⟩ := WL_head (t := t) (x := y) (by omega)
      have hc : code t x = code t y := by
        rw [hr, hr'] at h
        injection h
      obtain ⟨hch, hs⟩ := code_eq hc
      rcases S_or_L t x with hsx | hsx
      · have hsy : isS t y = true := hs ▸ hsx
        rw [nl_S hsx, nl_S hsy]
        exact ⟨by omega, by omega, Iff.rfl⟩
      · have hsy : isS t y = false := hs ▸ hsx
        rw [WL_L (x := x) (by omega) hsx, WL_L (x := y) (by omega) hsy] at h
        injection h with _ h
        obtain ⟨g1, g2, g3⟩ := WL_eq (x := x + 1) (y := y + 1) (by omega) (by omega) h
        rw [nl_L (x := x) (by omega) hsx, nl_L (x := y) (by omega) hsy, drop_step (by omega) (by omega) hch]
        have s1 := nl_spec (t := t) (x := x + 1) (by omega)
        have s2 := nl_spec (t := t) (x := y + 1) (by omega)
        exact ⟨by omega, g2, g3⟩
termination_by t.length - x

theorem WS_eq {x y : Nat} (hx : x < t.length) (hy : y < t.length) (h : WS t x = WS t y) :
    ns t x - x = ns t y - y ∧ (ns t x = t.length ↔ ns t y = t.length) ∧
    (Lex (t.drop x) (t.drop y) ↔ Lex (t.drop (ns t x)) (t.drop (ns t y))) := by
  obtain ⟨r, hr⟩ := WS_head hx
  obtain ⟨r', hr'⟩ := WS_head hy
  have hc : code t x = code t y := by
    rw [hr, hr'] at h
    injection h
  obtain ⟨hch, hs⟩ := code_eq hc
  rcases S_or_L t x with hsx | hsx
  · have hsy : isS t y = true := hs ▸ hsx
    rw [WS_S hsx, WS_S hsy] at h
    injection h with _ h
    obtain ⟨g1, g2, g3⟩ := WS_eq (isS_lt hsx) (isS_lt hsy) h
    have s1 := ns_spec (isS_lt hsx)
    have s2 := ns_spec (isS_lt hsy)
    rw [ns_S hsx, ns_S hsy, drop_step hx hy hch]
    exact ⟨by omega, g2, g3⟩
  · have hsy : isS t y = false := hs ▸ hsx
    rw [WS_L hx hsx, WS_L hy hsy] at h
    rw [ns_L hx hsx, ns_L hy hsy]
    exact WL_eq (by omega) (by omega) h
termination_by t.length - x

/-- Different positions with equal substrings have a left-most S position after them. -/
theorem WS_next {x y : Nat} (hx : x < t.length) (hy : y < t.length) (h : WS t x = WS t y) (hne : x ≠ y) :
    ns t x < t.length ∧ ns t y < t.length := by
  obtain ⟨h1, h2, _⟩ := WS_eq hx hy h
  have s1 := ns_spec hx
  have s2 := ns_spec hy
  omega

/-! ### The two passes -/

/-- Seeds of the first pass: all left-most S positions but the first. -/
def seedP (t : List Nat) (p0 x : Nat) : Prop := isLms t x = true ∧ p0 < x

/-- The L positions sorted. -/
def lowP (t : List Nat) (p0 x : Nat) : Prop := isL t x ∧ p0 < x

/-- The S positions sorted. -/
def highP (t : List Nat) (p0 x : Nat) : Prop := isS t x = true ∧ p0 ≤ x

/-- The first left-most S position. -/
structure IsFirst (t : List Nat) (p0 : Nat) : Prop where
  lms : isLms t p0 = true
  first : ∀ x, isLms t x = true → p0 ≤ x

variable {p0 : Nat}

theorem sub_order (h : IsFirst t p0) : Order t (lowP t p0) (seedP t p0) (KL t) where
  ltA h := h.1.1
  ltB h := by have := isLms_lt h.1; omega
  disj h1 h2 := (sufS t).disj h1.1 (isLms_S h2.1)
  bucket {x y} h1 h2 h3 := by
    have hx : x < t.length := by
      rcases h1 with h | h
      · exact h.1.1
      · have := isLms_lt h.1; omega
    have hy : y < t.length := by
      rcases h2 with h | h
      · exact h.1.1
      · have := isLms_lt h.1; omega
    obtain ⟨r, hr⟩ := KL_head hx
    obtain ⟨r', hr'⟩ := KL_head hy
    rw [hr, hr', lex_cons]
    exact .inl (code_lt h3)
  type {x y} h1 h2 h3 := by
    rw [KL_L h1.1.1 h1.1.2, KL_S (isLms_S h2.1), lex_cons, code_L h1.1.2, code_S (isLms_S h2.1)]
    omega
  inj {x y} h1 h2 h3 := by
    have hx : x < t.length := by
      rcases h1 with h | h
      · exact h.1.1
      · have := isLms_lt h.1; omega
    have hy : y < t.length := by
      rcases h2 with h | h
      · exact h.1.1
      · have := isLms_lt h.1; omega
    exact KL_inj (by omega) (by omega) h3

theorem KL_desc {x : Nat} (hx : x < t.length) (h : isS t x = false) : Lex (KL t (x + 1)) (KL t x) := by
  rw [KL_L hx h]
  by_cases hl : x + 1 < t.length
  · rcases (isL_iff hl).1 h with h1 | ⟨h1, h2⟩
    · obtain ⟨r, hr⟩ := KL_head hl
      rw [hr, lex_cons]
      exact .inl (code_lt h1)
    · have := KL_desc hl h2
      rw [KL_L hl h2, lex_cons]
      rw [KL_L hl h2] at this
      exact .inr ⟨code_congr h1.symm (by rw [h, h2]), this⟩
  · rw [KL_end (x := x + 1) (by omega), lex_cons]
    exact .inl (code_pos t x)
termination_by t.length - x

theorem KS_asc {x : Nat} (h : isS t x = true) : Lex (KS t x) (KS t (x + 1)) := by
  have hl := isS_lt h
  rw [KS_S h]
  rcases (isS_iff hl).1 h with h1 | ⟨h1, h2⟩
  · obtain ⟨r, hr⟩ := KS_head hl
    rw [hr, lex_cons]
    exact .inl (code_lt h1)
  · have := KS_asc h2
    rw [KS_S h2, lex_cons]
    rw [KS_S h2] at this
    exact .inr ⟨code_congr h1 (by rw [h, h2]), this⟩
termination_by t.length - x

theorem subL (h : IsFirst t p0) : LPass t (lowP t p0) (seedP t p0) (KL t) where
  toOrder := sub_order h
  pos := by have := isLms_lt h.lms; omega
  last := by
    have := isLms_lt h.lms
    exact ⟨⟨by omega, isS_last (by omega)⟩, by omega⟩
  next {x} hx hl := by
    have := hx.2
    rcases L_or_S hl with h | h
    · exact .inl ⟨h, by omega⟩
    · exact .inr ⟨isLms_iff.2 ⟨h, x, rfl, hx.1.2⟩, by omega⟩
  step {x y} h1 h2 h3 _ _ := by
    rw [KL_L h1.1.1 h1.1.2, KL_L h2.1.1 h2.1.2, lex_cons, code_congr h3 (by rw [h1.1.2, h2.1.2])]
    simp
  lastMin {y} h1 h2 h3 := by
    have hp := isLms_lt h.lms
    have hl := isS_last (t := t) (x := t.length - 1) (by omega)
    have hy := h1.1.1
    rw [KL_L (x := t.length - 1) (by omega) hl, KL_L hy h1.1.2, lex_cons]
    refine .inr ⟨code_congr h2.symm (by rw [hl, h1.1.2]), ?_⟩
    rw [KL_end (x := t.length - 1 + 1) (by omega)]
    obtain ⟨r, hr⟩ := KL_head (t := t) (x := y + 1) (by omega)
    rw [hr, lex_cons]
    exact .inl (code_pos t _)
  desc h1 _ := KL_desc h1.1.1 h1.1.2

theorem subS (h : IsFirst t p0) : SPass t (lowP t p0) (highP t p0) (KS t) where
  ltA h := h.1.1
  ltB h := by have := isS_lt h.1; omega
  disj h1 h2 := (sufS t).disj h1.1 h2.1
  bucket {x y} h1 h2 h3 := by
    have hx : x < t.length := by
      rcases h1 with h | h
      · exact h.1.1
      · have := isS_lt h.1; omega
    have hy : y < t.length := by
      rcases h2 with h | h
      · exact h.1.1
      · have := isS_lt h.1; omega
    obtain ⟨r, hr⟩ := KS_head hx
    obtain ⟨r', hr'⟩ := KS_head hy
    rw [hr, hr', lex_cons]
    exact .inl (code_lt h3)
  type {x y} h1 h2 h3 := by
    obtain ⟨r, hr⟩ := KS_head h1.1.1
    rw [hr, KS_S h2.1, lex_cons, code_L h1.1.2, code_S h2.1]
    omega
  inj {x y} h1 h2 h3 := by
    have hx : x < t.length := by
      rcases h1 with h | h
      · exact h.1.1
      · have := isS_lt h.1; omega
    have hy : y < t.length := by
      rcases h2 with h | h
      · exact h.1.1
      · have := isS_lt h.1; omega
    exact KS_inj hx hy h3
  next {x} h := by
    have := h.2
    rcases L_or_S (isS_lt h.1) with h1 | h1
    · exact .inl ⟨h1, by omega⟩
    · exact .inr ⟨h1, by omega⟩
  step {x y} h1 h2 h3 := by
    rw [KS_S h1.1, KS_S h2.1, lex_cons, code_congr h3 (by rw [h1.1, h2.1])]
    simp
  asc h := KS_asc h.1

end Sais
end Detools
