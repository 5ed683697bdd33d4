import Verif.Proofs.SaisPass
/-
SA-IS: the types of the positions, and the left-most S positions.
-/
namespace Detools
namespace Sais

/-- The first suffix of the text is smaller than the second. -/
def typS : List Nat → Bool
  | [] => false
  | [_] => false
  | a :: b :: r => decide (a < b) || (decide (a = b) && typS (b :: r))

/-- The position is of type S. -/
def isS (t : List Nat) (x : Nat) : Bool := typS (t.drop x)

/-- The position is a left-most S position. -/
def isLms (t : List Nat) : Nat → Bool
  | 0 => false
  | x + 1 => isS t (x + 1) && !isS t x

variable {t : List Nat}

theorem isS_last {x : Nat} (h : t.length ≤ x + 1) : isS t x = false := by
  unfold isS
  have : (t.drop x).length ≤ 1 := by rw [List.length_drop]; omega
  match t.drop x, this with
  | [], _ => rfl
  | [_], _ => rfl

theorem isS_lt {x : Nat} (h : isS t x = true) : x + 1 < t.length := by
  by_cases hx : t.length ≤ x + 1
  · rw [isS_last hx] at h; cases h
  · omega

theorem isS_iff {x : Nat} (h : x + 1 < t.length) :
    isS t x = true ↔ ch t x < ch t (x + 1) ∨ (ch t x = ch t (x + 1) ∧ isS t (x + 1) = true) := by
  unfold isS
  rw [drop_ch (t := t) (x := x) (by omega), drop_ch h]
  simp [typS]

theorem isL_iff {x : Nat} (h : x + 1 < t.length) :
    isS t x = false ↔ ch t (x + 1) < ch t x ∨ (ch t x = ch t (x + 1) ∧ isS t (x + 1) = false) := by
  have := isS_iff h
  rw [← Bool.not_eq_true, ← Bool.not_eq_true, this]
  generalize ch t x = a, ch t (x + 1) = b
  by_cases h1 : isS t (x + 1) = true
  · simp [h1]; omega
  · simp [h1]; omega

/-- Before a position of type L, a smaller character means type S. -/
theorem isS_before_L {y : Nat} (h : y + 1 < t.length) (hl : isS t (y + 1) = false) : isS t y = true ↔ ch t y < ch t (y + 1) := by
  rw [isS_iff h, hl]
  simp

/-- Before a position of type S, a larger character means type L. -/
theorem isL_before_S {y : Nat} (hs : isS t (y + 1) = true) : isS t y = false ↔ ch t (y + 1) < ch t y := by
  rw [isL_iff (by have := isS_lt hs; omega), hs]
  simp

theorem isLms_iff {x : Nat} : isLms t x = true ↔ isS t x = true ∧ ∃ y, y + 1 = x ∧ isS t y = false := by
  cases x with
  | zero => simp [isLms]
  | succ y =>
    simp only [isLms, Bool.and_eq_true, Bool.not_eq_true', Nat.add_right_cancel_iff]
    exact ⟨fun h => ⟨h.1, y, rfl, h.2⟩, fun ⟨h1, _, e, h2⟩ => ⟨h1, e ▸ h2⟩⟩

theorem isLms_S {x : Nat} (h : isLms t x = true) : isS t x = true := (isLms_iff.1 h).1

theorem isLms_lt {x : Nat} (h : isLms t x = true) : x + 1 < t.length := isS_lt (isLms_S h)

theorem isLms_pos {x : Nat} (h : isLms t x = true) : 0 < x := by
  obtain ⟨_, y, e, _⟩ := isLms_iff.1 h
  omega

theorem isLms_pred {y : Nat} (h : isLms t (y + 1) = true) : isS t y = false := by
  obtain ⟨_, z, e, h⟩ := isLms_iff.1 h
  have : z = y := by omega
  rw [← this]; exact h

/-- Two left-most S positions are not neighbours. -/
theorem isLms_apart {x : Nat} (h : isLms t x = true) : isLms t (x + 1) = false := by
  have := isLms_S h
  simp [isLms, this]

/-- The left-most S positions up to `i`, from right to left. -/
def lmsUpto (t : List Nat) : Nat → List Nat
  | 0 => []
  | i + 1 => if isLms t (i + 1) then (i + 1) :: lmsUpto t i else lmsUpto t i

/-- All left-most S positions, from right to left. -/
def lmsList (t : List Nat) : List Nat := lmsUpto t (t.length - 1)

theorem mem_lmsUpto {x : Nat} : ∀ {i : Nat}, x ∈ lmsUpto t i ↔ isLms t x = true ∧ x ≤ i
  | 0 => by
    simp only [lmsUpto, List.not_mem_nil, Nat.le_zero, false_iff]
    rintro ⟨h, rfl⟩
    cases h
  | i + 1 => by
    have ih := mem_lmsUpto (x := x) (i := i)
    unfold lmsUpto
    by_cases h : isLms t (i + 1) = true
    · rw [if_pos h, List.mem_cons, ih]
      constructor
      · rintro (rfl | ⟨h1, h2⟩)
        · exact ⟨h, Nat.le_refl _⟩
        · exact ⟨h1, by omega⟩
      · rintro ⟨h1, h2⟩
        by_cases he : x = i + 1
        · exact .inl he
        · exact .inr ⟨h1, by omega⟩
    · rw [if_neg h, ih]
      constructor
      · rintro ⟨h1, h2⟩
        exact ⟨h1, by omega⟩
      · rintro ⟨h1, h2⟩
        refine ⟨h1, ?_⟩
        by_cases he : x = i + 1
        · subst he; exact absurd h1 h
        · omega

theorem mem_lmsList {x : Nat} : x ∈ lmsList t ↔ isLms t x = true := by
  unfold lmsList
  rw [mem_lmsUpto]
  exact ⟨And.left, fun h => ⟨h, by have := isLms_lt h; omega⟩⟩

theorem lmsUpto_sorted : ∀ i : Nat, (lmsUpto t i).Pairwise (· > ·)
  | 0 => List.Pairwise.nil
  | i + 1 => by
    unfold lmsUpto
    by_cases h : isLms t (i + 1) = true
    · rw [if_pos h]
      refine List.Pairwise.cons (fun x hx => ?_) (lmsUpto_sorted i)
      have := (mem_lmsUpto.1 hx).2
      show x < i + 1
      omega
    · rw [if_neg h]
      exact lmsUpto_sorted i

theorem lmsList_sorted : (lmsList t).Pairwise (· > ·) := lmsUpto_sorted _

theorem cnt_succ_bool {p : Nat → Bool} (n : Nat) : cnt (n + 1) (fun x => p x = true) = cnt n (fun x => p x = true) + if p n = true then 1 else 0 := by
  by_cases h : p n = true <;> simp [cnt, h]

theorem lmsUpto_length : ∀ i : Nat, (lmsUpto t i).length = cnt (i + 1) (fun x => isLms t x = true)
  | 0 => by simp [lmsUpto, cnt, isLms]
  | i + 1 => by
    have ih := lmsUpto_length i
    have e : cnt (i + 1 + 1) (fun x => isLms t x = true) = cnt (i + 1) (fun x => isLms t x = true) + if isLms t (i + 1) = true then 1 else 0 := cnt_succ_bool (p := isLms t) (i + 1)
    rw [e, ← ih]
    conv => lhs; unfold lmsUpto
    by_cases h : isLms t (i + 1) = true
    · rw [if_pos h, if_pos h, List.length_cons]
    · rw [if_neg h, if_neg h, Nat.add_zero]

theorem lmsList_length (h : 0 < t.length) : (lmsList t).length = cnt t.length (fun x => isLms t x = true) := by
  unfold lmsList
  rw [lmsUpto_length, Nat.sub_add_cancel h]

/-- At most half of the positions are left-most S positions. -/
theorem cnt_apart {p : Nat → Prop} (h0 : ¬ p 0) (h : ∀ x, p x → ¬ p (x + 1)) : ∀ n : Nat, 2 * cnt n p ≤ n
  | 0 => Nat.le_refl _
  | 1 => by simp [cnt, h0]
  | n + 2 => by
    have ih := cnt_apart h0 h n
    classical
    have e : cnt (n + 2) p = cnt n p + (if p n then 1 else 0) + (if p (n + 1) then 1 else 0) := rfl
    have := h n
    by_cases h1 : p n
    · rw [if_pos h1, if_neg (h n h1)] at e
      omega
    · rw [if_neg h1] at e
      split at e <;> omega

theorem lmsList_half (h : 0 < t.length) : 2 * (lmsList t).length ≤ t.length := by
  rw [lmsList_length h]
  refine cnt_apart (fun h => by cases h) (fun x hx => ?_) _
  rw [isLms_apart hx]
  simp

theorem lmsScan_ok : ∀ {i : Nat}, i < t.length → lmsScan t i (ch t i) (isS t i) = .ok (lmsUpto t i)
  | 0, _ => rfl
  | i + 1, h => by
    have hs := isS_iff h
    unfold lmsScan lmsUpto
    rw [rd_ch (by omega)]
    simp only [Bind.bind, Except.bind]
    have ih := lmsScan_ok (i := i) (by omega)
    by_cases h1 : isS t (i + 1) = true
    · rw [if_pos h1]
      by_cases h2 : ch t i ≤ ch t (i + 1)
      · have h3 : isS t i = true := hs.2 (by rw [h1]; simp; omega)
        have h4 : isLms t (i + 1) = false := by simp [isLms, h3]
        rw [if_pos h2, h4]
        rw [h3] at ih
        simpa using ih
      · have h3 : isS t i = false := by
          rw [← Bool.not_eq_true, hs]; omega
        have h4 : isLms t (i + 1) = true := by simp [isLms, h3, h1]
        rw [if_neg h2, if_pos h4]
        rw [h3] at ih
        rw [ih]
    · rw [if_neg h1]
      have h4 : isLms t (i + 1) = false := by simp [isLms, h1]
      simp only [Bool.not_eq_true] at h1
      by_cases h2 : ch t (i + 1) ≤ ch t i
      · have h3 : isS t i = false := by
          rw [← Bool.not_eq_true, hs, h1]; simp; omega
        rw [if_pos h2, h4]
        rw [h3] at ih
        simpa using ih
      · have h3 : isS t i = true := hs.2 (by omega)
        rw [if_neg h2, h4]
        rw [h3] at ih
        simpa using ih

theorem lmsPositions_ok (h : 0 < t.length) : lmsPositions t = .ok (lmsList t) := by
  unfold lmsPositions lmsList
  rw [rd_ch (by omega)]
  simp only [Bind.bind, Except.bind]
  have := lmsScan_ok (t := t) (i := t.length - 1) (by omega)
  rw [isS_last (by omega)] at this
  exact this

/-! ### The order of the suffixes -/

theorem S_asc {x : Nat} (h : isS t x = true) : Lex (t.drop x) (t.drop (x + 1)) := by
  have hl := isS_lt h
  rw [drop_ch (t := t) (x := x) (by omega), drop_ch hl, lex_cons]
  rcases (isS_iff hl).1 h with h1 | ⟨h1, h2⟩
  · exact .inl h1
  · have := S_asc h2
    rw [drop_ch hl] at this
    exact .inr ⟨h1, this⟩
termination_by t.length - x

theorem L_desc {x : Nat} (h : isS t x = false) (hx : x < t.length) : Lex (t.drop (x + 1)) (t.drop x) := by
  by_cases hl : x + 1 < t.length
  · rw [drop_ch (t := t) (x := x) (by omega), drop_ch hl, lex_cons]
    rcases (isL_iff hl).1 h with h1 | ⟨h1, h2⟩
    · exact .inl h1
    · have := L_desc h2 hl
      rw [drop_ch hl] at this
      exact .inr ⟨h1.symm, this⟩
  · rw [drop_ch (t := t) (x := x) (by omega), List.drop_eq_nil_of_le (by omega)]
    trivial
termination_by t.length - x

theorem L_before_S {x y : Nat} (hx : isS t x = false) (hxl : x < t.length) (hy : isS t y = true) (he : ch t x = ch t y) :
    Lex (t.drop x) (t.drop y) := by
  have hyl := isS_lt hy
  rw [drop_ch hxl, drop_ch (t := t) (x := y) (by omega), lex_cons]
  refine .inr ⟨he, ?_⟩
  rw [drop_ch hyl]
  by_cases hl : x + 1 < t.length
  · rw [drop_ch hl, lex_cons]
    rcases (isL_iff hl).1 hx with h1 | ⟨h1, h2⟩ <;> rcases (isS_iff hyl).1 hy with h3 | ⟨h3, h4⟩
    · exact .inl (by omega)
    · exact .inl (by omega)
    · exact .inl (by omega)
    · have := L_before_S h2 hl h4 (by omega)
      rw [drop_ch hl, drop_ch hyl] at this
      exact this
  · rw [List.drop_eq_nil_of_le (by omega)]
    trivial
termination_by t.length - x

theorem drop_inj {x y : Nat} (hx : x < t.length) (hy : y < t.length) (h : t.drop x = t.drop y) : x = y := by
  have := congrArg List.length h
  rw [List.length_drop, List.length_drop] at this
  omega

theorem drop_char {x y : Nat} (hx : x < t.length) (hy : y < t.length) (h : ch t x < ch t y) : Lex (t.drop x) (t.drop y) := by
  rw [drop_ch hx, drop_ch hy, lex_cons]
  exact .inl h

theorem drop_step {x y : Nat} (hx : x < t.length) (hy : y < t.length) (h : ch t x = ch t y) :
    Lex (t.drop x) (t.drop y) ↔ Lex (t.drop (x + 1)) (t.drop (y + 1)) := by
  rw [drop_ch hx, drop_ch hy, lex_cons]
  simp [h]

/-- The sorted positions of the text. -/
def IsSa (t : List Nat) (sa : List Int) : Prop :=
  sa.length = t.length ∧ ∃ f : Nat → Nat, (∀ x, x < t.length → f x < t.length ∧ sa[f x]? = some (x : Int)) ∧
    ∀ x y, x < t.length → y < t.length → Lex (t.drop x) (t.drop y) → f x < f y

end Sais
end Detools
