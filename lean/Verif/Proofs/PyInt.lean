import Verif.Spec.PyInt
import Verif.Proofs.PyMain
/-
`int(value, 0)` accepts the integer literals of Python, and nothing else.
-/
namespace Detools

theorem digit_table : ∀ k < 128, ∀ v ∈ digitValue (Char.ofNat k),
    Char.ofNat k = Nat.digitChar v ∨ Char.ofNat k = (Nat.digitChar v).toUpper := by
  decide +kernel

theorem digit_chars : ∀ v < 16, digitValue (Nat.digitChar v) = some v ∧ digitValue (Nat.digitChar v).toUpper = some v ∧
    Nat.digitChar v ≠ '_' ∧ (Nat.digitChar v).toUpper ≠ '_' := by
  decide +kernel

theorem digitValue_ascii {c : Char} {v : Nat} (h : digitValue c = some v) : c.toNat < 128 := by
  have le : ∀ {a b : Char}, a ≤ b → a.toNat ≤ b.toNat := fun h => h
  unfold digitValue at h
  by_cases h1 : '0' ≤ c ∧ c ≤ '9'
  · have := le h1.2
    have e : '9'.toNat = 57 := rfl
    omega
  · rw [if_neg h1] at h
    by_cases h2 : 'a' ≤ c ∧ c ≤ 'f'
    · have := le h2.2
      have e : 'f'.toNat = 102 := rfl
      omega
    · rw [if_neg h2] at h
      by_cases h3 : 'A' ≤ c ∧ c ≤ 'F'
      · have := le h3.2
        have e : 'F'.toNat = 70 := rfl
        omega
      · rw [if_neg h3] at h; cases h

theorem isDigit_of {base : Nat} {c : Char} {v : Nat} (h : digitValue c = some v) (hv : v < base) : IsDigit base c v := by
  have k := digit_table c.toNat (digitValue_ascii h)
  rw [Char.ofNat_toNat] at k
  exact ⟨hv, k v h⟩

theorem IsDigit.value {base : Nat} (hb : base ≤ 16) {c : Char} {v : Nat} (h : IsDigit base c v) : c ≠ '_' ∧ digitValue c = some v := by
  have k := digit_chars v (Nat.lt_of_lt_of_le h.1 hb)
  rcases h.2 with rfl | rfl
  · exact ⟨k.2.2.1, k.1⟩
  · exact ⟨k.2.2.2, k.2.1⟩

/-- Where `digitsValue` is after the characters `l`. -/
inductive DigitsAcc (base : Nat) : List Char → Nat → Bool → Prop
  | start : DigitsAcc base [] 0 false
  | digit {l n} : Digits base l n → DigitsAcc base l n true
  | score {l n} : Digits base l n → DigitsAcc base (l ++ ['_']) n false

theorem digitsValue_sound {base : Nat} : ∀ {cs l : List Char} {value n : Nat} {fl : Bool}, DigitsAcc base l value fl →
    digitsValue base cs value fl = some n → Digits base (l ++ cs) n
  | [], l, value, n, fl, ha, h => by
    rw [List.append_nil]
    cases ha with
    | start => simp [digitsValue] at h
    | digit h' =>
      simp only [digitsValue, if_true, Option.some.injEq] at h
      exact h ▸ h'
    | score => simp [digitsValue] at h
  | c :: cs, l, value, n, fl, ha, h => by
    rw [digitsValue] at h
    by_cases hc : c = '_'
    · rw [if_pos hc] at h
      subst hc
      cases ha with
      | start => simp at h
      | digit h' =>
        simp only [if_true] at h
        have := digitsValue_sound (.score h') h
        rwa [List.append_assoc] at this
      | score => simp at h
    · rw [if_neg hc] at h
      cases hd : digitValue c with
      | none => rw [hd] at h; cases h
      | some v =>
        rw [hd] at h
        dsimp only at h
        by_cases hv : v < base
        · rw [if_pos hv] at h
          have hD := isDigit_of hd hv
          cases ha with
          | start =>
            rw [Nat.mul_zero, Nat.zero_add] at h
            exact digitsValue_sound (l := [c]) (.digit (.one hD)) h
          | digit h' =>
            have := digitsValue_sound (.digit (.more h' hD)) h
            rwa [List.append_assoc] at this
          | score h' =>
            have := digitsValue_sound (.digit (.underscore h' hD)) h
            simpa using this
        · rw [if_neg hv] at h; cases h

theorem digitsValue_step {base : Nat} (hb : base ≤ 16) {c : Char} {v value : Nat} {fl : Bool} (rest : List Char) (h : IsDigit base c v) :
    digitsValue base (c :: rest) value fl = digitsValue base rest (base * value + v) true := by
  obtain ⟨h1, h2⟩ := h.value hb
  rw [digitsValue, if_neg h1, h2]
  exact if_pos h.1

theorem Digits.read {base : Nat} (hb : base ≤ 16) {l : List Char} {n : Nat} (h : Digits base l n) :
    ∀ rest, digitsValue base (l ++ rest) 0 false = digitsValue base rest n true := by
  induction h with
  | one h =>
    intro rest
    rw [List.singleton_append, digitsValue_step hb rest h, Nat.mul_zero, Nat.zero_add]
  | more _ h ih =>
    intro rest
    rw [List.append_assoc, ih, List.singleton_append, digitsValue_step hb rest h]
  | underscore _ h ih =>
    intro rest
    rw [List.append_assoc, ih, List.cons_append, List.cons_append, List.nil_append, digitsValue, if_pos rfl, if_pos rfl, digitsValue_step hb rest h]

theorem digits_iff {base : Nat} (hb : base ≤ 16) {l : List Char} {n : Nat} : digitsValue base l 0 false = some n ↔ Digits base l n := by
  constructor
  · intro h; exact digitsValue_sound (l := []) .start h
  · intro h
    have := h.read hb []
    rw [List.append_nil] at this
    rw [this]; rfl

theorem Digits.head {base : Nat} {l : List Char} {n : Nat} (h : Digits base l n) : ∃ c t v, l = c :: t ∧ IsDigit base c v := by
  induction h with
  | one h => exact ⟨_, _, _, rfl, h⟩
  | more _ _ ih => obtain ⟨c, t, v, rfl, h⟩ := ih; exact ⟨_, _, _, rfl, h⟩
  | underscore _ _ ih => obtain ⟨c, t, v, rfl, h⟩ := ih; exact ⟨_, _, _, rfl, h⟩

theorem prefixed_iff {base : Nat} (hb : base ≤ 16) {cs : List Char} {n : Nat} :
    prefixedValue base cs = some n ↔ ∃ u l, cs = u ++ l ∧ (u = [] ∨ u = ['_']) ∧ Digits base l n := by
  constructor
  · intro h
    unfold prefixedValue at h
    split at h
    · exact ⟨['_'], _, rfl, .inr rfl, (digits_iff hb).1 h⟩
    · exact ⟨[], _, rfl, .inl rfl, (digits_iff hb).1 h⟩
  · rintro ⟨u, l, rfl, rfl | rfl, h⟩
    · obtain ⟨c, t, v, rfl, hc⟩ := h.head
      rw [List.nil_append, prefixedValue_eq (hc.value hb).1]
      exact (digits_iff hb).2 h
    · exact (digits_iff hb).2 h

theorem Digits.second {base : Nat} {l : List Char} {n : Nat} (h : Digits base l n) :
    ∀ a b t, l = a :: b :: t → b = '_' ∨ ∃ v, IsDigit base b v := by
  induction h with
  | one h => intro a b t e; cases e
  | more h' h ih =>
    intro a b t e
    obtain ⟨c, t', v, rfl, hc⟩ := h'.head
    cases t' with
    | nil => simp only [List.cons_append, List.nil_append, List.cons.injEq] at e; obtain ⟨_, rfl, _⟩ := e; exact .inr ⟨_, h⟩
    | cons d t' => simp only [List.cons_append, List.cons.injEq] at e; obtain ⟨_, rfl, _⟩ := e; exact ih _ _ _ rfl
  | underscore h' h ih =>
    intro a b t e
    obtain ⟨c, t', v, rfl, hc⟩ := h'.head
    cases t' with
    | nil => simp only [List.cons_append, List.nil_append, List.cons.injEq] at e; exact .inl e.2.1.symm
    | cons d t' => simp only [List.cons_append, List.cons.injEq] at e; obtain ⟨_, rfl, _⟩ := e; exact ih _ _ _ rfl

theorem not_digit10 {c : Char} (h : digitValue c = none ∨ ∃ v, digitValue c = some v ∧ 10 ≤ v) : ¬ ∃ v, IsDigit 10 c v := by
  rintro ⟨v, hv⟩
  have k := (hv.value (by decide)).2
  rcases h with h | ⟨w, h, hw⟩
  · rw [h] at k; cases k
  · rw [h] at k; injection k with k; have := hv.1; omega

theorem unsigned_iff {l : List Char} {n : Nat} : unsignedValue l = some n ↔ Literal l n := by
  constructor
  · intro h
    have pre : ∀ {base : Nat} {p : Char} {cs : List Char}, base ≤ 16 → (base, p) ∈ [(16, 'x'), (16, 'X'), (8, 'o'), (8, 'O'), (2, 'b'), (2, 'B')] →
        prefixedValue base cs = some n → Literal ('0' :: p :: cs) n := by
      intro base p cs hb hp h
      obtain ⟨u, l, rfl, hu, hd⟩ := (prefixed_iff hb).1 h
      exact .based hp hu hd
    unfold unsignedValue at h
    split at h
    · exact pre (by decide) (by decide) h
    · exact pre (by decide) (by decide) h
    · exact pre (by decide) (by decide) h
    · exact pre (by decide) (by decide) h
    · exact pre (by decide) (by decide) h
    · exact pre (by decide) (by decide) h
    · split at h
      · rename_i hz
        injection h with h
        subst h
        exact .zero ((digits_iff (by decide)).1 hz)
      · cases h
    · rename_i hne
      have hd := (digits_iff (by decide)).1 h
      obtain ⟨c, t, v, rfl, hc⟩ := hd.head
      exact .decimal hd (fun e => hne t (by rw [e]))
  · intro h
    cases h with
    | @decimal c l _ h hc =>
      unfold unsignedValue
      split
      iterate 7 (rename_i e; simp only [List.cons.injEq] at e; exact absurd e.1 hc)
      exact (digits_iff (by decide)).2 h
    | zero h =>
      have hs := h.second
      have hv := (digits_iff (by decide)).2 h
      unfold unsignedValue
      have no : ∀ {c : Char} {t : List Char}, l = '0' :: c :: t → c ≠ '_' → (digitValue c = none ∨ ∃ v, digitValue c = some v ∧ 10 ≤ v) → False := by
        intro c t e h1 h2
        rcases hs _ _ _ e with k | k
        · exact h1 k
        · exact not_digit10 h2 k
      split
      · exact (no rfl (by decide) (.inl (by decide))).elim
      · exact (no rfl (by decide) (.inl (by decide))).elim
      · exact (no rfl (by decide) (.inl (by decide))).elim
      · exact (no rfl (by decide) (.inl (by decide))).elim
      · exact (no rfl (by decide) (.inr ⟨11, by decide, by decide⟩)).elim
      · exact (no rfl (by decide) (.inr ⟨11, by decide, by decide⟩)).elim
      · rw [hv]; rfl
      · exact hv
    | @based base p u l _ hp hu h =>
      simp only [List.mem_cons, List.not_mem_nil, or_false, Prod.mk.injEq] at hp
      rcases hp with ⟨rfl, rfl⟩ | ⟨rfl, rfl⟩ | ⟨rfl, rfl⟩ | ⟨rfl, rfl⟩ | ⟨rfl, rfl⟩ | ⟨rfl, rfl⟩ <;>
        exact (prefixed_iff (by decide)).2 ⟨u, l, rfl, hu, h⟩

theorem isPySpace_iff (c : Char) : isPySpace c = true ↔ c.toNat ∈ [9, 10, 11, 12, 13, 28, 29, 30, 31, 32] := by
  have e : c = ' ' ↔ c.toNat = 32 := by
    constructor
    · rintro rfl; rfl
    · intro h
      have : c = Char.ofNat c.toNat := (Char.ofNat_toNat c).symm
      rw [this, h]
  simp only [isPySpace, Bool.or_eq_true, decide_eq_true_eq, Bool.and_eq_true, e, List.mem_cons, List.not_mem_nil, or_false]
  omega

theorem strip_split (p : Char → Bool) (l : List Char) : ∃ s t, l = s ++ ((l.dropWhile p).reverse.dropWhile p).reverse ++ t ∧
    (∀ c ∈ s, p c = true) ∧ ∀ c ∈ t, p c = true := by
  refine ⟨l.takeWhile p, ((l.dropWhile p).reverse.takeWhile p).reverse, ?_, ?_, ?_⟩
  · rw [List.append_assoc, ← List.reverse_append, List.takeWhile_append_dropWhile, List.reverse_reverse, List.takeWhile_append_dropWhile]
  · intro c hc; exact List.all_eq_true.1 List.all_takeWhile c hc
  · intro c hc; exact List.all_eq_true.1 List.all_takeWhile c (List.mem_reverse.1 hc)

theorem strip_eq {p : Char → Bool} {s m t : List Char} {a b : Char} {m' m'' : List Char} (hs : ∀ c ∈ s, p c = true) (ht : ∀ c ∈ t, p c = true)
    (h1 : m = a :: m') (ha : p a = false) (h2 : m = m'' ++ [b]) (hb : p b = false) :
    (((s ++ m ++ t).dropWhile p).reverse.dropWhile p).reverse = m := by
  have all : ∀ {u v : List Char}, (∀ c ∈ u, p c = true) → (u ++ v).dropWhile p = v.dropWhile p := by
    intro u v h
    induction u with
    | nil => rfl
    | cons c u ih =>
      rw [List.cons_append, List.dropWhile_cons, if_pos (h c List.mem_cons_self)]
      exact ih fun d hd => h d (List.mem_cons_of_mem _ hd)
  rw [List.append_assoc, all hs]
  have e1 : (m ++ t).dropWhile p = m ++ t := by rw [h1, List.cons_append, List.dropWhile_cons, ha, if_neg (by decide)]
  rw [e1, List.reverse_append, all fun c hc => ht c (List.mem_reverse.1 hc)]
  have e2 : m.reverse.dropWhile p = m.reverse := by
    rw [h2, List.reverse_append, List.reverse_singleton, List.singleton_append, List.dropWhile_cons, hb, if_neg (by decide)]
  rw [e2, List.reverse_reverse]

theorem space_chars : ∀ k ∈ [9, 10, 11, 12, 13, 28, 29, 30, 31, 32], digitValue (Char.ofNat k) = none := by decide +kernel

theorem IsDigit.nospace {base : Nat} (hb : base ≤ 16) {c : Char} {v : Nat} (h : IsDigit base c v) : isPySpace c = false := by
  cases hs : isPySpace c with
  | false => rfl
  | true =>
    have k := space_chars _ ((isPySpace_iff c).1 hs)
    rw [Char.ofNat_toNat, (h.value hb).2] at k
    cases k

theorem Digits.last {base : Nat} {l : List Char} {n : Nat} (h : Digits base l n) : ∃ t c v, l = t ++ [c] ∧ IsDigit base c v := by
  cases h with
  | one h => exact ⟨[], _, _, rfl, h⟩
  | more _ h => exact ⟨_, _, _, rfl, h⟩
  | @underscore l' n c v _ h => exact ⟨l' ++ ['_'], _, _, by simp, h⟩

/-- A literal begins with a digit and ends with a character that is not white space. -/
theorem Literal.ends {l : List Char} {n : Nat} (h : Literal l n) :
    (∃ c t, l = c :: t ∧ isPySpace c = false ∧ c ≠ '-' ∧ c ≠ '+') ∧ ∃ t c, l = t ++ [c] ∧ isPySpace c = false := by
  have first : ∀ {l : List Char} {m : Nat}, Digits 10 l m → ∃ c t, l = c :: t ∧ isPySpace c = false ∧ c ≠ '-' ∧ c ≠ '+' := by
    intro l m h
    obtain ⟨c, t, v, rfl, hc⟩ := h.head
    refine ⟨c, t, rfl, hc.nospace (by decide), ?_, ?_⟩
    · rintro rfl; exact not_digit10 (.inl (by decide)) ⟨v, hc⟩
    · rintro rfl; exact not_digit10 (.inl (by decide)) ⟨v, hc⟩
  have lst : ∀ {base : Nat} {l : List Char} {m : Nat}, base ≤ 16 → Digits base l m → ∃ t c, l = t ++ [c] ∧ isPySpace c = false := by
    intro base l m hb h
    obtain ⟨t, c, v, rfl, hc⟩ := h.last
    exact ⟨t, c, rfl, hc.nospace hb⟩
  cases h with
  | decimal h _ => exact ⟨first h, lst (by decide) h⟩
  | zero h => exact ⟨first h, lst (by decide) h⟩
  | @based base p u l _ hp hu h =>
    have hb : base ≤ 16 := by
      simp only [List.mem_cons, List.not_mem_nil, or_false, Prod.mk.injEq] at hp
      omega
    refine ⟨⟨'0', _, rfl, by decide, by decide, by decide⟩, ?_⟩
    obtain ⟨t, c, rfl, hc⟩ := lst hb h
    exact ⟨'0' :: p :: u ++ t, c, by simp, hc⟩

theorem pyInt_iff {value : List Char} {v : Int} : pyInt value = some v ↔ IntText value v := by
  constructor
  · intro h
    obtain ⟨s, t, e, hs, ht⟩ := strip_split isPySpace value
    have bs : Blank s := fun c hc => (isPySpace_iff c).1 (hs c hc)
    have bt : Blank t := fun c hc => (isPySpace_iff c).1 (ht c hc)
    unfold pyInt at h
    generalize ((value.dropWhile isPySpace).reverse.dropWhile isPySpace).reverse = m at e h
    subst e
    have lit : ∀ {cs : List Char} {f : Int → Int}, ((unsignedValue cs).bind fun a => some (a : Int)).map f = some v → ∃ n : Nat, Literal cs n ∧ f n = v := by
      intro cs f h
      cases hu : unsignedValue cs with
      | none => rw [hu] at h; cases h
      | some n => rw [hu] at h; injection h with h; exact ⟨n, unsigned_iff.1 hu, h⟩
    split at h
    · obtain ⟨n, h1, rfl⟩ := lit h; exact .minus bs h1 bt
    · obtain ⟨n, h1, rfl⟩ := lit h; exact .plus bs h1 bt
    · obtain ⟨n, h1, rfl⟩ := lit h; exact .unsigned bs h1 bt
  · intro h
    have sp : ∀ {l : List Char}, Blank l → ∀ c ∈ l, isPySpace c = true := fun h c hc => (isPySpace_iff c).2 (h c hc)
    cases h with
    | @unsigned s l n t h1 h2 h3 =>
      obtain ⟨⟨a, m', e1, k1, k2, k3⟩, m'', b, e2, k4⟩ := h2.ends
      unfold pyInt
      rw [strip_eq (sp h1) (sp h3) e1 k1 e2 k4]
      split
      · injection e1 with e1 _; exact absurd e1.symm k2
      · injection e1 with e1 _; exact absurd e1.symm k3
      · rw [unsigned_iff.2 h2]; rfl
    | @plus s l n t h1 h2 h3 =>
      obtain ⟨_, m'', b, e2, k4⟩ := h2.ends
      unfold pyInt
      rw [strip_eq (m := '+' :: l) (sp h1) (sp h3) rfl (by decide) (m'' := '+' :: m'') (by rw [e2]; rfl) k4]
      show ((unsignedValue l).bind fun a => some (a : Int)).map _ = _
      rw [unsigned_iff.2 h2]; rfl
    | @minus s l n t h1 h2 h3 =>
      obtain ⟨_, m'', b, e2, k4⟩ := h2.ends
      unfold pyInt
      rw [strip_eq (m := '-' :: l) (sp h1) (sp h3) rfl (by decide) (m'' := '-' :: m'') (by rw [e2]; rfl) k4]
      show ((unsignedValue l).bind fun a => some (a : Int)).map _ = _
      rw [unsigned_iff.2 h2]; rfl

end Detools
