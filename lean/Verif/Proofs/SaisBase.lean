import Verif.Model.Sais
/-
SA-IS: order on lists, counting, array accesses.
-/
namespace Detools
namespace Sais

/-! ### Dictionary order -/

/-- `a` is before `b` in dictionary order. -/
def Lex : List Nat → List Nat → Prop
  | _, [] => False
  | [], _ :: _ => True
  | a :: as, b :: bs => a < b ∨ (a = b ∧ Lex as bs)

theorem Lex.irrefl : ∀ a : List Nat, ¬ Lex a a
  | [], h => h
  | a :: as, h => by
    rcases h with h | h
    · exact Nat.lt_irrefl _ h
    · exact Lex.irrefl as h.2

theorem Lex.trans : ∀ {a b c : List Nat}, Lex a b → Lex b c → Lex a c
  | _, b, [], _, h => by cases b <;> exact False.elim h
  | a, [], _ :: _, h, _ => by cases a <;> exact False.elim h
  | [], _ :: _, _ :: _, _, _ => trivial
  | a :: as, b :: bs, c :: cs, h1, h2 => by
    rcases h1 with h1 | ⟨rfl, h1⟩ <;> rcases h2 with h2 | ⟨rfl, h2⟩
    · exact .inl (Nat.lt_trans h1 h2)
    · exact .inl h1
    · exact .inl h2
    · exact .inr ⟨rfl, Lex.trans h1 h2⟩

theorem Lex.tri : ∀ (a b : List Nat), Lex a b ∨ a = b ∨ Lex b a
  | [], [] => .inr (.inl rfl)
  | [], _ :: _ => .inl trivial
  | _ :: _, [] => .inr (.inr trivial)
  | a :: as, b :: bs => by
    rcases Nat.lt_trichotomy a b with h | rfl | h
    · exact .inl (.inl h)
    · rcases Lex.tri as bs with h | rfl | h
      · exact .inl (.inr ⟨rfl, h⟩)
      · exact .inr (.inl rfl)
      · exact .inr (.inr (.inr ⟨rfl, h⟩))
    · exact .inr (.inr (.inl h))

theorem Lex.asymm {a b : List Nat} (h : Lex a b) : ¬ Lex b a := fun h' => Lex.irrefl _ (h.trans h')

theorem lex_nil (a : List Nat) : ¬ Lex a [] := by cases a <;> exact fun h => h

theorem lex_cons {a b : Nat} {as bs : List Nat} : Lex (a :: as) (b :: bs) ↔ a < b ∨ (a = b ∧ Lex as bs) := Iff.rfl

/-! ### Counting -/

open Classical in
/-- The number of `x < n` with `p x`. -/
noncomputable def cnt : Nat → (Nat → Prop) → Nat
  | 0, _ => 0
  | n + 1, p => cnt n p + if p n then 1 else 0

theorem cnt_mono {p q : Nat → Prop} : ∀ {n : Nat}, (∀ x, x < n → p x → q x) → cnt n p ≤ cnt n q
  | 0, _ => Nat.le_refl _
  | n + 1, h => by
    have ih := cnt_mono (n := n) (fun x hx => h x (by omega))
    unfold cnt
    by_cases hp : p n
    · rw [if_pos hp, if_pos (h n (by omega) hp)]; omega
    · rw [if_neg hp]; omega

theorem cnt_congr {p q : Nat → Prop} {n : Nat} (h : ∀ x, x < n → (p x ↔ q x)) : cnt n p = cnt n q :=
  Nat.le_antisymm (cnt_mono fun x hx => (h x hx).1) (cnt_mono fun x hx => (h x hx).2)

theorem cnt_false {p : Nat → Prop} : ∀ {n : Nat}, (∀ x, x < n → ¬ p x) → cnt n p = 0
  | 0, _ => rfl
  | n + 1, h => by
    have ih := cnt_false (n := n) (fun x hx => h x (by omega))
    unfold cnt
    rw [if_neg (h n (by omega)), ih]

theorem cnt_true {p : Nat → Prop} : ∀ {n : Nat}, (∀ x, x < n → p x) → cnt n p = n
  | 0, _ => rfl
  | n + 1, h => by
    have ih := cnt_true (n := n) (fun x hx => h x (by omega))
    unfold cnt
    rw [if_pos (h n (by omega)), ih]

theorem cnt_le (n : Nat) (p : Nat → Prop) : cnt n p ≤ n := by
  have := cnt_mono (n := n) (p := p) (q := fun _ => True) (fun _ _ _ => trivial)
  rw [cnt_true (fun _ _ => trivial)] at this
  exact this

theorem cnt_or {p q : Nat → Prop} : ∀ {n : Nat}, (∀ x, x < n → p x → ¬ q x) → cnt n (fun x => p x ∨ q x) = cnt n p + cnt n q
  | 0, _ => rfl
  | n + 1, h => by
    have ih := cnt_or (n := n) (fun x hx => h x (by omega))
    have hn := h n (by omega)
    simp only [cnt]
    rw [ih]
    by_cases hp : p n
    · have := hn hp
      rw [if_pos (.inl hp), if_pos hp, if_neg this]; omega
    · rw [if_neg hp]
      by_cases hq : q n
      · rw [if_pos (.inr hq), if_pos hq]; omega
      · rw [if_neg (fun h => h.elim hp hq), if_neg hq]; omega

theorem cnt_eq {a : Nat} : ∀ {n : Nat}, cnt n (fun x => x = a) = if a < n then 1 else 0
  | 0 => by simp [cnt]
  | n + 1 => by
    have ih := cnt_eq (a := a) (n := n)
    unfold cnt
    rw [ih]
    by_cases h1 : a < n
    · have h2 : ¬ n = a := by omega
      have h3 : a < n + 1 := by omega
      simp [h1, h2, h3]
    · by_cases h2 : n = a
      · have h3 : a < n + 1 := by omega
        simp [h1, h2]
      · have h3 : ¬ a < n + 1 := by omega
        simp [h1, h2, h3]

theorem cnt_insert {p : Nat → Prop} {n a : Nat} (ha : a < n) (hp : ¬ p a) : cnt n (fun x => p x ∨ x = a) = cnt n p + 1 := by
  rw [cnt_or (q := fun x => x = a) (fun x _ h1 h2 => hp (by rw [← h2]; exact h1)), cnt_eq, if_pos ha]

theorem cnt_lt {p q : Nat → Prop} {n a : Nat} (h : ∀ x, x < n → p x → q x) (ha : a < n) (hq : q a) (hp : ¬ p a) : cnt n p < cnt n q := by
  have h1 := cnt_mono (n := n) (p := fun x => p x ∨ x = a) (q := q) (fun x hx hh => hh.elim (h x hx) (fun e => e ▸ hq))
  rw [cnt_insert ha hp] at h1
  omega

theorem cnt_pos {p : Nat → Prop} {n a : Nat} (ha : a < n) (hp : p a) : 0 < cnt n p := by
  have := cnt_lt (p := fun _ => False) (q := p) (fun _ _ h => h.elim) ha hp (fun h => h)
  omega

theorem cnt_pos_ex {p : Nat → Prop} : ∀ {n : Nat}, 0 < cnt n p → ∃ x, x < n ∧ p x
  | 0, h => absurd h (Nat.lt_irrefl 0)
  | n + 1, h => by
    by_cases hp : p n
    · exact ⟨n, by omega, hp⟩
    · unfold cnt at h
      rw [if_neg hp] at h
      obtain ⟨x, h1, h2⟩ := cnt_pos_ex (n := n) (by omega)
      exact ⟨x, by omega, h2⟩

/-- The values of an injective function below `n` on the `x` with `p x`. -/
theorem cnt_image {p : Nat → Prop} {f : Nat → Nat} {m : Nat} : ∀ {n : Nat}, (∀ x, x < n → p x → f x < m) →
    (∀ x y, x < n → y < n → p x → p y → f x = f y → x = y) → cnt m (fun q => ∃ x, x < n ∧ p x ∧ f x = q) = cnt n p
  | 0, _, _ => cnt_false (fun q _ ⟨x, h, _⟩ => by omega)
  | n + 1, h1, h2 => by
    have ih := cnt_image (n := n) (m := m) (p := p) (f := f) (fun x hx => h1 x (by omega)) (fun x y hx hy => h2 x y (by omega) (by omega))
    simp only [cnt]
    rw [← ih]
    by_cases hp : p n
    · rw [if_pos hp, ← cnt_insert (p := fun q => ∃ x, x < n ∧ p x ∧ f x = q) (h1 n (by omega) hp)]
      · apply cnt_congr
        intro q _
        constructor
        · rintro ⟨x, k1, k2, k3⟩
          by_cases hx : x = n
          · exact .inr (by rw [← k3, hx])
          · exact .inl ⟨x, by omega, k2, k3⟩
        · rintro (⟨x, k1, k2, k3⟩ | k)
          · exact ⟨x, by omega, k2, k3⟩
          · exact ⟨n, by omega, hp, k.symm⟩
      · rintro ⟨x, k1, k2, k3⟩
        have := h2 x n (by omega) (by omega) k2 hp k3
        omega
    · rw [if_neg hp]
      apply cnt_congr
      intro q _
      constructor
      · rintro ⟨x, k1, k2, k3⟩
        exact ⟨x, by rcases Nat.lt_succ_iff_lt_or_eq.1 k1 with h | h; exact h; exact absurd (h ▸ k2) hp, k2, k3⟩
      · rintro ⟨x, k1, k2, k3⟩
        exact ⟨x, by omega, k2, k3⟩

/-- An injective function on the numbers below `n` takes all values. -/
theorem inj_surj {f : Nat → Nat} {n : Nat} (h1 : ∀ x, x < n → f x < n) (h2 : ∀ x y, x < n → y < n → f x = f y → x = y) :
    ∀ q, q < n → ∃ x, x < n ∧ f x = q := by
  intro q hq
  have h := cnt_image (p := fun _ => True) (f := f) (m := n) (n := n) (fun x hx _ => h1 x hx) (fun x y hx hy _ _ => h2 x y hx hy)
  rw [cnt_true (p := fun _ => True) (fun _ _ => trivial)] at h
  by_cases hex : ∃ x, x < n ∧ f x = q
  · exact hex
  · exfalso
    have := cnt_lt (n := n) (p := fun q => ∃ x, x < n ∧ True ∧ f x = q) (q := fun _ => True) (fun _ _ _ => trivial) hq trivial
      (fun ⟨x, k1, _, k2⟩ => hex ⟨x, k1, k2⟩)
    rw [cnt_true (p := fun _ => True) (fun _ _ => trivial)] at this
    omega

/-! ### Arrays -/

section
variable {α : Type}

theorem rd_ok {a : List α} {i : Nat} {v : α} (h : a[i]? = some v) : rd a i = .ok v := by
  unfold rd; rw [h]

theorem wr_ok {a : List α} {i : Nat} (v : α) (h : i < a.length) : wr a i v = .ok (a.set i v) := by
  unfold wr; rw [if_pos h]

theorem fits32_iff {v : Int} : fits32 v = true ↔ -2 ^ 31 ≤ v ∧ v < 2 ^ 31 := by
  cases v with
  | ofNat n => simp only [fits32, decide_eq_true_eq, Int.ofNat_eq_natCast]; omega
  | negSucc n => simp only [fits32, decide_eq_true_eq, Int.negSucc_eq]; omega

theorem st_ok {a : List Int} {i : Nat} {v : Int} (hv : -2 ^ 31 ≤ v ∧ v < 2 ^ 31) (h : i < a.length) : st a i v = .ok (a.set i v) := by
  rw [st, if_pos (fits32_iff.2 hv), wr_ok _ h]

/-- The length of the text fits in 32 bits. -/
def Small (t : List Nat) : Prop := t.length < 2 ^ 31

theorem range_of {t : List Nat} {v : Int} (hn : Small t) (h1 : -t.length - 1 ≤ v) (h2 : v ≤ t.length) : -2 ^ 31 ≤ v ∧ v < 2 ^ 31 := by
  unfold Small at hn
  omega

/-- A value that is not below the least 32-bit integer. -/
def Low (v : Int) : Prop := -2 ^ 31 ≤ v

theorem low_inv {v : Int} (h : Low v) (hv : v < 0) : -2 ^ 31 ≤ inv v ∧ inv v < 2 ^ 31 := by
  unfold Low at h
  unfold inv
  omega

/-- Twice the length fits in 32 bits: an index can be marked by adding the length to it. -/
def Half (n : Nat) : Prop := 2 * n ≤ 2 ^ 31

theorem half_range {n : Nat} {v : Int} (hn : Half n) (h1 : -(2 * n : Int) ≤ v) (h2 : v < 2 * n) : -2 ^ 31 ≤ v ∧ v < 2 ^ 31 := by
  unfold Half at hn
  omega

theorem dec_succ (i : Nat) : dec (i + 1) = .ok i := rfl

theorem dec_ok {i j : Nat} (h : i = j + 1) : dec i = .ok j := by rw [h]; rfl

theorem get_lt {a : List α} {i : Nat} {v : α} (h : a[i]? = some v) : i < a.length := (List.getElem?_eq_some_iff.1 h).1

theorem get_set_eq {a : List α} {i : Nat} {v : α} (h : i < a.length) : (a.set i v)[i]? = some v := by
  rw [List.getElem?_set_self h]

theorem get_set_ne {a : List α} {i j : Nat} {v : α} (h : i ≠ j) : (a.set i v)[j]? = a[j]? := List.getElem?_set_ne h

end

/-- The character at `x`. -/
def ch (t : List Nat) (x : Nat) : Nat := t.getD x 0

theorem ch_get {t : List Nat} {x : Nat} (h : x < t.length) : t[x]? = some (ch t x) := by
  unfold ch
  rw [List.getD_eq_getElem?_getD, List.getElem?_eq_getElem h]
  rfl

theorem rd_ch {t : List Nat} {x : Nat} (h : x < t.length) : rd t x = .ok (ch t x) := rd_ok (ch_get h)

theorem drop_ch {t : List Nat} {x : Nat} (h : x < t.length) : t.drop x = ch t x :: t.drop (x + 1) := by
  rw [List.drop_eq_getElem_cons h]
  unfold ch
  rw [List.getD_eq_getElem?_getD, List.getElem?_eq_getElem h]
  rfl

/-! ### Buckets -/

/-- The first position of the bucket of `c`. -/
noncomputable def start (t : List Nat) (c : Nat) : Nat := cnt t.length (fun x => ch t x < c)

/-- The position after the bucket of `c`. -/
noncomputable def fin (t : List Nat) (c : Nat) : Nat := start t (c + 1)

theorem fin_eq (t : List Nat) (c : Nat) : fin t c = start t c + cnt t.length (fun x => ch t x = c) := by
  unfold fin start
  rw [← cnt_or (fun x _ h1 h2 => by omega)]
  apply cnt_congr
  intro x _
  constructor
  · intro h; rcases Nat.lt_succ_iff_lt_or_eq.1 h with h | h
    · exact .inl h
    · exact .inr h
  · rintro (h | h) <;> omega

theorem start_mono {t : List Nat} {c d : Nat} (h : c ≤ d) : start t c ≤ start t d :=
  cnt_mono fun x _ h' => by omega

theorem fin_le_start {t : List Nat} {c d : Nat} (h : c < d) : fin t c ≤ start t d := start_mono h

theorem fin_le_length (t : List Nat) (c : Nat) : fin t c ≤ t.length := cnt_le _ _

theorem start_le_length (t : List Nat) (c : Nat) : start t c ≤ t.length := cnt_le _ _

/-- What `get_counts` gives. -/
def IsCounts (t : List Nat) (k : Nat) (c : List Nat) : Prop :=
  c.length = k ∧ ∀ x, x < k → c[x]? = some (cnt t.length (fun y => ch t y = x))

open Classical in
theorem cnt_shift {p : Nat → Prop} : ∀ n : Nat, cnt (n + 1) p = cnt 1 p + cnt n (fun x => p (x + 1))
  | 0 => by simp [cnt]
  | n + 1 => by
    have ih := cnt_shift (p := p) n
    have e1 : cnt (n + 1 + 1) p = cnt (n + 1) p + if p (n + 1) then 1 else 0 := rfl
    have e2 : cnt (n + 1) (fun x => p (x + 1)) = cnt n (fun x => p (x + 1)) + if p (n + 1) then 1 else 0 := rfl
    rw [e1, e2, ih]
    omega

theorem counts_loop {k : Nat} : ∀ (t : List Nat) (c : List Nat), (∀ x ∈ t, x < k) → c.length = k →
    ∃ c', countsLoop t c = .ok c' ∧ c'.length = k ∧
      ∀ x v, c[x]? = some v → c'[x]? = some (v + cnt t.length (fun y => ch t y = x))
  | [], c, _, hc => ⟨c, rfl, hc, fun x v h => by simpa [cnt] using h⟩
  | a :: t, c, ht, hc => by
    have ha : a < c.length := by rw [hc]; exact ht a (by simp)
    obtain ⟨v, hv⟩ : ∃ v, c[a]? = some v := ⟨c[a], List.getElem?_eq_getElem ha⟩
    obtain ⟨c', h1, h2, h3⟩ := counts_loop t (c.set a (v + 1)) (fun x hx => ht x (by simp [hx])) (by rw [List.length_set]; exact hc)
    refine ⟨c', ?_, h2, ?_⟩
    · unfold countsLoop
      rw [rd_ok hv]
      simp only [Bind.bind, Except.bind]
      rw [wr_ok _ ha]
      exact h1
    · intro x w hx
      rw [List.length_cons, cnt_shift]
      have hc0 : cnt 1 (fun y => ch (a :: t) y = x) = if a = x then 1 else 0 := by
        simp [cnt, ch]
      have hc1 : cnt t.length (fun y => ch (a :: t) (y + 1) = x) = cnt t.length (fun y => ch t y = x) :=
        cnt_congr fun y _ => by simp [ch]
      rw [hc0, hc1]
      by_cases hax : a = x
      · subst hax
        rw [hv] at hx
        cases hx
        rw [if_pos rfl, h3 a (v + 1) (get_set_eq ha)]
        congr 1
        omega
      · rw [if_neg hax, h3 x w (by rw [get_set_ne hax]; exact hx)]
        congr 1
        omega

theorem getCounts_ok {t : List Nat} {k : Nat} (ht : ∀ x ∈ t, x < k) : ∃ c, getCounts t k = .ok c ∧ IsCounts t k c := by
  obtain ⟨c, h1, h2, h3⟩ := counts_loop t (List.replicate k 0) ht (by simp)
  refine ⟨c, h1, h2, fun x hx => ?_⟩
  rw [h3 x 0 (by rw [List.getElem?_replicate, if_pos hx]), Nat.zero_add]

theorem bucketStarts_get : ∀ (c : List Nat) (sum x : Nat), x < c.length → (bucketStarts sum c)[x]? = some (sum + (c.take x).sum)
  | [], _, _, h => absurd h (by simp)
  | c :: cs, sum, 0, _ => by simp [bucketStarts]
  | c :: cs, sum, x + 1, h => by
    simp only [bucketStarts, List.getElem?_cons_succ, List.take_succ_cons, List.sum_cons]
    rw [bucketStarts_get cs (sum + c) x (by simpa using h)]
    congr 1
    omega

theorem bucketEnds_get : ∀ (c : List Nat) (sum x : Nat), x < c.length → (bucketEnds sum c)[x]? = some (sum + (c.take (x + 1)).sum)
  | [], _, _, h => absurd h (by simp)
  | c :: cs, sum, 0, _ => by simp [bucketEnds]
  | c :: cs, sum, x + 1, h => by
    simp only [bucketEnds, List.getElem?_cons_succ, List.take_succ_cons, List.sum_cons]
    rw [bucketEnds_get cs (sum + c) x (by simpa using h)]
    congr 1
    omega

theorem bucketStarts_length : ∀ (c : List Nat) (sum : Nat), (bucketStarts sum c).length = c.length
  | [], _ => rfl
  | _ :: cs, sum => by simp [bucketStarts, bucketStarts_length cs]

theorem bucketEnds_length : ∀ (c : List Nat) (sum : Nat), (bucketEnds sum c).length = c.length
  | [], _ => rfl
  | _ :: cs, sum => by simp [bucketEnds, bucketEnds_length cs]

theorem counts_sum {t : List Nat} {k : Nat} {c : List Nat} (h : IsCounts t k c) : ∀ x, x ≤ k → (c.take x).sum = start t x
  | 0, _ => by
    rw [List.take_zero, List.sum_nil]
    exact (cnt_false (fun y _ h => by omega)).symm
  | x + 1, hx => by
    rw [List.take_add_one, List.sum_append, counts_sum h x (by omega), h.2 x (by omega)]
    simp only [Option.toList, List.sum_cons, List.sum_nil, Nat.add_zero]
    exact (fin_eq t x).symm

theorem starts_get {t : List Nat} {k : Nat} {c : List Nat} (h : IsCounts t k c) {x : Nat} (hx : x < k) :
    (bucketStarts 0 c)[x]? = some (start t x) := by
  rw [bucketStarts_get c 0 x (by rw [h.1]; exact hx), Nat.zero_add, counts_sum h x (by omega)]

theorem ends_get {t : List Nat} {k : Nat} {c : List Nat} (h : IsCounts t k c) {x : Nat} (hx : x < k) :
    (bucketEnds 0 c)[x]? = some (fin t x) := by
  rw [bucketEnds_get c 0 x (by rw [h.1]; exact hx), Nat.zero_add, counts_sum h (x + 1) (by omega)]
  rfl

end Sais
end Detools
