import Verif.Model.Divsufsort
import Verif.Proofs.SaisInduce
/-
divsufsort: buckets, ranks and counts.
-/
namespace Detools
namespace Dss
open Sais

/-! ### Buckets -/

theorem idx_nat (i : Nat) : idx (i : Int) = .ok i := by
  unfold idx
  rw [if_neg (by omega)]
  rfl

theorem idx_ok {i : Int} {j : Nat} (h : i = j) : idx i = .ok j := by rw [h, idx_nat]

theorem bIx_eq {c0 c1 : Nat} (h : c0 < 256) : bIx c0 c1 = c1 * 256 + c0 := by
  unfold bIx
  rw [← Nat.shiftLeft_add_eq_or_of_lt (i := 8) h, Nat.shiftLeft_eq]

theorem sIx_eq {c0 c1 : Nat} (h : c1 < 256) : sIx c0 c1 = c0 * 256 + c1 := by
  unfold sIx
  rw [← Nat.shiftLeft_add_eq_or_of_lt (i := 8) h, Nat.shiftLeft_eq]

/-- A function changed for one argument. -/
def upd (f : Nat → Int) (c : Nat) (v : Int) : Nat → Int := fun x => if x = c then v else f x

/-- A function changed for one pair of arguments. -/
def upd2 (f : Nat → Nat → Int) (c0 c1 : Nat) (v : Int) : Nat → Nat → Int := fun x y => if x = c0 ∧ y = c1 then v else f x y

/-- What is in `bucket_A`. -/
structure Ak (a : List Int) (f : Nat → Int) : Prop where
  len : a.length = 256
  get : ∀ c, c < 256 → a[c]? = some (f c)

/-- What is in `bucket_B`. -/
structure Bk (b : List Int) (fB fS : Nat → Nat → Int) : Prop where
  len : b.length = 65536
  getB : ∀ c0 c1, c0 ≤ c1 → c1 < 256 → b[bIx c0 c1]? = some (fB c0 c1)
  getS : ∀ c0 c1, c0 < c1 → c1 < 256 → b[sIx c0 c1]? = some (fS c0 c1)

theorem Ak.rd {a f} (h : Ak a f) {c : Nat} (hc : c < 256) : rd a c = .ok (f c) := rd_ok (h.get c hc)

theorem Ak.wr {a f} (h : Ak a f) {c : Nat} (hc : c < 256) (v : Int) : ∃ a', wr a c v = .ok a' ∧ Ak a' (upd f c v) := by
  refine ⟨_, wr_ok v (by rw [h.len]; exact hc), by rw [List.length_set, h.len], fun x hx => ?_⟩
  unfold upd
  by_cases he : x = c
  · subst he
    rw [if_pos rfl, get_set_eq (by rw [h.len]; exact hc)]
  · rw [if_neg he, get_set_ne (Ne.symm he), h.get x hx]

theorem Bk.rdB {b fB fS} (h : Bk b fB fS) {c0 c1 : Nat} (h0 : c0 ≤ c1) (h1 : c1 < 256) : rd b (bIx c0 c1) = .ok (fB c0 c1) :=
  rd_ok (h.getB c0 c1 h0 h1)

theorem Bk.rdS {b fB fS} (h : Bk b fB fS) {c0 c1 : Nat} (h0 : c0 < c1) (h1 : c1 < 256) : rd b (sIx c0 c1) = .ok (fS c0 c1) :=
  rd_ok (h.getS c0 c1 h0 h1)

theorem Bk.wrB {b fB fS} (h : Bk b fB fS) {c0 c1 : Nat} (h0 : c0 ≤ c1) (h1 : c1 < 256) (v : Int) :
    ∃ b', wr b (bIx c0 c1) v = .ok b' ∧ Bk b' (upd2 fB c0 c1 v) fS := by
  have hl : bIx c0 c1 < b.length := by rw [bIx_eq (by omega), h.len]; omega
  refine ⟨_, wr_ok v hl, by rw [List.length_set, h.len], fun x y k1 k2 => ?_, fun x y k1 k2 => ?_⟩
  · unfold upd2
    by_cases he : x = c0 ∧ y = c1
    · obtain ⟨rfl, rfl⟩ := he
      rw [if_pos ⟨rfl, rfl⟩, get_set_eq hl]
    · rw [if_neg he, get_set_ne, h.getB x y k1 k2]
      rw [bIx_eq (by omega), bIx_eq (by omega)]
      omega
  · rw [get_set_ne, h.getS x y k1 k2]
    rw [bIx_eq (by omega), sIx_eq (by omega)]
    omega

theorem Bk.wrS {b fB fS} (h : Bk b fB fS) {c0 c1 : Nat} (h0 : c0 < c1) (h1 : c1 < 256) (v : Int) :
    ∃ b', wr b (sIx c0 c1) v = .ok b' ∧ Bk b' fB (upd2 fS c0 c1 v) := by
  have hl : sIx c0 c1 < b.length := by rw [sIx_eq (by omega), h.len]; omega
  refine ⟨_, wr_ok v hl, by rw [List.length_set, h.len], fun x y k1 k2 => ?_, fun x y k1 k2 => ?_⟩
  · rw [get_set_ne, h.getB x y k1 k2]
    rw [bIx_eq (by omega), sIx_eq (by omega)]
    omega
  · unfold upd2
    by_cases he : x = c0 ∧ y = c1
    · obtain ⟨rfl, rfl⟩ := he
      rw [if_pos ⟨rfl, rfl⟩, get_set_eq hl]
    · rw [if_neg he, get_set_ne, h.getS x y k1 k2]
      rw [sIx_eq (by omega), sIx_eq (by omega)]
      omega

theorem Ak.incr {a f} (h : Ak a f) {c : Nat} (hc : c < 256) : ∃ a', incr a c = .ok a' ∧ Ak a' (upd f c (f c + 1)) := by
  obtain ⟨a', h1, h2⟩ := h.wr hc (f c + 1)
  refine ⟨a', ?_, h2⟩
  unfold Dss.incr
  rw [h.rd hc]
  exact h1

theorem Bk.incrB {b fB fS} (h : Bk b fB fS) {c0 c1 : Nat} (h0 : c0 ≤ c1) (h1 : c1 < 256) :
    ∃ b', incr b (bIx c0 c1) = .ok b' ∧ Bk b' (upd2 fB c0 c1 (fB c0 c1 + 1)) fS := by
  obtain ⟨b', k1, k2⟩ := h.wrB h0 h1 (fB c0 c1 + 1)
  refine ⟨b', ?_, k2⟩
  unfold Dss.incr
  rw [h.rdB h0 h1]
  exact k1

theorem Bk.incrS {b fB fS} (h : Bk b fB fS) {c0 c1 : Nat} (h0 : c0 < c1) (h1 : c1 < 256) :
    ∃ b', incr b (sIx c0 c1) = .ok b' ∧ Bk b' fB (upd2 fS c0 c1 (fS c0 c1 + 1)) := by
  obtain ⟨b', k1, k2⟩ := h.wrS h0 h1 (fS c0 c1 + 1)
  refine ⟨b', ?_, k2⟩
  unfold Dss.incr
  rw [h.rdS h0 h1]
  exact k1

theorem Ak.congr {a f g} (h : Ak a f) (e : ∀ c, c < 256 → f c = g c) : Ak a g :=
  ⟨h.len, fun c hc => by rw [h.get c hc, e c hc]⟩

theorem Bk.congr {b fB fS gB gS} (h : Bk b fB fS) (e1 : ∀ c0 c1, c0 ≤ c1 → c1 < 256 → fB c0 c1 = gB c0 c1)
    (e2 : ∀ c0 c1, c0 < c1 → c1 < 256 → fS c0 c1 = gS c0 c1) : Bk b gB gS :=
  ⟨h.len, fun c0 c1 h0 h1 => by rw [h.getB c0 c1 h0 h1, e1 c0 c1 h0 h1], fun c0 c1 h0 h1 => by rw [h.getS c0 c1 h0 h1, e2 c0 c1 h0 h1]⟩

/-! ### Counting -/

theorem cnt_split {n : Nat} {p q r : Nat → Prop} (h : ∀ x, x < n → (r x ↔ p x ∨ q x)) (hd : ∀ x, x < n → p x → ¬ q x) :
    cnt n r = cnt n p + cnt n q := by
  rw [← cnt_or hd]
  exact cnt_congr h

theorem cnt_add_one {n a : Nat} {p r : Nat → Prop} (ha : a < n) (h : ∀ x, x < n → (r x ↔ p x ∨ x = a)) (hp : ¬ p a) : cnt n r = cnt n p + 1 := by
  rw [← cnt_insert ha hp]
  exact cnt_congr h

theorem cnt_below {n i : Nat} {p : Nat → Prop} (h : i ≤ n) : cnt n (fun x => p x ∧ x < i) = cnt i p := by
  induction n with
  | zero =>
    have : i = 0 := by omega
    subst this
    rfl
  | succ n ih =>
    by_cases he : i = n + 1
    · subst he
      exact cnt_congr fun x hx => ⟨And.left, fun h => ⟨h, hx⟩⟩
    · rw [← ih (by omega)]
      conv => lhs; unfold cnt
      rw [if_neg (by omega), Nat.add_zero]

variable {t : List Nat}

/-! ### Ranks -/

/-- The rank of a suffix. -/
noncomputable def rk (t : List Nat) (x : Nat) : Nat := cnt t.length (fun y => Lex (t.drop y) (t.drop x))

theorem rk_mono {x y : Nat} (hx : x < t.length) (h : Lex (t.drop x) (t.drop y)) : rk t x < rk t y :=
  cnt_lt (fun _ _ hz => hz.trans h) hx h (Lex.irrefl _)

theorem rk_lt_iff {x y : Nat} (hx : x < t.length) (hy : y < t.length) : rk t x < rk t y ↔ Lex (t.drop x) (t.drop y) := by
  refine ⟨fun h => ?_, rk_mono hx⟩
  rcases Lex.tri (t.drop x) (t.drop y) with h1 | h1 | h1
  · exact h1
  · have := drop_inj hx hy h1
    subst this
    omega
  · have := rk_mono hy h1
    omega

theorem rk_lt {x : Nat} (hx : x < t.length) : rk t x < t.length := by
  have := cnt_lt (n := t.length) (p := fun y => Lex (t.drop y) (t.drop x)) (q := fun _ => True) (fun _ _ _ => trivial) hx trivial (Lex.irrefl _)
  rw [cnt_true (p := fun _ => True) (fun _ _ => trivial)] at this
  exact this

theorem rk_inj {x y : Nat} (hx : x < t.length) (hy : y < t.length) (h : rk t x = rk t y) : x = y := by
  rcases Lex.tri (t.drop x) (t.drop y) with h1 | h1 | h1
  · have := rk_mono hx h1; omega
  · exact drop_inj hx hy h1
  · have := rk_mono hy h1; omega

theorem rk_surj {q : Nat} (h : q < t.length) : ∃ x, x < t.length ∧ rk t x = q :=
  inj_surj (f := rk t) (fun _ hx => rk_lt hx) (fun _ _ hx hy => rk_inj hx hy) q h

theorem rk_ne {x y : Nat} (hx : x < t.length) (hy : y < t.length) (h : x ≠ y) : rk t x ≠ rk t y := fun e => h (rk_inj hx hy e)

/-! ### Types -/

/-- Type B*. -/
def star (t : List Nat) (x : Nat) : Prop := isS t x = true ∧ isS t (x + 1) = false

/-- Type B but not B*. -/
def nb (t : List Nat) (x : Nat) : Prop := isS t x = true ∧ isS t (x + 1) = true

theorem star_lt {x : Nat} (h : star t x) : x + 1 < t.length := isS_lt h.1

theorem nb_lt {x : Nat} (h : nb t x) : x + 1 < t.length := isS_lt h.1

theorem S_cases {x : Nat} (h : isS t x = true) : star t x ∨ nb t x := by
  by_cases h1 : isS t (x + 1) = true
  · exact .inr ⟨h, h1⟩
  · exact .inl ⟨h, by simpa using h1⟩

theorem not_star_nb {x : Nat} (h : star t x) : ¬ nb t x := fun h' => by have k := h'.2; rw [h.2] at k; cases k

theorem not_star_L {x : Nat} (h : star t x) : ¬ isL t x := fun h' => by have k := h'.2; rw [h.1] at k; cases k

theorem not_nb_L {x : Nat} (h : nb t x) : ¬ isL t x := fun h' => by have k := h'.2; rw [h.1] at k; cases k

theorem cases3 {x : Nat} (h : x < t.length) : isL t x ∨ star t x ∨ nb t x := by
  rcases L_or_S h with h | h
  · exact .inl h
  · exact .inr (S_cases h)

theorem S_ch {x : Nat} (h : isS t x = true) : ch t x ≤ ch t (x + 1) := by
  rcases (isS_iff (isS_lt h)).1 h with h1 | h1
  · omega
  · omega

theorem L_ch {x : Nat} (h : isS t x = false) (hx : x + 1 < t.length) : ch t (x + 1) ≤ ch t x := by
  rcases (isL_iff hx).1 h with h1 | h1
  · omega
  · omega

theorem star_ch {x : Nat} (h : star t x) : ch t x < ch t (x + 1) := (isS_before_L (star_lt h) h.2).1 h.1

theorem exists_star {x : Nat} (h : isS t x = true) : ∃ y, x ≤ y ∧ star t y ∧ (∀ z, x ≤ z → z ≤ y → isS t z = true) := by
  have hl := isS_lt h
  rcases S_cases h with h1 | h1
  · exact ⟨x, Nat.le_refl _, h1, fun z k1 k2 => by have : z = x := by omega
                                                   rw [this]; exact h⟩
  · obtain ⟨y, k1, k2, k3⟩ := exists_star h1.2
    refine ⟨y, by omega, k2, fun z l1 l2 => ?_⟩
    by_cases he : z = x
    · rw [he]; exact h
    · exact k3 z (by omega) l2
termination_by t.length - x

theorem S_small {x k : Nat} (hk : ∀ x, x < t.length → ch t x < k) (h : isS t x = true) : ch t x + 1 < k := by
  have hl := isS_lt h
  rcases S_cases h with h1 | h1
  · have := star_ch h1
    have := hk (x + 1) hl
    omega
  · have := S_small hk h1.2
    have := S_ch h
    omega
termination_by t.length - x

theorem lex_next {x y : Nat} (hx : x < t.length) (hy : y < t.length) (he : ch t x = ch t y) (hx1 : x + 1 < t.length) (hy1 : y + 1 < t.length)
    (h : ch t (x + 1) < ch t (y + 1)) : Lex (t.drop x) (t.drop y) := by
  rw [drop_step hx hy he]
  exact drop_char hx1 hy1 h

/-- A B* suffix is smaller than another type B suffix with the same first two characters. -/
theorem star_before_nb {x y : Nat} (hx : star t x) (hy : nb t y) (h0 : ch t x = ch t y) (h1 : ch t (x + 1) = ch t (y + 1)) :
    Lex (t.drop x) (t.drop y) := by
  have := star_lt hx
  have := nb_lt hy
  rw [drop_step (by omega) (by omega) h0]
  exact L_before_S hx.2 (by omega) hy.2 h1

/-! ### Places -/

/-- The suffix is before the end of the bucket of type B suffixes with `c0` and `c1`. -/
def Upto (t : List Nat) (c0 c1 z : Nat) : Prop := ch t z < c0 ∨ (ch t z = c0 ∧ (isL t z ∨ ch t (z + 1) ≤ c1))

noncomputable def top (t : List Nat) (c0 c1 : Nat) : Nat := cnt t.length (Upto t c0 c1)

/-- The start of the type B suffixes with `c`. -/
noncomputable def bBeg (t : List Nat) (c : Nat) : Nat := cnt t.length (fun z => ch t z < c ∨ (ch t z = c ∧ isL t z))

/-- First two characters. -/
def Pair (t : List Nat) (c0 c1 z : Nat) : Prop := ch t z = c0 ∧ ch t (z + 1) = c1

noncomputable def cA (t : List Nat) (c : Nat) : Nat := cnt t.length (fun z => isL t z ∧ ch t z = c)
noncomputable def cB (t : List Nat) (c0 c1 : Nat) : Nat := cnt t.length (fun z => nb t z ∧ Pair t c0 c1 z)
noncomputable def cS (t : List Nat) (c0 c1 : Nat) : Nat := cnt t.length (fun z => star t z ∧ Pair t c0 c1 z)

/-- The number of B* suffixes. -/
noncomputable def nStar (t : List Nat) : Nat := cnt t.length (star t)

/-- The rank of a B* suffix among them. -/
noncomputable def srk (t : List Nat) (x : Nat) : Nat := cnt t.length (fun y => star t y ∧ Lex (t.drop y) (t.drop x))

/-- The first two characters are at most `c0` and `c1`. -/
def PairLe (t : List Nat) (c0 c1 z : Nat) : Prop := ch t z < c0 ∨ (ch t z = c0 ∧ ch t (z + 1) ≤ c1)

/-- The end of the B* suffixes with `c0` and `c1`. -/
noncomputable def sEnd (t : List Nat) (c0 c1 : Nat) : Nat := cnt t.length (fun z => star t z ∧ PairLe t c0 c1 z)

/-- The number of a B* suffix, from left to right. -/
noncomputable def sNo (t : List Nat) (x : Nat) : Nat := cnt x (star t)

theorem top_lex {c0 c1 y z : Nat} (hy : isS t y = true) (hp : Pair t c0 c1 y) (hz : z < t.length) (h : Lex (t.drop z) (t.drop y)) : Upto t c0 c1 z := by
  have hl := isS_lt hy
  unfold Upto
  rw [← hp.1, ← hp.2]
  rcases Nat.lt_trichotomy (ch t z) (ch t y) with k | k | k
  · exact .inl k
  · refine .inr ⟨k, ?_⟩
    rcases L_or_S hz with hL | hS
    · exact .inl hL
    · right
      by_cases hle : ch t (z + 1) ≤ ch t (y + 1)
      · exact hle
      · exact absurd h (lex_next (by omega) hz k.symm hl (isS_lt hS) (by omega)).asymm
  · exact absurd h (drop_char (by omega) hz k).asymm

/-- Where a type B suffix that is not B* is. -/
theorem rk_nb {c0 c1 y : Nat} (hy : nb t y) (hp : Pair t c0 c1 y) :
    rk t y + 1 + cnt t.length (fun z => (nb t z ∧ Pair t c0 c1 z) ∧ Lex (t.drop y) (t.drop z)) = top t c0 c1 := by
  have hl := nb_lt hy
  unfold top rk
  rw [← cnt_insert (a := y) (by omega) (Lex.irrefl _)]
  refine (cnt_split (fun z hz => ?_) ?_).symm
  · constructor
    · intro hu
      rcases Lex.tri (t.drop z) (t.drop y) with h | h | h
      · exact .inl (.inl h)
      · exact .inl (.inr (drop_inj hz (by omega) h))
      · right
        rcases hu with hu | ⟨hu1, hu2⟩
        · exact absurd h (drop_char hz (by omega) (by rw [hp.1]; exact hu)).asymm
        · rcases hu2 with hu2 | hu2
          · exact absurd h (L_before_S hu2.2 hz hy.1 (by rw [hu1, hp.1])).asymm
          · have hzS : isS t z = true := by
              rcases L_or_S hz with hL | hS
              · exact absurd h (L_before_S hL.2 hz hy.1 (by rw [hu1, hp.1])).asymm
              · exact hS
            have he : ch t (z + 1) = c1 := by
              by_cases he : ch t (z + 1) = c1
              · exact he
              · exact absurd h (lex_next hz (by omega) (by rw [hu1, hp.1]) (isS_lt hzS) hl (by rw [hp.2]; omega)).asymm
            refine ⟨⟨?_, hu1, he⟩, h⟩
            rcases S_cases hzS with hs | hs
            · exact absurd h (star_before_nb hs hy (by rw [hu1, hp.1]) (by rw [he, hp.2])).asymm
            · exact hs
    · rintro ((h | h) | h)
      · exact top_lex hy.1 hp hz h
      · subst h; exact .inr ⟨hp.1, .inr (Nat.le_of_eq hp.2)⟩
      · exact .inr ⟨h.1.2.1, .inr (Nat.le_of_eq h.1.2.2)⟩
  · rintro z hz (h | h) h'
    · exact h.asymm h'.2
    · subst h; exact Lex.irrefl _ h'.2

/-- Where a B* suffix is. -/
theorem rk_star {c0 c1 y : Nat} (hy : star t y) (hp : Pair t c0 c1 y) : rk t y + cB t c0 c1 + sEnd t c0 c1 = top t c0 c1 + srk t y := by
  have hl := star_lt hy
  -- the B* suffixes from `y` on with the same characters
  have e1 : sEnd t c0 c1 = srk t y + cnt t.length (fun z => (star t z ∧ Pair t c0 c1 z) ∧ ¬ Lex (t.drop z) (t.drop y)) := by
    refine cnt_split (fun z hz => ?_) (fun z hz h h' => h'.2 h.2)
    constructor
    · rintro ⟨h1, h2⟩
      by_cases hlt : Lex (t.drop z) (t.drop y)
      · exact .inl ⟨h1, hlt⟩
      · refine .inr ⟨⟨h1, ?_⟩, hlt⟩
        rcases h2 with h2 | ⟨h2, h3⟩
        · exact absurd (drop_char hz (by omega) (by rw [hp.1]; exact h2)) hlt
        · by_cases he : ch t (z + 1) = c1
          · exact ⟨h2, he⟩
          · exact absurd (lex_next hz (by omega) (by rw [h2, hp.1]) (star_lt h1) hl (by rw [hp.2]; omega)) hlt
    · rintro (⟨h1, h2⟩ | ⟨⟨h1, h2⟩, _⟩)
      · refine ⟨h1, ?_⟩
        rcases top_lex hy.1 hp hz h2 with h | ⟨h, h'⟩
        · exact .inl h
        · rcases h' with h' | h'
          · exact absurd h' (not_star_L h1)
          · exact .inr ⟨h, h'⟩
      · exact ⟨h1, .inr ⟨h2.1, Nat.le_of_eq h2.2⟩⟩
  have e2 : top t c0 c1 = rk t y + (cnt t.length (fun z => (star t z ∧ Pair t c0 c1 z) ∧ ¬ Lex (t.drop z) (t.drop y)) + cB t c0 c1) := by
    unfold cB
    rw [← cnt_or (fun z _ h1 h2 => not_star_nb h1.1.1 h2.1)]
    refine cnt_split (fun z hz => ?_) ?_
    · constructor
      · intro hu
        by_cases hlt : Lex (t.drop z) (t.drop y)
        · exact .inl hlt
        · right
          have hu' : ch t z = c0 := by
            rcases hu with hu | hu
            · exact absurd (drop_char hz (by omega) (by rw [hp.1]; exact hu)) hlt
            · exact hu.1
          have hzS : isS t z = true := by
            rcases L_or_S hz with hL | hS
            · exact absurd (L_before_S hL.2 hz hy.1 (by rw [hu', hp.1])) hlt
            · exact hS
          have he : ch t (z + 1) = c1 := by
            rcases hu with hu | ⟨_, hu | hu⟩
            · omega
            · exact absurd hu.2 (by rw [hzS]; simp)
            · by_cases he : ch t (z + 1) = c1
              · exact he
              · exact absurd (lex_next hz (by omega) (by rw [hu', hp.1]) (isS_lt hzS) hl (by rw [hp.2]; omega)) hlt
          rcases S_cases hzS with hs | hs
          · exact .inl ⟨⟨hs, hu', he⟩, hlt⟩
          · exact .inr ⟨hs, hu', he⟩
      · rintro (h | h | h)
        · exact top_lex hy.1 hp hz h
        · exact .inr ⟨h.1.2.1, .inr (Nat.le_of_eq h.1.2.2)⟩
        · exact .inr ⟨h.2.1, .inr (Nat.le_of_eq h.2.2)⟩
    · rintro z hz h (h' | h')
      · exact h'.2 h
      · exact (star_before_nb hy h'.1 (by rw [hp.1, h'.2.1]) (by rw [hp.2, h'.2.2])).asymm h
  omega

/-- Where a type A suffix is. -/
theorem rk_L {c y : Nat} (hy : isL t y) (hc : ch t y = c) :
    rk t y = start t c + cnt t.length (fun z => (isL t z ∧ ch t z = c) ∧ Lex (t.drop z) (t.drop y)) := by
  refine cnt_split (fun z hz => ?_) (fun z hz h h' => by have := h'.1.2; omega)
  constructor
  · intro h
    rcases Nat.lt_trichotomy (ch t z) c with k | k | k
    · exact .inl k
    · refine .inr ⟨⟨?_, k⟩, h⟩
      rcases L_or_S hz with hL | hS
      · exact hL
      · exact absurd h (L_before_S hy.2 hy.1 hS (by omega)).asymm
    · exact absurd h (drop_char hy.1 hz (by omega)).asymm
  · rintro (h | h)
    · exact drop_char hz hy.1 (by omega)
    · exact h.2

theorem rk_S_range {x : Nat} (h : isS t x = true) : bBeg t (ch t x) ≤ rk t x ∧ rk t x < start t (ch t x + 1) := by
  have hl := isS_lt h
  constructor
  · refine cnt_mono fun z hz hh => ?_
    rcases hh with hh | hh
    · exact drop_char hz (by omega) hh
    · exact L_before_S hh.2.2 hz h hh.1
  · refine cnt_lt (fun z hz hh => ?_) (show x < t.length by omega) (by omega) (Lex.irrefl _)
    rcases Nat.lt_trichotomy (ch t z) (ch t x) with k | k | k
    · omega
    · omega
    · exact absurd hh (drop_char (by omega) hz k).asymm

theorem rk_range {x : Nat} (h : x < t.length) : start t (ch t x) ≤ rk t x ∧ rk t x < start t (ch t x + 1) := by
  constructor
  · exact cnt_mono fun z hz hh => drop_char hz h hh
  · refine cnt_lt (fun z hz hh => ?_) h (by omega) (Lex.irrefl _)
    rcases Nat.lt_trichotomy (ch t z) (ch t x) with k | k | k
    · omega
    · omega
    · exact absurd hh (drop_char h hz k).asymm

theorem rk_L_range {x : Nat} (h : isL t x) : rk t x < bBeg t (ch t x) := by
  refine cnt_lt (fun z hz hh => ?_) h.1 (.inr ⟨rfl, h⟩) (Lex.irrefl _)
  rcases Nat.lt_trichotomy (ch t z) (ch t x) with k | k | k
  · exact .inl k
  · refine .inr ⟨k, ?_⟩
    rcases L_or_S hz with hL | hS
    · exact hL
    · exact absurd hh (L_before_S h.2 h.1 hS k.symm).asymm
  · exact absurd hh (drop_char h.1 hz k).asymm

theorem top_le (c0 c1 : Nat) : top t c0 c1 ≤ t.length := cnt_le _ _

end Dss
end Detools
