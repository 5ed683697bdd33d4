import Verif.Proofs.DssCount
/-
divsufsort: the B* suffixes, by their first two characters, by rank, and in their places.
-/
namespace Detools
namespace Dss
open Sais

variable {t : List Nat}

/-! ### Numbers and ranks of B* suffixes -/

theorem image_surj {n : Nat} {p : Nat → Prop} {f : Nat → Nat} (h1 : ∀ x, x < n → p x → f x < cnt n p)
    (h2 : ∀ x y, x < n → y < n → p x → p y → f x = f y → x = y) {q : Nat} (hq : q < cnt n p) : ∃ x, x < n ∧ p x ∧ f x = q := by
  have h := cnt_image h1 h2
  by_cases hex : ∃ x, x < n ∧ p x ∧ f x = q
  · exact hex
  · exfalso
    have := cnt_lt (n := cnt n p) (p := fun q => ∃ x, x < n ∧ p x ∧ f x = q) (q := fun _ => True) (fun _ _ _ => trivial) hq trivial hex
    rw [cnt_true (p := fun _ => True) (fun _ _ => trivial)] at this
    omega

theorem cnt_le_cnt {p : Nat → Prop} {a b : Nat} (h : a ≤ b) : cnt a p ≤ cnt b p := by
  rw [← cnt_below (p := p) h]
  exact cnt_mono fun _ _ hx => hx.1

theorem sNo_succ {x : Nat} (h : star t x) : sNo t (x + 1) = sNo t x + 1 := by
  unfold sNo
  conv => lhs; unfold cnt
  rw [if_pos h]

theorem sNo_mono {x y : Nat} (h : star t x) (hxy : x < y) : sNo t x < sNo t y := by
  have h1 := sNo_succ h
  have h2 : sNo t (x + 1) ≤ sNo t y := cnt_le_cnt hxy
  omega

theorem sNo_lt {x : Nat} (h : star t x) : sNo t x < nStar t := sNo_mono h (by have := star_lt h; omega)

theorem sNo_inj {x y : Nat} (hx : star t x) (hy : star t y) (h : sNo t x = sNo t y) : x = y := by
  rcases Nat.lt_trichotomy x y with k | k | k
  · have := sNo_mono hx k; omega
  · exact k
  · have := sNo_mono hy k; omega

theorem sNo_surj {r : Nat} (h : r < nStar t) : ∃ x, star t x ∧ sNo t x = r := by
  obtain ⟨x, _, h2, h3⟩ := image_surj (n := t.length) (p := star t) (f := sNo t) (fun x _ hx => sNo_lt hx) (fun x y _ _ hx hy => sNo_inj hx hy) h
  exact ⟨x, h2, h3⟩

theorem sNo_const {a b : Nat} (hab : a ≤ b) (h : ∀ z, a ≤ z → z < b → ¬ star t z) : sNo t a = sNo t b := by
  induction b with
  | zero =>
    have : a = 0 := by omega
    rw [this]
  | succ b ih =>
    by_cases he : a = b + 1
    · rw [he]
    · rw [ih (by omega) (fun z k1 k2 => h z k1 (by omega))]
      unfold sNo
      conv => rhs; unfold cnt
      rw [if_neg (h b (by omega) (by omega)), Nat.add_zero]

theorem srk_mono {x y : Nat} (hx : star t x) (h : Lex (t.drop x) (t.drop y)) : srk t x < srk t y :=
  cnt_lt (fun _ _ hz => ⟨hz.1, hz.2.trans h⟩) (show x < t.length by have := star_lt hx; omega) ⟨hx, h⟩ (fun h => Lex.irrefl _ h.2)

theorem srk_lt {x : Nat} (hx : star t x) : srk t x < nStar t :=
  cnt_lt (fun _ _ hz => hz.1) (show x < t.length by have := star_lt hx; omega) hx (fun h => Lex.irrefl _ h.2)

theorem srk_inj {x y : Nat} (hx : star t x) (hy : star t y) (h : srk t x = srk t y) : x = y := by
  have h1 := star_lt hx
  have h2 := star_lt hy
  rcases Lex.tri (t.drop x) (t.drop y) with k | k | k
  · have := srk_mono hx k; omega
  · exact drop_inj (by omega) (by omega) k
  · have := srk_mono hy k; omega

theorem srk_surj {r : Nat} (h : r < nStar t) : ∃ x, star t x ∧ srk t x = r := by
  obtain ⟨x, _, h2, h3⟩ := image_surj (n := t.length) (p := star t) (f := srk t) (fun x _ hx => srk_lt hx) (fun x y _ _ hx hy => srk_inj hx hy) h
  exact ⟨x, h2, h3⟩

theorem srk_le_rk (x : Nat) : srk t x ≤ rk t x := cnt_mono fun _ _ h => h.2

theorem sEnd_le (c0 c1 : Nat) : sEnd t c0 c1 ≤ nStar t := cnt_mono fun _ _ h => h.1

theorem pair_disj {a0 a1 b0 b1 : Nat} (h : ¬ (a0 = b0 ∧ a1 = b1)) : sEnd t a0 a1 ≤ jAt t b0 b1 ∨ sEnd t b0 b1 ≤ jAt t a0 a1 := by
  by_cases hlt : a0 < b0 ∨ (a0 = b0 ∧ a1 < b1)
  · left
    refine cnt_mono fun z _ hz => ⟨hz.1, ?_⟩
    rcases hz.2 with k | k <;> omega
  · right
    refine cnt_mono fun z _ hz => ⟨hz.1, ?_⟩
    rcases hz.2 with k | k <;> omega

theorem srk_range {x c0 c1 : Nat} (hx : star t x) (hp : Pair t c0 c1 x) : jAt t c0 c1 ≤ srk t x ∧ srk t x < sEnd t c0 c1 := by
  have hl := star_lt hx
  have h0 := hp.1
  have h1 := hp.2
  constructor
  · refine cnt_mono fun z hz hh => ⟨hh.1, ?_⟩
    rcases hh.2 with k | k
    · exact drop_char hz (by omega) (by omega)
    · exact lex_next hz (by omega) (by omega) (star_lt hh.1) hl (by omega)
  · refine cnt_lt (fun z hz hh => ⟨hh.1, ?_⟩) (show x < t.length by omega) ⟨hx, .inr ⟨h0, by omega⟩⟩ (fun h => Lex.irrefl _ h.2)
    rcases top_lex hx.1 hp hz hh.2 with k | ⟨k1, k2 | k2⟩
    · exact .inl k
    · exact absurd k2 (not_star_L hh.1)
    · exact .inr ⟨k1, k2⟩

theorem srk_pair {x c0 c1 : Nat} (hx : star t x) (h1 : jAt t c0 c1 ≤ srk t x) (h2 : srk t x < sEnd t c0 c1) : Pair t c0 c1 x := by
  have h := srk_range hx ⟨rfl, rfl⟩
  by_cases he : ch t x = c0 ∧ ch t (x + 1) = c1
  · exact he
  · rcases pair_disj (t := t) he with k | k <;> omega

/-! ### By the first two characters -/

/-- The B* suffixes with `P` are in the buckets of their first two characters. -/
structure PInv (t : List Nat) (P : Nat → Prop) (s : SaBB) : Prop where
  len : s.sa.length = t.length
  pa : ∀ x, star t x → s.sa[t.length - nStar t + sNo t x]? = some (x : Int)
  b : Bk s.b (fun c0 c1 => (cB t c0 c1 : Nat)) (fun c0 c1 => (sEnd t c0 c1 : Nat) - (cnt t.length (fun x => (star t x ∧ Pair t c0 c1 x) ∧ P x) : Nat))
  at' : ∀ x, star t x → P x → ∃ q, s.sa[q]? = some (sNo t x : Int) ∧ q < sEnd t (ch t x) (ch t (x + 1)) ∧
    sEnd t (ch t x) (ch t (x + 1)) ≤ q + cnt t.length (fun z => (star t z ∧ Pair t (ch t x) (ch t (x + 1)) z) ∧ P z)

theorem PInv.step (hn : Small t) (hk : ∀ x, x < t.length → ch t x < 256) {P P' : Nat → Prop} {s : SaBB} (h : PInv t P s) {x : Nat} (hx : star t x)
    (hP : ¬ P x) (hP' : ∀ y, star t y → (P' y ↔ P y ∨ y = x)) :
    ∃ s', placeStar t (t.length - nStar t) (sNo t x) s = .ok s' ∧ PInv t P' s' ∧
      ∀ q, q + 1 + cnt t.length (fun z => (star t z ∧ Pair t (ch t x) (ch t (x + 1)) z) ∧ P z) = sEnd t (ch t x) (ch t (x + 1)) →
        s'.sa[q]? = some (sNo t x : Int) := by
  have hl := star_lt hx
  have hm := nStar_le (t := t)
  have hno := sNo_lt hx
  have hse := sEnd_le (t := t) (ch t x) (ch t (x + 1))
  have hcl : cnt t.length (fun z => (star t z ∧ Pair t (ch t x) (ch t (x + 1)) z) ∧ P z) < cS t (ch t x) (ch t (x + 1)) :=
    cnt_lt (fun z _ hz => hz.1) (show x < t.length by omega) ⟨hx, rfl, rfl⟩ (fun h => hP h.2)
  have hsj := sEnd_eq (t := t) (ch t x) (ch t (x + 1))
  obtain ⟨q0, hq0⟩ : ∃ q0, q0 + 1 + cnt t.length (fun z => (star t z ∧ Pair t (ch t x) (ch t (x + 1)) z) ∧ P z) = sEnd t (ch t x) (ch t (x + 1)) :=
    ⟨sEnd t (ch t x) (ch t (x + 1)) - 1 - cnt t.length (fun z => (star t z ∧ Pair t (ch t x) (ch t (x + 1)) z) ∧ P z), by omega⟩
  obtain ⟨b', h1, h2⟩ := h.b.wrS (star_ch hx) (hk _ hl) (((sEnd t (ch t x) (ch t (x + 1)) : Nat) : Int) - (cnt t.length (fun z => (star t z ∧ Pair t (ch t x) (ch t (x + 1)) z) ∧ P z) : Nat) - 1)
  have hst : st s.sa q0 (sNo t x : Int) = .ok (s.sa.set q0 (sNo t x : Int)) := st_ok (range_of hn (by omega) (by omega)) (by rw [h.len]; omega)
  have hc' : ∀ c0 c1, ¬ (c0 = ch t x ∧ c1 = ch t (x + 1)) → cnt t.length (fun z => (star t z ∧ Pair t c0 c1 z) ∧ P' z) = cnt t.length (fun z => (star t z ∧ Pair t c0 c1 z) ∧ P z) := by
    intro c0 c1 hne
    refine cnt_congr fun z _ => ⟨fun hz => ⟨hz.1, ?_⟩, fun hz => ⟨hz.1, (hP' z hz.1.1).2 (.inl hz.2)⟩⟩
    rcases (hP' z hz.1.1).1 hz.2 with k | k
    · exact k
    · subst k
      exact absurd ⟨hz.1.2.1.symm, hz.1.2.2.symm⟩ hne
  have hc1 : cnt t.length (fun z => (star t z ∧ Pair t (ch t x) (ch t (x + 1)) z) ∧ P' z) = cnt t.length (fun z => (star t z ∧ Pair t (ch t x) (ch t (x + 1)) z) ∧ P z) + 1 := by
    refine cnt_add_one (show x < t.length by omega) (fun z _ => ?_) (fun h => hP h.2)
    constructor
    · rintro ⟨k1, k2⟩
      rcases (hP' z k1.1).1 k2 with k | k
      · exact .inl ⟨k1, k⟩
      · exact .inr k
    · rintro (k | k)
      · exact ⟨k.1, (hP' z k.1.1).2 (.inl k.2)⟩
      · subst k
        exact ⟨⟨hx, rfl, rfl⟩, (hP' z hx).2 (.inr rfl)⟩
  refine ⟨⟨s.sa.set q0 (sNo t x : Int), b'⟩, ?_, ⟨?_, fun y hy => ?_, h2.congr (fun _ _ _ _ => rfl) (fun c0 c1 _ _ => ?_), fun y hy hPy => ?_⟩, fun q hq => ?_⟩
  · unfold placeStar
    rw [rd_ok (h.pa x hx)]
    simp only [Bind.bind, Except.bind]
    rw [idx_nat]
    simp only []
    rw [rd_ch (by omega)]
    simp only []
    rw [rd_ch hl]
    simp only []
    rw [h.b.rdS (star_ch hx) (hk _ hl)]
    simp only []
    rw [h1]
    simp only []
    rw [idx_ok (j := q0) (by omega)]
    simp only []
    rw [hst]
  · rw [List.length_set]; exact h.len
  · have := sNo_lt hy
    show (s.sa.set q0 _)[_]? = _
    rw [get_set_ne (by omega)]
    exact h.pa y hy
  · unfold upd2
    by_cases he : c0 = ch t x ∧ c1 = ch t (x + 1)
    · obtain ⟨rfl, rfl⟩ := he
      rw [if_pos ⟨rfl, rfl⟩, hc1]
      omega
    · rw [if_neg he, hc' c0 c1 he]
  · by_cases hyx : y = x
    · subst hyx
      exact ⟨q0, get_set_eq (by rw [h.len]; omega), by omega, by omega⟩
    · have hPy' : P y := ((hP' y hy).1 hPy).resolve_right hyx
      obtain ⟨q, k1, k2, k3⟩ := h.at' y hy hPy'
      have hne : q0 ≠ q := by
        by_cases he : ch t y = ch t x ∧ ch t (y + 1) = ch t (x + 1)
        · rw [he.1, he.2] at k2 k3
          omega
        · have hcy : cnt t.length (fun z => (star t z ∧ Pair t (ch t y) (ch t (y + 1)) z) ∧ P z) ≤ cS t (ch t y) (ch t (y + 1)) :=
            cnt_mono fun _ _ hz => hz.1
          have hsy := sEnd_eq (t := t) (ch t y) (ch t (y + 1))
          rcases pair_disj (t := t) he with k | k <;> omega
      refine ⟨q, by rw [get_set_ne hne]; exact k1, k2, ?_⟩
      by_cases he : ch t y = ch t x ∧ ch t (y + 1) = ch t (x + 1)
      · rw [he.1, he.2] at k3 ⊢
        omega
      · rw [hc' _ _ he]
        exact k3
  · have : q = q0 := by omega
    rw [this]
    exact get_set_eq (by rw [h.len]; omega)

/-- The B* suffixes are sorted by their first two characters, and the last one is the first of
those with its first two characters. -/
structure Placed (t : List Nat) (s : SaBB) : Prop where
  len : s.sa.length = t.length
  pa : ∀ x, star t x → s.sa[t.length - nStar t + sNo t x]? = some (x : Int)
  b : Bk s.b (fun c0 c1 => (cB t c0 c1 : Nat)) (fun c0 c1 => (jAt t c0 c1 : Nat))
  at' : ∀ x, star t x → ∃ q, s.sa[q]? = some (sNo t x : Int) ∧ jAt t (ch t x) (ch t (x + 1)) ≤ q ∧ q < sEnd t (ch t x) (ch t (x + 1))
  last : ∀ x, star t x → sNo t x + 1 = nStar t → s.sa[jAt t (ch t x) (ch t (x + 1))]? = some (sNo t x : Int)

theorem placeStars_ok (hn : Small t) (hk : ∀ x, x < t.length → ch t x < 256) (hm : 0 < nStar t) {s : Scan} (h : Counted t s) {b : List Int}
    (hb : Bk b (fun c0 c1 => (cB t c0 c1 : Nat)) (fun c0 c1 => (sEnd t c0 c1 : Nat))) :
    ∃ s', placeStars t (nStar t) ⟨s.sa, b⟩ = .ok s' ∧ Placed t s' := by
  have hini : PInv t (fun x => nStar t - 1 ≤ sNo t x ∧ sNo t x < nStar t - 1) ⟨s.sa, b⟩ := by
    refine ⟨h.len, h.pos, hb.congr (fun _ _ _ _ => rfl) (fun c0 c1 _ _ => ?_), fun x _ hx => by omega⟩
    rw [cnt_false (fun z _ hz => by omega)]
    simp
  obtain ⟨s1, h1, h2⟩ := downLoop_inv (step := placeStar t (t.length - nStar t)) (n := nStar t - 1)
    (fun i s => PInv t (fun x => i ≤ sNo t x ∧ sNo t x < nStar t - 1) s) (fun i s hi hs => by
      obtain ⟨x, hx, rfl⟩ := sNo_surj (t := t) (r := i) (by omega)
      obtain ⟨s', k1, k2, _⟩ := hs.step hn hk hx (by omega) (P' := fun y => sNo t x ≤ sNo t y ∧ sNo t y < nStar t - 1) (fun y hy => by
        constructor
        · intro hh
          by_cases he : y = x
          · exact .inr he
          · left
            have : sNo t y ≠ sNo t x := fun e => he (sNo_inj hy hx e)
            omega
        · rintro (hh | rfl) <;> omega)
      exact ⟨s', k1, k2⟩) (nStar t - 1) _ (Nat.le_refl _) hini
  obtain ⟨x, hx, hxr⟩ := sNo_surj (t := t) (r := nStar t - 1) (by omega)
  obtain ⟨s', h3, h4, h5⟩ := h2.step hn hk hx (by omega) (P' := fun _ => True) (fun y hy => ⟨fun _ => by
    by_cases he : y = x
    · exact .inr he
    · have : sNo t y ≠ sNo t x := fun e => he (sNo_inj hy hx e)
      have := sNo_lt hy
      exact .inl (by omega), fun _ => trivial⟩)
  have hall : ∀ c0 c1, cnt t.length (fun z => (star t z ∧ Pair t c0 c1 z) ∧ True) = cS t c0 c1 := fun c0 c1 =>
    cnt_congr fun z _ => ⟨And.left, fun h => ⟨h, trivial⟩⟩
  refine ⟨s', ?_, h4.len, h4.pa, h4.b.congr (fun _ _ _ _ => rfl) (fun c0 c1 _ _ => ?_), fun y hy => ?_, fun y hy hyl => ?_⟩
  · unfold placeStars
    rw [h1]
    simp only [Bind.bind, Except.bind]
    rw [← hxr]
    exact h3
  · have := sEnd_eq (t := t) c0 c1
    rw [hall]
    omega
  · obtain ⟨q, k1, k2, k3⟩ := h4.at' y hy trivial
    rw [hall] at k3
    have := sEnd_eq (t := t) (ch t y) (ch t (y + 1))
    exact ⟨q, k1, by omega, k2⟩
  · have : y = x := sNo_inj hy hx (by omega)
    subst this
    refine h5 _ ?_
    have e := sEnd_eq (t := t) (ch t y) (ch t (y + 1))
    have : cnt t.length (fun z => (star t z ∧ Pair t (ch t y) (ch t (y + 1)) z) ∧ (0 ≤ sNo t z ∧ sNo t z < nStar t - 1)) + 1 = cS t (ch t y) (ch t (y + 1)) := by
      refine (cnt_add_one (show y < t.length by have := star_lt hy; omega) (fun z _ => ?_) (fun h => by omega)).symm
      constructor
      · rintro hz
        by_cases he : z = y
        · exact .inr he
        · have : sNo t z ≠ sNo t y := fun e => he (sNo_inj hz.1 hy e)
          have := sNo_lt hz.1
          exact .inl ⟨hz, by omega⟩
      · rintro (hz | rfl)
        · exact hz.1
        · exact ⟨hy, rfl, rfl⟩
    omega

/-! ### By rank -/

/-- What the sorting of the B* suffixes has to leave: their ranks. -/
structure Ranked (t : List Nat) (sa : List Int) : Prop where
  len : sa.length = t.length
  rank : ∀ x, star t x → sa[nStar t + sNo t x]? = some (srk t x : Int)

/-- The element for a type B suffix before it is scanned. -/
def entB (t : List Nat) (x : Nat) : Int := if x = 0 ∨ isS t (x - 1) = true then (x : Int) else inv x

theorem entB_range (hn : Small t) {x : Nat} (hx : x < t.length) : -2 ^ 31 ≤ entB t x ∧ entB t x < 2 ^ 31 := by
  refine range_of hn ?_ ?_ <;> (unfold entB inv; split) <;> omega

/-- The B* suffixes from position `d` on are in their places. -/
structure SInv (t : List Nat) (d : Nat) (sa : List Int) : Prop extends Ranked t sa where
  done : ∀ x, star t x → d ≤ x → sa[srk t x]? = some (entB t x)

theorem SInv.step (hn : Small t) {d p : Nat} {sa : List Int} (h : SInv t (p + 1) sa) (hp : star t p) {i : Int}
    (hi : (p = 0 ∨ 1 < (p : Int) - i) ↔ (p = 0 ∨ isS t (p - 1) = true)) (hd : ∀ z, d ≤ z → z < p → ¬ star t z) :
    ∃ sa', setStar (nStar t) (sNo t p) p i sa = .ok sa' ∧ SInv t d sa' := by
  have hl := star_lt hp
  have hm := nStar_le (t := t)
  have hr := srk_lt hp
  have hv : (if p = 0 ∨ 1 < (p : Int) - i then (p : Int) else inv p) = entB t p := by
    unfold entB
    by_cases hc : p = 0 ∨ isS t (p - 1) = true
    · rw [if_pos hc, if_pos (hi.2 hc)]
    · rw [if_neg hc, if_neg (fun h => hc (hi.1 h))]
  refine ⟨sa.set (srk t p) (entB t p), ?_, ⟨by rw [List.length_set]; exact h.len, fun x hx => ?_⟩, fun x hx hdx => ?_⟩
  · unfold setStar
    rw [rd_ok (h.rank p hp)]
    simp only [Bind.bind, Except.bind]
    rw [idx_nat]
    simp only []
    rw [hv]
    exact st_ok (entB_range hn (by omega)) (by rw [h.len]; omega)
  · rw [get_set_ne (by omega)]
    exact h.rank x hx
  · by_cases he : x = p
    · subst he
      exact get_set_eq (by rw [h.len]; omega)
    · have : p < x := by
        by_cases hlt : x < p
        · exact absurd hx (hd x hdx hlt)
        · omega
      rw [get_set_ne (fun e => he (srk_inj hx hp e.symm))]
      exact h.done x hx (by omega)

/-- The B* position that follows the type B positions from `i` on, if any. -/
def StarAt (t : List Nat) (i : Nat) : Option Nat → Prop
  | none => isS t i = false
  | some p => star t p ∧ i ≤ p ∧ ∀ z, i ≤ z → z ≤ p → isS t z = true

theorem setLoop_ok (hn : Small t) : ∀ (i : Nat) (star? : Option Nat) (sa : List Int), i < t.length → StarAt t i star? →
    SInv t (match star? with | none => i | some p => p + 1) sa →
    ∃ sa', setLoop t (nStar t) i star? (sNo t (match star? with | none => i | some p => p + 1)) sa = .ok sa' ∧ SInv t 0 sa'
  | 0, none, sa, _, _, h => ⟨sa, rfl, h⟩
  | 0, some p, sa, _, hs, h => by
    obtain ⟨hp, _, hall⟩ := hs
    simp only [] at h ⊢
    unfold setLoop
    rw [sNo_succ hp, dec_succ]
    simp only [Bind.bind, Except.bind]
    refine h.step hn hp ⟨fun _ => ?_, fun hh => ?_⟩ (fun z _ hz hzs => ?_)
    · by_cases h0 : p = 0
      · exact .inl h0
      · exact .inr (hall _ (by omega) (by omega))
    · omega
    · have := hall (z + 1) (by omega) (by omega)
      have k := hzs.2
      rw [this] at k
      cases k
  | i + 1, none, sa, hi, hs, h => by
    have hs' : isS t (i + 1) = false := hs
    have hiff := isS_iff hi
    rw [hs'] at hiff
    simp only [] at h ⊢
    unfold setLoop
    rw [rd_ch hi, rd_ch (by omega)]
    simp only [Bind.bind, Except.bind]
    by_cases hc : ch t i ≥ ch t (i + 1)
    · have hL : isS t i = false := by rw [← Bool.not_eq_true, hiff]; simp; omega
      have hns : ¬ star t i := fun hh => by have k := hh.1; rw [hL] at k; cases k
      have hns1 : ¬ star t (i + 1) := fun hh => by have k := hh.1; rw [hs'] at k; cases k
      rw [if_pos hc]
      have := setLoop_ok hn i none sa (by omega) hL ⟨h.toRanked, fun x hx hix => h.done x hx (by
        have hix' : i ≤ x := hix
        by_cases he : x = i
        · subst he; exact absurd hx hns
        · omega)⟩
      rw [← sNo_const (a := i) (b := i + 1) (by omega) (fun z k1 k2 => (show z = i by omega) ▸ hns)]
      exact this
    · have hS : star t i := ⟨hiff.2 (.inl (by omega)), hs'⟩
      rw [if_neg hc]
      exact setLoop_ok hn i (some i) sa (by omega) ⟨hS, Nat.le_refl _, fun z k1 k2 => by
        have : z = i := by omega
        rw [this]; exact hS.1⟩ h
  | i + 1, some p, sa, hi, hs, h => by
    obtain ⟨hp, hip, hall⟩ := hs
    have hs' : isS t (i + 1) = true := hall (i + 1) (by omega) hip
    have hiff := isS_iff hi
    rw [hs'] at hiff
    simp only [] at h ⊢
    unfold setLoop
    rw [rd_ch hi, rd_ch (by omega)]
    simp only [Bind.bind, Except.bind]
    by_cases hc : ch t i ≤ ch t (i + 1)
    · have hS : isS t i = true := hiff.2 (by simp; omega)
      rw [if_pos hc]
      exact setLoop_ok hn i (some p) sa (by omega) ⟨hp, by omega, fun z k1 k2 => by
        by_cases he : z = i
        · rw [he]; exact hS
        · exact hall z (by omega) k2⟩ h
    · have hL : isS t i = false := by rw [← Bool.not_eq_true, hiff]; simp; omega
      rw [if_neg hc, sNo_succ hp, dec_succ]
      simp only []
      have hno : ∀ z, i ≤ z → z < p → ¬ star t z := by
        intro z k1 k2 hz
        have := hall (z + 1) (by omega) (by omega)
        have k := hz.2
        rw [this] at k
        cases k
      obtain ⟨sa1, h1, h2⟩ := h.step hn hp (i := i) (d := i) (by
        constructor
        · rintro (h0 | h0)
          · exact .inl h0
          · exact .inr (hall _ (by omega) (by omega))
        · rintro (h0 | h0)
          · exact .inl h0
          · right
            by_cases he : p - 1 = i
            · rw [he, hL] at h0; cases h0
            · omega) hno
      rw [h1]
      simp only []
      rw [← sNo_const (a := i) (b := p) (by omega) hno]
      exact setLoop_ok hn i none sa1 (by omega) hL h2

theorem set_ok (hn : Small t) (h0 : 0 < t.length) {sa : List Int} (h : Ranked t sa) :
    ∃ sa', setLoop t (nStar t) (t.length - 1) none (nStar t) sa = .ok sa' ∧ sa'.length = t.length ∧
      ∀ x, star t x → sa'[srk t x]? = some (entB t x) := by
  have hL : isS t (t.length - 1) = false := isS_last (by omega)
  obtain ⟨sa', h1, h2⟩ := setLoop_ok hn (t.length - 1) none sa (by omega) hL ⟨h, fun x hx hl => by have hl' : t.length - 1 ≤ x := hl; have := star_lt hx; omega⟩
  have e : sNo t (t.length - 1) = nStar t := by
    unfold nStar
    exact sNo_const (b := t.length) (by omega) (fun z k1 k2 hz => by have := star_lt hz; omega)
  simp only [] at h1
  rw [e] at h1
  exact ⟨sa', h1, h2.len, fun x hx => h2.done x hx (Nat.zero_le _)⟩

/-! ### In their places -/

/-- The B* suffixes with rank at least `k` among them are in their places, the others are not
moved yet. -/
structure MInv (t : List Nat) (k : Nat) (sa : List Int) : Prop where
  len : sa.length = t.length
  moved : ∀ x, star t x → k ≤ srk t x → sa[rk t x]? = some (entB t x)
  here : ∀ x, star t x → srk t x < k → sa[srk t x]? = some (entB t x)

theorem moveStars_ok (hn : Small t) {c0 c1 : Nat} : ∀ (todo : Nat) (i : Int) (k : Nat) (sa : List Int), jAt t c0 c1 + todo = k → k ≤ sEnd t c0 c1 →
    i + 1 + (cB t c0 c1 : Nat) + (sEnd t c0 c1 : Nat) = (top t c0 c1 : Nat) + (k : Int) → MInv t k sa →
    ∃ sa', moveStars todo i ((k : Int) - 1) sa = .ok (i - todo, (jAt t c0 c1 : Int) - 1, sa') ∧ MInv t (jAt t c0 c1) sa'
  | 0, i, k, sa, hj, _, _, h => by
    have : k = jAt t c0 c1 := by omega
    subst this
    refine ⟨sa, ?_, h⟩
    unfold moveStars
    simp
  | todo + 1, i, k, sa, hj, hke, hi, h => by
    have hse := sEnd_le (t := t) c0 c1
    obtain ⟨x, hx, hxk⟩ := srk_surj (t := t) (r := k - 1) (by omega)
    have hl := star_lt hx
    have hp := srk_pair (c0 := c0) (c1 := c1) hx (by omega) (by omega)
    have hr := rk_star hx hp
    have hrl := rk_lt (t := t) (x := x) (by omega)
    have hle := srk_le_rk (t := t) x
    have hiv : i = (rk t x : Nat) := by omega
    have hv := h.here x hx (by omega)
    obtain ⟨sa', h1, h2⟩ := moveStars_ok hn (c0 := c0) (c1 := c1) todo (i - 1) (k - 1) (sa.set (rk t x) (entB t x)) (by omega) (by omega) (by omega)
      ⟨by rw [List.length_set]; exact h.len, fun y hy hky => by
        by_cases he : y = x
        · subst he; exact get_set_eq (by rw [h.len]; omega)
        · have hne : srk t y ≠ srk t x := fun e => he (srk_inj hy hx e)
          have hyl := star_lt hy
          rw [get_set_ne (rk_ne (by omega) (by omega) (Ne.symm he))]
          exact h.moved y hy (by omega), fun y hy hky => by
        rw [get_set_ne (by omega)]
        exact h.here y hy (by omega)⟩
    refine ⟨sa', ?_, h2⟩
    unfold moveStars
    rw [idx_ok (i := (k : Int) - 1) (j := srk t x) (by omega)]
    simp only [Bind.bind, Except.bind]
    rw [idx_ok (i := i) (j := rk t x) hiv]
    simp only []
    rw [rd_ok hv]
    simp only []
    rw [st_ok (entB_range hn (by omega)) (by rw [h.len]; omega)]
    simp only []
    have e1 : (k : Int) - 1 - 1 = ((k - 1 : Nat) : Int) - 1 := by omega
    rw [e1, h1, show i - 1 - (todo : Int) = i - ((todo + 1 : Nat) : Int) by omega]

theorem top_succ (c0 c1 : Nat) : top t c0 (c1 + 1) = top t c0 c1 + (cB t c0 (c1 + 1) + cS t c0 (c1 + 1)) := by
  unfold cB cS
  rw [← cnt_or (fun z _ h1 h2 => not_star_nb h2.1 h1.1)]
  refine cnt_split (fun z hz => ?_) (fun z hz h h' => ?_)
  · unfold Upto
    constructor
    · rintro (h | ⟨h1, h2⟩)
      · exact .inl (.inl h)
      · rcases cases3 hz with hL | hs | hb
        · exact .inl (.inr ⟨h1, .inl hL⟩)
        · by_cases he : ch t (z + 1) = c1 + 1
          · exact .inr (.inr ⟨hs, h1, he⟩)
          · refine .inl (.inr ⟨h1, .inr ?_⟩)
            rcases h2 with h2 | h2
            · exact absurd h2 (not_star_L hs)
            · omega
        · by_cases he : ch t (z + 1) = c1 + 1
          · exact .inr (.inl ⟨hb, h1, he⟩)
          · refine .inl (.inr ⟨h1, .inr ?_⟩)
            rcases h2 with h2 | h2
            · exact absurd h2 (not_nb_L hb)
            · omega
    · rintro ((h | ⟨h1, h2⟩) | h | h)
      · exact .inl h
      · exact .inr ⟨h1, h2.imp id (fun h => by omega)⟩
      · exact .inr ⟨h.2.1, .inr (by have := h.2.2; omega)⟩
      · exact .inr ⟨h.2.1, .inr (by have := h.2.2; omega)⟩
  · have hh : Pair t c0 (c1 + 1) z ∧ ¬ isL t z := by
      rcases h' with h' | h'
      · exact ⟨h'.2, not_nb_L h'.1⟩
      · exact ⟨h'.2, not_star_L h'.1⟩
    have h1 := hh.1.1
    have h2 := hh.1.2
    rcases h with h | ⟨_, h | h⟩
    · omega
    · exact hh.2 h
    · omega

theorem top_first (c : Nat) : top t c c = bBeg t c + cB t c c := by
  refine cnt_split (fun z hz => ?_) (fun z hz h h' => ?_)
  · unfold Upto
    constructor
    · rintro (h | ⟨h1, h2⟩)
      · exact .inl (.inl h)
      · rcases cases3 hz with hL | hs | hb
        · exact .inl (.inr ⟨h1, hL⟩)
        · have := star_ch hs
          rcases h2 with h2 | h2
          · exact absurd h2 (not_star_L hs)
          · omega
        · have := S_ch hb.1
          rcases h2 with h2 | h2
          · exact absurd h2 (not_nb_L hb)
          · exact .inr ⟨hb, h1, by omega⟩
    · rintro ((h | h) | h)
      · exact .inl h
      · exact .inr ⟨h.1, .inl h.2⟩
      · exact .inr ⟨h.2.1, .inr (by have := h.2.2; omega)⟩
  · have h1 := h'.2.1
    rcases h with h | h
    · omega
    · exact not_nb_L h'.1 h.2

theorem top_last (hk : ∀ x, x < t.length → ch t x < 256) (c : Nat) : top t c 255 = start t (c + 1) := by
  refine cnt_congr fun z hz => ?_
  unfold Upto
  constructor
  · rintro (h | h) <;> omega
  · intro h
    by_cases hc : ch t z < c
    · exact .inl hc
    · refine .inr ⟨by omega, ?_⟩
      rcases L_or_S hz with hL | hS
      · exact .inl hL
      · have := hk (z + 1) (isS_lt hS)
        exact .inr (by omega)

theorem jAt_sEnd (c0 c1 : Nat) : jAt t c0 (c1 + 1) = sEnd t c0 c1 := by rw [jAt_succ, sEnd_eq]

theorem sEnd_first (c : Nat) : sEnd t c c = j0 t c := by rw [← jAt_sEnd, jAt_first]

theorem sEnd_last (hk : ∀ x, x < t.length → ch t x < 256) (c : Nat) : sEnd t c 255 = j0 t (c + 1) := by rw [← jAt_sEnd, jAt_last hk]

theorem moveInner_ok (hn : Small t) {c0 : Nat} : ∀ (todo : Nat) (s : SaBB) (fB fS : Nat → Nat → Int), c0 + todo ≤ 255 → Bk s.b fB fS →
    (∀ c, c0 ≤ c → c ≤ c0 + todo → fB c0 c = (cB t c0 c : Nat)) → (∀ c, c0 < c → c ≤ c0 + todo → fS c0 c = (jAt t c0 c : Nat)) →
    MInv t (sEnd t c0 (c0 + todo)) s.sa →
    ∃ s' fB', moveInner c0 todo ((top t c0 (c0 + todo) : Nat) - 1) ((sEnd t c0 (c0 + todo) : Nat) - 1) s =
        .ok ((top t c0 c0 : Nat) - 1, (sEnd t c0 c0 : Nat) - 1, s') ∧ Bk s'.b fB' fS ∧ MInv t (sEnd t c0 c0) s'.sa ∧
      (∀ c, c0 < c → c ≤ c0 + todo → fB' c0 c = (top t c0 c : Nat) - 1) ∧ ∀ x c, x ≠ c0 ∨ c ≤ c0 ∨ c0 + todo < c → fB' x c = fB x c
  | 0, s, fB, fS, _, hb, _, _, h => ⟨s, fB, rfl, hb, h, fun c h1 h2 => by omega, fun _ _ _ => rfl⟩
  | todo + 1, s, fB, fS, h255, hb, hB, hS, h => by
    have hsj := sEnd_eq (t := t) c0 (c0 + (todo + 1))
    obtain ⟨b1, h1, h2⟩ := hb.wrB (c0 := c0) (c1 := c0 + (todo + 1)) (by omega) (by omega) ((top t c0 (c0 + (todo + 1)) : Nat) - 1)
    obtain ⟨sa1, h3, h4⟩ := moveStars_ok hn (c0 := c0) (c1 := c0 + (todo + 1)) (cS t c0 (c0 + (todo + 1)))
      (((top t c0 (c0 + (todo + 1)) : Nat) : Int) - 1 - (cB t c0 (c0 + (todo + 1)) : Nat)) _ s.sa hsj.symm (Nat.le_refl _) (by omega) h
    have ets := top_succ (t := t) c0 (c0 + todo)
    have ejs := jAt_sEnd (t := t) c0 (c0 + todo)
    rw [show c0 + (todo + 1) = c0 + todo + 1 from rfl] at *
    rw [ejs] at h3 h4
    obtain ⟨s', fB', h5, h6, h7, h8, h9⟩ := moveInner_ok hn todo ⟨sa1, b1⟩ _ fS (by omega) h2 (fun c k1 k2 => by
      unfold upd2
      rw [if_neg (by omega)]
      exact hB c k1 (by omega)) (fun c k1 k2 => hS c k1 (by omega)) h4
    refine ⟨s', fB', ?_, h6, h7, fun c k1 k2 => ?_, fun x c k => ?_⟩
    · unfold moveInner
      simp only []
      rw [show c0 + (todo + 1) = c0 + todo + 1 from rfl, hb.rdB (c0 := c0) (c1 := c0 + todo + 1) (by omega) (by omega), hB _ (by omega) (by omega)]
      simp only [Bind.bind, Except.bind]
      rw [h1]
      simp only []
      rw [h2.rdS (c0 := c0) (c1 := c0 + todo + 1) (by omega) (by omega), hS _ (by omega) (by omega)]
      simp only []
      rw [show (((sEnd t c0 (c0 + todo + 1) : Nat) : Int) - 1 - (jAt t c0 (c0 + todo + 1) : Nat) + 1).toNat = cS t c0 (c0 + todo + 1) by omega]
      rw [h3]
      simp only []
      rw [show ((top t c0 (c0 + todo + 1) : Nat) : Int) - 1 - (cB t c0 (c0 + todo + 1) : Nat) - (cS t c0 (c0 + todo + 1) : Nat) = (top t c0 (c0 + todo) : Nat) - 1 by omega]
      exact h5
    · by_cases he : c = c0 + todo + 1
      · subst he
        rw [h9 _ _ (by omega)]
        unfold upd2
        rw [if_pos ⟨rfl, rfl⟩]
      · exact h8 c k1 (by omega)
    · rw [h9 _ _ (by omega)]
      unfold upd2
      rw [if_neg (by omega)]

/-- The B* suffixes are in their places; the buckets are the end points of those of type B, and
the start of all type B suffixes with a character. -/
structure Moved (t : List Nat) (s : SaBB) : Prop where
  b : ∃ fB fS, Bk s.b fB fS ∧ (∀ x c, x < 255 → x ≤ c → c < 256 → fB x c = (top t x c : Nat) - 1) ∧ ∀ x, x < 255 → fS x (x + 1) = (bBeg t x : Nat)
  sa : MInv t 0 s.sa

theorem moveOuter_ok (hn : Small t) (hk : ∀ x, x < t.length → ch t x < 256) {a : List Int} (ha : Ak a (fun c => (start t c : Nat))) :
    ∀ (todo : Nat) (s : SaBB) (fB fS : Nat → Nat → Int), todo ≤ 255 → Bk s.b fB fS →
    (∀ x c, x < todo → x ≤ c → c < 256 → fB x c = (cB t x c : Nat)) → (∀ x c, x < todo → x < c → c < 256 → fS x c = (jAt t x c : Nat)) →
    (∀ x c, todo ≤ x → x < 255 → x ≤ c → c < 256 → fB x c = (top t x c : Nat) - 1) → (∀ x, todo ≤ x → x < 255 → fS x (x + 1) = (bBeg t x : Nat)) →
    MInv t (j0 t todo) s.sa → ∃ s', moveOuter a todo ((j0 t todo : Nat) - 1) s = .ok s' ∧ Moved t s'
  | 0, s, fB, fS, _, hb, _, _, hB, hS, h => by
    have e : j0 t 0 = 0 := cnt_false fun z _ h => by omega
    rw [e] at h
    exact ⟨s, rfl, ⟨fB, fS, hb, fun x c => hB x c (Nat.zero_le _), fun x => hS x (Nat.zero_le _)⟩, h⟩
  | c0 + 1, s, fB, fS, h255, hb, hB, hS, hB', hS', h => by
    have e1 := top_last hk c0
    have e2 := sEnd_last hk c0
    have e3 := top_first (t := t) c0
    have e4 := sEnd_first (t := t) c0
    rw [← e2] at h
    obtain ⟨s1, fB1, h1, h2, h3, h4, h5⟩ := moveInner_ok hn (c0 := c0) (255 - c0) s fB fS (by omega) hb (fun c k1 k2 => hB c0 c (by omega) k1 (by omega))
      (fun c k1 k2 => hS c0 c (by omega) k1 (by omega)) (by rw [show c0 + (255 - c0) = 255 by omega]; exact h)
    rw [show c0 + (255 - c0) = 255 by omega] at h1 h4 h5
    rw [e4] at h1 h3
    obtain ⟨b2, h6, h7⟩ := h2.wrS (c0 := c0) (c1 := c0 + 1) (by omega) (by omega) ((bBeg t c0 : Nat))
    obtain ⟨b3, h8, h9⟩ := h7.wrB (c0 := c0) (c1 := c0) (by omega) (by omega) ((top t c0 c0 : Nat) - 1)
    obtain ⟨s', h10, h11⟩ := moveOuter_ok hn hk ha c0 ⟨s1.sa, b3⟩ _ _ (by omega) h9 (fun x c k1 k2 k3 => by
        unfold upd2
        rw [if_neg (by omega), h5 x c (by omega)]
        exact hB x c (by omega) k2 k3) (fun x c k1 k2 k3 => by
        unfold upd2
        rw [if_neg (by omega)]
        exact hS x c (by omega) k2 k3) (fun x c k1 k2 k3 k4 => by
        unfold upd2
        by_cases hx : x = c0
        · subst hx
          by_cases hc : c = x
          · subst hc; rw [if_pos ⟨rfl, rfl⟩]
          · rw [if_neg (by omega)]
            exact h4 c (by omega) (by omega)
        · rw [if_neg (by omega), h5 x c (by omega)]
          exact hB' x c (by omega) k2 k3 k4) (fun x k1 k2 => by
        unfold upd2
        by_cases hx : x = c0
        · subst hx; rw [if_pos ⟨rfl, rfl⟩]
        · rw [if_neg (by omega)]
          exact hS' x (by omega) k2) h3
    refine ⟨s', ?_, h11⟩
    unfold moveOuter
    rw [ha.rd (c := c0 + 1) (by omega)]
    simp only [Bind.bind, Except.bind]
    rw [← e1, ← e2, h1]
    simp only []
    rw [h2.rdB (c0 := c0) (c1 := c0) (by omega) (by omega), h5 c0 c0 (by omega), hB c0 c0 (by omega) (by omega) (by omega)]
    simp only []
    rw [show ((top t c0 c0 : Nat) : Int) - 1 - (cB t c0 c0 : Nat) + 1 = (bBeg t c0 : Nat) by omega, h6]
    simp only []
    rw [h8]
    exact h10

theorem j0_all (hk : ∀ x, x < t.length → ch t x < 256) : j0 t 255 = nStar t := by
  refine cnt_congr fun z hz => ⟨And.left, fun h => ⟨h, ?_⟩⟩
  have := star_ch h
  have := hk (z + 1) (star_lt h)
  omega

end Dss
end Detools
