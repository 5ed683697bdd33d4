import Verif.Proofs.DssStar
import Verif.Spec.Divsufsort
/-
divsufsort: the order of the B* suffixes is that of their sequences of substring names.
-/
namespace Detools
namespace Dss
open Sais

variable {t : List Nat}

/-! ### The specification -/

theorem lex_iff : ∀ {a b : List Nat}, a < b ↔ Lex a b
  | a, [] => ⟨fun h => absurd h (List.not_lt_nil a), fun h => absurd h (lex_nil a)⟩
  | [], b :: bs => ⟨fun _ => trivial, fun _ => List.nil_lt_cons b bs⟩
  | a :: as, b :: bs => by rw [List.cons_lt_cons_iff, lex_cons, lex_iff]

open Classical in
theorem filter_range {p : Nat → Bool} {P : Nat → Prop} (hp : ∀ x, p x = true ↔ P x) : ∀ n : Nat, ((List.range n).filter p).length = cnt n P ∧
    ∀ x, x < n → P x → ((List.range n).filter p)[cnt x P]? = some x
  | 0 => ⟨rfl, fun x hx => absurd hx (by omega)⟩
  | n + 1 => by
    obtain ⟨h1, h2⟩ := filter_range hp n
    rw [List.range_succ, List.filter_append]
    rw [show cnt (n + 1) P = cnt n P + if P n then 1 else 0 from rfl]
    by_cases h : P n
    · have hb := (hp n).2 h
      have e : [n].filter p = [n] := by simp [hb]
      rw [e, if_pos h]
      refine ⟨by rw [List.length_append, h1]; rfl, fun x hx hP => ?_⟩
      by_cases he : x = n
      · subst he
        rw [List.getElem?_append_right (by omega), h1]
        simp
      · have := h2 x (by omega) hP
        rw [List.getElem?_append_left]
        · exact this
        · have := (List.getElem?_eq_some_iff.1 this).1
          exact this
    · have hb : p n = false := by
        cases hc : p n
        · rfl
        · exact absurd ((hp n).1 hc) h
      have e : [n].filter p = [] := by simp [hb]
      rw [e, if_neg h, List.append_nil]
      refine ⟨h1, fun x hx hP => h2 x ?_ hP⟩
      by_cases he : x = n
      · subst he; exact absurd hP h
      · omega

theorem S_iff (x : Nat) : t.drop x < t.drop (x + 1) ↔ isS t x = true := by
  rw [lex_iff]
  by_cases h : x + 1 < t.length
  · rw [isS_iff h, drop_ch (x := x) (by omega), drop_ch (x := x + 1) h, lex_cons, ← drop_ch h]
    rw [← S_iff (x + 1), lex_iff]
  · rw [isS_last (by omega), List.drop_eq_nil_of_le (i := x + 1) (by omega)]
    exact ⟨fun h => absurd h (lex_nil _), fun h => by cases h⟩
termination_by t.length - x

theorem star_spec (x : Nat) : decide (t.drop x < t.drop (x + 1) ∧ ¬ t.drop (x + 1) < t.drop (x + 2)) = true ↔ star t x := by
  rw [decide_eq_true_iff, S_iff, S_iff]
  unfold star
  simp

theorem bStars_length : (bStars t).length = nStar t := (filter_range star_spec t.length).1

theorem bStars_get {x : Nat} (h : star t x) : (bStars t)[sNo t x]? = some x :=
  (filter_range star_spec t.length).2 x (by have := star_lt h; omega) h

theorem bStars_iff {r x : Nat} : (bStars t)[r]? = some x ↔ star t x ∧ sNo t x = r := by
  constructor
  · intro h
    have hr := (List.getElem?_eq_some_iff.1 h).1
    rw [bStars_length] at hr
    obtain ⟨y, h1, rfl⟩ := sNo_surj hr
    rw [bStars_get h1] at h
    injection h with h
    subst h
    exact ⟨h1, rfl⟩
  · rintro ⟨h, rfl⟩
    exact bStars_get h

/-- The substring of a B* position. -/
noncomputable abbrev sub (t : List Nat) (x : Nat) : List Nat := bStarSub t (sNo t x)

theorem sub_next {x y : Nat} (hx : star t x) (hy : star t y) (h : sNo t y = sNo t x + 1) : sub t x = (t.drop x).take (y + 2 - x) := by
  unfold sub bStarSub
  rw [bStars_get hx, ← h, bStars_get hy]

theorem sub_last {x : Nat} (hx : star t x) (h : sNo t x + 1 = nStar t) : sub t x = t.drop x := by
  unfold sub bStarSub
  rw [bStars_get hx, List.getElem?_eq_none (by rw [bStars_length]; omega)]

theorem sub_prefix {x : Nat} (hx : star t x) : ∃ n, 2 ≤ n ∧ x + n ≤ t.length ∧ sub t x = (t.drop x).take n := by
  have hl := star_lt hx
  by_cases h : sNo t x + 1 = nStar t
  · refine ⟨t.length - x, by omega, by omega, ?_⟩
    rw [sub_last hx h, List.take_of_length_le (by rw [List.length_drop]; omega)]
  · have := sNo_lt hx
    obtain ⟨y, h1, h2⟩ := sNo_surj (t := t) (r := sNo t x + 1) (by omega)
    have hyl := star_lt h1
    have : x < y := by
      rcases Nat.lt_trichotomy x y with k | k | k
      · exact k
      · subst k; omega
      · have := sNo_mono h1 k; omega
    exact ⟨y + 2 - x, by omega, by omega, sub_next hx h1 h2⟩

theorem sNo_lt_iff {x y : Nat} (hx : star t x) (hy : star t y) : sNo t x < sNo t y ↔ x < y := by
  refine ⟨fun h => ?_, sNo_mono hx⟩
  rcases Nat.lt_trichotomy x y with k | k | k
  · exact k
  · subst k; omega
  · have := sNo_mono hy k; omega

/-! ### Prefixes -/

theorem lex_append_left : ∀ {a b : List Nat} (c : List Nat), Lex a b → Lex (c ++ a) (c ++ b)
  | _, _, [], h => h
  | _, _, _ :: cs, h => .inr ⟨rfl, lex_append_left cs h⟩

theorem lex_append_iff {a b : List Nat} (c : List Nat) : Lex (c ++ a) (c ++ b) ↔ Lex a b := by
  refine ⟨fun h => ?_, lex_append_left c⟩
  rcases Lex.tri a b with k | k | k
  · exact k
  · rw [k] at h; exact absurd h (Lex.irrefl _)
  · exact absurd h (lex_append_left c k).asymm

/-- One prefix is less: it is so because of a character, or it is a prefix of the other. -/
theorem lex_take : ∀ {a b : List Nat} {n k : Nat}, Lex (a.take n) (b.take k) → Lex a b ∨ (n < k ∧ n < b.length ∧ a.take n = b.take n ∧ n ≤ a.length) ∨
    (a.length < n ∧ Lex a b)
  | a, b, n, 0, h => by rw [List.take_zero] at h; exact absurd h (lex_nil _)
  | a, [], n, k + 1, h => by rw [List.take_nil] at h; exact absurd h (lex_nil _)
  | a, b :: bs, 0, k + 1, _ => .inr (.inl ⟨by omega, by simp, by simp, by omega⟩)
  | [], b :: bs, n + 1, k + 1, _ => .inl trivial
  | a :: as, b :: bs, n + 1, k + 1, h => by
    rw [List.take_succ_cons, List.take_succ_cons, lex_cons] at h
    rcases h with h | ⟨rfl, h⟩
    · exact .inl (.inl h)
    · rcases lex_take h with h | ⟨h1, h2, h3, h4⟩ | ⟨h1, h2⟩
      · exact .inl (.inr ⟨rfl, h⟩)
      · exact .inr (.inl ⟨by omega, by simp only [List.length_cons]; omega, by rw [List.take_succ_cons, List.take_succ_cons, h3], by simp only [List.length_cons]; omega⟩)
      · exact .inl (.inr ⟨rfl, h2⟩)

theorem take_ch {x y n : Nat} (hx : x + n ≤ t.length) (hy : y + n ≤ t.length) (h : (t.drop x).take n = (t.drop y).take n) {d : Nat} (hd : d < n) :
    ch t (x + d) = ch t (y + d) := by
  have h' := congrArg (fun l => l[d]?) h
  simp only [List.getElem?_take, if_pos hd, List.getElem?_drop] at h'
  rw [ch_get (by omega), ch_get (by omega)] at h'
  injection h'

theorem lex_drop {x y n : Nat} (h : (t.drop x).take n = (t.drop y).take n) : Lex (t.drop x) (t.drop y) ↔ Lex (t.drop (x + n)) (t.drop (y + n)) := by
  have e1 : t.drop x = (t.drop x).take n ++ t.drop (x + n) := by rw [← List.drop_drop, List.take_append_drop]
  have e2 : t.drop y = (t.drop y).take n ++ t.drop (y + n) := by rw [← List.drop_drop, List.take_append_drop]
  rw [e1, e2, h, lex_append_iff]

theorem take_le {α : Type} {a b : List α} {n k : Nat} (hkn : k ≤ n) (h : a.take n = b.take n) : a.take k = b.take k := by
  have := congrArg (List.take k) h
  rwa [List.take_take, List.take_take, Nat.min_eq_left hkn] at this

/-! ### Substrings -/

/-- A pair of characters in increasing order after a B* position starts a type B suffix. -/
theorem incr_S {z : Nat} (h1 : z + 1 < t.length) (h2 : ch t z < ch t (z + 1)) : isS t z = true := (isS_iff h1).2 (.inl h2)

/-- If one substring is less the suffix is. -/
theorem sub_lex {x y : Nat} (hx : star t x) (hy : star t y) (h : Lex (sub t x) (sub t y)) : Lex (t.drop x) (t.drop y) := by
  have hxl := star_lt hx
  have hyl := star_lt hy
  obtain ⟨ny, hny, hny', ey⟩ := sub_prefix hy
  by_cases hlast : sNo t x + 1 = nStar t
  · rw [ey, sub_last hx hlast, show t.drop x = (t.drop x).take (t.length - x) from (List.take_of_length_le (by rw [List.length_drop]; omega)).symm] at h
    rcases lex_take h with h | ⟨h1, h2, h3, h4⟩ | ⟨h1, h2⟩
    · exact h
    · rw [lex_drop h3, List.drop_eq_nil_of_le (i := x + (t.length - x)) (by omega), drop_ch (x := y + (t.length - x)) (by omega)]
      exact trivial
    · exact h2
  · have hlt := sNo_lt hx
    obtain ⟨x', hx', hxn⟩ := sNo_surj (t := t) (r := sNo t x + 1) (by omega)
    have hxl' := star_lt hx'
    have hxx : x < x' := (sNo_lt_iff hx hx').1 (by omega)
    rw [ey, sub_next hx hx' hxn] at h
    rcases lex_take h with h | ⟨h1, h2, h3, h4⟩ | ⟨h1, h2⟩
    · exact h
    · rw [lex_drop (take_le (k := x' - x) (by omega) h3), show x + (x' - x) = x' by omega]
      have c0 := take_ch (d := x' - x) (by omega) (by omega) h3 (by omega)
      have c1 := take_ch (d := x' - x + 1) (by omega) (by omega) h3 (by omega)
      rw [show x + (x' - x) = x' by omega] at c0
      rw [show x + (x' - x + 1) = x' + 1 by omega, show y + (x' - x + 1) = y + (x' - x) + 1 by omega] at c1
      have hc := star_ch hx'
      have hS : isS t (y + (x' - x)) = true := incr_S (by omega) (by omega)
      rcases S_cases hS with hs | hs
      · exfalso
        have hno : sNo t y < sNo t (y + (x' - x)) := sNo_mono hy (by omega)
        have hb := sNo_lt hs
        obtain ⟨y', hy', hyn⟩ := sNo_surj (t := t) (r := sNo t y + 1) (by omega)
        have hle : y' ≤ y + (x' - x) := by
          by_cases hh : y' ≤ y + (x' - x)
          · exact hh
          · have := (sNo_lt_iff hs hy').2 (by omega); omega
        have el := congrArg List.length ey
        rw [sub_next hy hy' hyn, List.length_take, List.length_take, List.length_drop] at el
        have := star_lt hy'
        have : y < y' := (sNo_lt_iff hy hy').1 (by omega)
        omega
      · exact star_before_nb hx' hs c0 c1
    · exact h2

/-- The substring of the last B* position is the only one of its kind. -/
theorem sub_last_ne {x y : Nat} (hx : star t x) (hy : star t y) (hlast : sNo t x + 1 = nStar t) (hne : y ≠ x) : sub t y ≠ sub t x := by
  intro h
  have hyl := sNo_lt hy
  have hne' : sNo t y ≠ sNo t x := fun e => hne (sNo_inj hy hx e)
  obtain ⟨y', hy', hyn⟩ := sNo_surj (t := t) (r := sNo t y + 1) (by omega)
  have hyy : y < y' := (sNo_lt_iff hy hy').1 (by omega)
  have hyl' := star_lt hy'
  have hxl := star_lt hx
  rw [sub_next hy hy' hyn, sub_last hx hlast] at h
  have el := congrArg List.length h
  rw [List.length_take, List.length_drop, List.length_drop] at el
  have h2 : (t.drop y).take (y' + 2 - y) = (t.drop x).take (y' + 2 - y) := by
    rw [h, List.take_of_length_le (by rw [List.length_drop]; omega)]
  have c0 := take_ch (d := y' - y) (by omega) (by omega) h2 (by omega)
  have c1 := take_ch (d := y' - y + 1) (by omega) (by omega) h2 (by omega)
  rw [show y + (y' - y) = y' by omega] at c0
  rw [show y + (y' - y + 1) = y' + 1 by omega, show x + (y' - y + 1) = x + (y' - y) + 1 by omega] at c1
  have hc := star_ch hy'
  obtain ⟨z, hz1, hz2, _⟩ := exists_star (t := t) (x := x + (y' - y)) (incr_S (by omega) (by omega))
  have := sNo_mono hx (y := z) (by omega)
  have := sNo_lt hz2
  omega

/-- Equal substrings: the suffixes compare as the next ones do. -/
theorem sub_eq_next {x y x' y' : Nat} (hx : star t x) (hy : star t y) (hx' : star t x') (hy' : star t y') (h1 : sNo t x' = sNo t x + 1)
    (h2 : sNo t y' = sNo t y + 1) (h : sub t x = sub t y) : Lex (t.drop x) (t.drop y) ↔ Lex (t.drop x') (t.drop y') := by
  have a1 := star_lt hx'
  have a2 := star_lt hy'
  have a3 : x < x' := (sNo_lt_iff hx hx').1 (by omega)
  have a4 : y < y' := (sNo_lt_iff hy hy').1 (by omega)
  rw [sub_next hx hx' h1, sub_next hy hy' h2] at h
  have el := congrArg List.length h
  rw [List.length_take, List.length_take, List.length_drop, List.length_drop] at el
  have e : x' - x = y' - y := by omega
  rw [show y' + 2 - y = x' + 2 - x by omega] at h
  rw [lex_drop (take_le (k := x' - x) (by omega) h), show x + (x' - x) = x' by omega, show y + (x' - x) = y' by omega]

/-- Names of the substrings: in their order, the same for the same substring. -/
structure Names (t w : List Nat) : Prop where
  len : w.length = nStar t
  lt : ∀ x y, star t x → star t y → Lex (sub t x) (sub t y) → ch w (sNo t x) < ch w (sNo t y)
  eq : ∀ x y, star t x → star t y → sub t x = sub t y → ch w (sNo t x) = ch w (sNo t y)

theorem names_mono {w : List Nat} (h : Names t w) : ∀ (d x y : Nat), nStar t - sNo t x ≤ d → star t x → star t y → Lex (t.drop x) (t.drop y) →
    Lex (w.drop (sNo t x)) (w.drop (sNo t y))
  | 0, x, y, hd, hx, hy, hl => by have := sNo_lt hx; omega
  | d + 1, x, y, hd, hx, hy, hl => by
    have h1 := sNo_lt hx
    have h2 := sNo_lt hy
    rw [drop_ch (x := sNo t x) (by rw [h.len]; exact h1), drop_ch (x := sNo t y) (by rw [h.len]; exact h2), lex_cons]
    rcases Lex.tri (sub t x) (sub t y) with k | k | k
    · exact .inl (h.lt x y hx hy k)
    · right
      refine ⟨h.eq x y hx hy k, ?_⟩
      have hne : x ≠ y := fun e => by rw [e] at hl; exact Lex.irrefl _ hl
      have n1 : sNo t x + 1 ≠ nStar t := fun e => sub_last_ne hx hy e (Ne.symm hne) k.symm
      have n2 : sNo t y + 1 ≠ nStar t := fun e => sub_last_ne hy hx e hne k
      obtain ⟨x', hx', e1⟩ := sNo_surj (t := t) (r := sNo t x + 1) (by omega)
      obtain ⟨y', hy', e2⟩ := sNo_surj (t := t) (r := sNo t y + 1) (by omega)
      rw [← e1, ← e2]
      exact names_mono h d x' y' (by omega) hx' hy' ((sub_eq_next hx hy hx' hy' e1 e2 k).1 hl)
    · exact absurd hl (sub_lex hy hx k).asymm

theorem names_iff {w : List Nat} (h : Names t w) {x y : Nat} (hx : star t x) (hy : star t y) :
    Lex (w.drop (sNo t x)) (w.drop (sNo t y)) ↔ Lex (t.drop x) (t.drop y) := by
  refine ⟨fun hl => ?_, names_mono h _ x y (Nat.le_refl _) hx hy⟩
  rcases Lex.tri (t.drop x) (t.drop y) with k | k | k
  · exact k
  · have := star_lt hx
    have := star_lt hy
    have e := drop_inj (by omega) (by omega) k
    rw [e] at hl
    exact absurd hl (Lex.irrefl _)
  · exact absurd hl (names_mono h _ y x (Nat.le_refl _) hy hx k).asymm

/-- The rank of a sequence of names is that of the B* suffix. -/
theorem names_rank {w : List Nat} (h : Names t w) {x : Nat} (hx : star t x) :
    ((List.range w.length).filter fun s => decide (w.drop s < w.drop (sNo t x))).length = srk t x := by
  rw [(filter_range (P := fun s => w.drop s < w.drop (sNo t x)) (fun s => decide_eq_true_iff) w.length).1, h.len]
  unfold srk
  rw [← cnt_image (n := t.length) (p := fun y => star t y ∧ Lex (t.drop y) (t.drop x)) (f := sNo t) (m := nStar t) (fun y _ hy => sNo_lt hy.1)
    (fun y z _ _ hy hz => sNo_inj hy.1 hz.1)]
  refine cnt_congr fun s hs => ?_
  rw [lex_iff]
  constructor
  · intro hl
    obtain ⟨y, hy, rfl⟩ := sNo_surj hs
    exact ⟨y, by have := star_lt hy; omega, ⟨hy, (names_iff h hy hx).1 hl⟩, rfl⟩
  · rintro ⟨y, _, ⟨hy, hl⟩, rfl⟩
    exact (names_iff h hy hx).2 hl

end Dss
end Detools
