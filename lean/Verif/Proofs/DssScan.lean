import Verif.Proofs.DssStar
/-
divsufsort: the suffixes of type B from those of type B*, and those of type A from those.
-/
namespace Detools
namespace Dss
open Sais

variable {t : List Nat}

/-- The element for a suffix before the scan from left to right reaches it. -/
def entA (t : List Nat) (x : Nat) : Int := if x = 0 ∨ isS t (x - 1) = true then inv x else (x : Int)

theorem inv_inv (v : Int) : inv (inv v) = v := by unfold inv; omega

theorem inv_entB (x : Nat) : inv (entB t x) = entA t x := by
  unfold entA entB
  by_cases h : x = 0 ∨ isS t (x - 1) = true
  · rw [if_pos h, if_pos h]
  · rw [if_neg h, if_neg h, inv_inv]

theorem entA_range (hn : Small t) {x : Nat} (hx : x < t.length) : -2 ^ 31 ≤ entA t x ∧ entA t x < 2 ^ 31 := by
  refine range_of hn ?_ ?_ <;> (unfold entA inv; split) <;> omega

/-! ### From right to left -/

/-- The type B elements from `j` on are scanned. `f` is where the next type B suffix before one
of them goes, for the characters up to `c`. -/
structure BInv (t : List Nat) (c j : Nat) (sa : List Int) (f : Nat → Nat → Int) : Prop where
  len : sa.length = t.length
  star : ∀ x, star t x → sa[rk t x]? = some (if j ≤ rk t x then entA t x else entB t x)
  nb : ∀ y, nb t y → j ≤ rk t (y + 1) → sa[rk t y]? = some (if j ≤ rk t y then entA t y else entB t y)
  ptr : ∀ c0 c1, c0 ≤ c1 → c1 ≤ c → f c0 c1 = (top t c0 c1 : Nat) - 1 - (cnt t.length (fun y => (Dss.nb t y ∧ Pair t c0 c1 y) ∧ j ≤ rk t (y + 1)) : Nat)

theorem BInv.get {c x : Nat} {sa : List Int} {f : Nat → Nat → Int} (h : BInv t c (rk t x + 1) sa f) (hx : isS t x = true) : sa[rk t x]? = some (entB t x) := by
  have hl := isS_lt hx
  rcases S_cases hx with hs | hb
  · rw [h.star x hs, if_neg (by omega)]
  · rw [h.nb x hb (rk_mono (by omega) (S_asc hx)), if_neg (by omega)]

/-- Nothing of type B is between. -/
theorem BInv.skip {c c' j j' : Nat} {sa : List Int} {f f' : Nat → Nat → Int} (h : BInv t c j sa f) (hj : j' ≤ j) (hc : c' ≤ c)
    (hno : ∀ x, isS t x = true → j' ≤ rk t x → j ≤ rk t x) (hf : ∀ c0 c1, c0 ≤ c1 → c1 ≤ c' → f' c0 c1 = f c0 c1) : BInv t c' j' sa f' := by
  have hiff : ∀ x, isS t x = true → (j' ≤ rk t x ↔ j ≤ rk t x) := fun x hx => ⟨hno x hx, fun h => by omega⟩
  refine ⟨h.len, fun x hx => ?_, fun y hy hj' => ?_, fun c0 c1 h0 h1 => ?_⟩
  · rw [h.star x hx]
    by_cases hh : j ≤ rk t x
    · rw [if_pos hh, if_pos (by omega)]
    · rw [if_neg hh, if_neg (fun k => hh (hno x hx.1 k))]
  · rw [h.nb y hy (hno _ hy.2 hj')]
    by_cases hh : j ≤ rk t y
    · rw [if_pos hh, if_pos (by omega)]
    · rw [if_neg hh, if_neg (fun k => hh (hno y hy.1 k))]
  · rw [hf c0 c1 h0 h1, h.ptr c0 c1 h0 (by omega)]
    have : cnt t.length (fun y => (Dss.nb t y ∧ Pair t c0 c1 y) ∧ j' ≤ rk t (y + 1)) = cnt t.length (fun y => (Dss.nb t y ∧ Pair t c0 c1 y) ∧ j ≤ rk t (y + 1)) :=
      cnt_congr fun y _ => ⟨fun hh => ⟨hh.1, (hiff _ hh.1.1.2).1 hh.2⟩, fun hh => ⟨hh.1, (hiff _ hh.1.1.2).2 hh.2⟩⟩
    rw [this]

/-- The suffix before is not of type B. -/
theorem BInv.done {c x : Nat} {sa : List Int} {f : Nat → Nat → Int} (h : BInv t c (rk t x + 1) sa f) (hx : isS t x = true)
    (hp : x = 0 ∨ isS t (x - 1) = false) : BInv t c (rk t x) (sa.set (rk t x) (entA t x)) f := by
  have hl := isS_lt hx
  have hxl := rk_lt (t := t) (x := x) (by omega)
  have hnx : ∀ y, Dss.nb t y → y + 1 ≠ x := by
    rintro y hy rfl
    rcases hp with hp | hp
    · omega
    · rw [Nat.add_sub_cancel, hy.1] at hp; cases hp
  have hiff : ∀ y, Dss.nb t y → (rk t x ≤ rk t (y + 1) ↔ rk t x + 1 ≤ rk t (y + 1)) := by
    intro y hy
    have := rk_ne (t := t) (x := x) (y := y + 1) (by omega) (isS_lt hy.1) (fun e => hnx y hy e.symm)
    omega
  refine ⟨by rw [List.length_set]; exact h.len, fun z hz => ?_, fun y hy hj => ?_, fun c0 c1 h0 h1 => ?_⟩
  · by_cases he : z = x
    · subst he
      rw [get_set_eq (by rw [h.len]; omega), if_pos (Nat.le_refl _)]
    · have hzl := star_lt hz
      have hne := rk_ne (t := t) (x := x) (y := z) (by omega) (by omega) (Ne.symm he)
      rw [get_set_ne hne, h.star z hz]
      by_cases hh : rk t x + 1 ≤ rk t z
      · rw [if_pos hh, if_pos (by omega)]
      · rw [if_neg hh, if_neg (by omega)]
  · by_cases he : y = x
    · subst he
      rw [get_set_eq (by rw [h.len]; omega), if_pos (Nat.le_refl _)]
    · have hyl := nb_lt hy
      have hne := rk_ne (t := t) (x := x) (y := y) (by omega) (by omega) (Ne.symm he)
      rw [get_set_ne hne, h.nb y hy ((hiff y hy).1 hj)]
      by_cases hh : rk t x + 1 ≤ rk t y
      · rw [if_pos hh, if_pos (by omega)]
      · rw [if_neg hh, if_neg (by omega)]
  · rw [h.ptr c0 c1 h0 h1]
    have : cnt t.length (fun y => (Dss.nb t y ∧ Pair t c0 c1 y) ∧ rk t x + 1 ≤ rk t (y + 1)) = cnt t.length (fun y => (Dss.nb t y ∧ Pair t c0 c1 y) ∧ rk t x ≤ rk t (y + 1)) :=
      cnt_congr fun y _ => ⟨fun hh => ⟨hh.1, (hiff _ hh.1.1).2 hh.2⟩, fun hh => ⟨hh.1, (hiff _ hh.1.1).1 hh.2⟩⟩
    rw [this]

/-- Where the suffix before goes. -/
theorem BInv.place {c p : Nat} {sa : List Int} {f : Nat → Nat → Int} (h : BInv t c (rk t (p + 1) + 1) sa f) (hx : isS t (p + 1) = true)
    (hp : isS t p = true) (hc : ch t (p + 1) = c) : f (ch t p) c = (rk t p : Nat) := by
  have hl := isS_lt hx
  have hr := rk_nb (t := t) (y := p) ⟨hp, hx⟩ ⟨rfl, rfl⟩
  rw [← hc, h.ptr _ _ (S_ch hp) (by omega)]
  have : cnt t.length (fun y => (Dss.nb t y ∧ Pair t (ch t p) (ch t (p + 1)) y) ∧ rk t (p + 1) + 1 ≤ rk t (y + 1)) =
      cnt t.length (fun y => (Dss.nb t y ∧ Pair t (ch t p) (ch t (p + 1)) y) ∧ Lex (t.drop p) (t.drop y)) := by
    refine cnt_congr fun y _ => and_congr_right fun hh => ?_
    have hyl := isS_lt hh.1.1
    rw [drop_step (by omega) (by omega) hh.2.1.symm, ← rk_lt_iff (by omega) hyl]
    rfl
  rw [this]
  omega

theorem BInv.step {c p : Nat} {sa : List Int} {f : Nat → Nat → Int} (h : BInv t c (rk t (p + 1) + 1) sa f) (hx : isS t (p + 1) = true)
    (hp : isS t p = true) (hc : ch t (p + 1) = c) :
    BInv t c (rk t (p + 1)) ((sa.set (rk t (p + 1)) (entA t (p + 1))).set (rk t p) (entB t p)) (upd2 f (ch t p) c ((rk t p : Nat) - 1)) := by
  have hl := isS_lt hx
  have hxl := rk_lt (t := t) (x := p + 1) (by omega)
  have hpl := rk_lt (t := t) (x := p) (by omega)
  have hlt := rk_mono (t := t) (x := p) (by omega) (S_asc hp)
  have hpt := h.place hx hp hc
  have hge : ∀ y, y < t.length → y ≠ p + 1 → (rk t (p + 1) ≤ rk t y ↔ rk t (p + 1) + 1 ≤ rk t y) := by
    intro y hy hne
    have := rk_ne (t := t) (x := p + 1) (y := y) (by omega) hy (Ne.symm hne)
    omega
  refine ⟨by rw [List.length_set, List.length_set]; exact h.len, fun z hz => ?_, fun y hy hj => ?_, fun c0 c1 h0 h1 => ?_⟩
  · have hzl := star_lt hz
    have hzp : z ≠ p := fun e => by subst e; exact not_star_nb hz ⟨hp, hx⟩
    rw [get_set_ne (rk_ne (by omega) (by omega) (Ne.symm hzp))]
    by_cases he : z = p + 1
    · subst he
      rw [get_set_eq (by rw [h.len]; omega), if_pos (Nat.le_refl _)]
    · rw [get_set_ne (rk_ne (by omega) (by omega) (Ne.symm he)), h.star z hz]
      have := hge z (by omega) he
      by_cases hh : rk t (p + 1) + 1 ≤ rk t z
      · rw [if_pos hh, if_pos (by omega)]
      · rw [if_neg hh, if_neg (by omega)]
  · have hyl := nb_lt hy
    by_cases hyp : y = p
    · subst hyp
      rw [get_set_eq (by rw [List.length_set, h.len]; omega), if_neg (by omega)]
    · rw [get_set_ne (rk_ne (by omega) (by omega) (Ne.symm hyp))]
      by_cases he : y = p + 1
      · subst he
        rw [get_set_eq (by rw [h.len]; omega), if_pos (Nat.le_refl _)]
      · rw [get_set_ne (rk_ne (by omega) (by omega) (Ne.symm he)), h.nb y hy ((hge (y + 1) hyl (by omega)).1 hj)]
        have := hge y (by omega) he
        by_cases hh : rk t (p + 1) + 1 ≤ rk t y
        · rw [if_pos hh, if_pos (by omega)]
        · rw [if_neg hh, if_neg (by omega)]
  · unfold upd2
    by_cases he : c0 = ch t p ∧ c1 = c
    · obtain ⟨rfl, rfl⟩ := he
      rw [if_pos ⟨rfl, rfl⟩, ← hpt, h.ptr _ _ h0 h1]
      have : cnt t.length (fun y => (Dss.nb t y ∧ Pair t (ch t p) c1 y) ∧ rk t (p + 1) ≤ rk t (y + 1)) =
          cnt t.length (fun y => (Dss.nb t y ∧ Pair t (ch t p) c1 y) ∧ rk t (p + 1) + 1 ≤ rk t (y + 1)) + 1 := by
        refine cnt_add_one (show p < t.length by omega) (fun y _ => ?_) (fun hh => by omega)
        constructor
        · rintro ⟨k1, k2⟩
          by_cases hyp : y = p
          · exact .inr hyp
          · exact .inl ⟨k1, (hge (y + 1) (isS_lt k1.1.1) (by omega)).1 k2⟩
        · rintro (⟨k1, k2⟩ | rfl)
          · exact ⟨k1, by omega⟩
          · exact ⟨⟨⟨hp, hx⟩, rfl, hc⟩, Nat.le_refl _⟩
      rw [this]
      omega
    · rw [if_neg he, h.ptr c0 c1 h0 h1]
      have : cnt t.length (fun y => (Dss.nb t y ∧ Pair t c0 c1 y) ∧ rk t (p + 1) ≤ rk t (y + 1)) =
          cnt t.length (fun y => (Dss.nb t y ∧ Pair t c0 c1 y) ∧ rk t (p + 1) + 1 ≤ rk t (y + 1)) := by
        refine cnt_congr fun y _ => and_congr_right fun hh => ?_
        refine hge (y + 1) (isS_lt hh.1.1) (fun e => ?_)
        have : y = p := by omega
        subst this
        exact he ⟨hh.2.1.symm, by rw [← hh.2.2, hc]⟩
      rw [this]

/-- The places of the next suffixes, with the cached one. -/
def eff (fB : Nat → Nat → Int) (c1 : Nat) (cur : Cursor) : Nat → Nat → Int :=
  match cur.c2 with
  | none => fB
  | some c2 => upd2 fB c2 c1 cur.k

theorem loadB_ok {b : List Int} {fB fS : Nat → Nat → Int} {c0 c1 : Nat} {cur : Cursor} (hb : Bk b fB fS) (h0 : c0 ≤ c1) (h1 : c1 < 256)
    (hcur : ∀ c2, cur.c2 = some c2 → c2 ≤ c1) :
    ∃ b' fB', loadB c0 c1 cur b = .ok (⟨eff fB c1 cur c0 c1, some c0⟩, b') ∧ Bk b' fB' fS ∧
      ∀ v, upd2 fB' c0 c1 v = upd2 (eff fB c1 cur) c0 c1 v := by
  obtain ⟨k, c2⟩ := cur
  unfold loadB
  cases c2 with
  | none =>
    simp only [eff, reduceCtorEq, if_false, Bind.bind, Except.bind]
    rw [hb.rdB h0 h1]
    exact ⟨b, fB, rfl, hb, fun _ => rfl⟩
  | some c2 =>
    have hc2 := hcur c2 rfl
    simp only [eff, Option.some.injEq, Bind.bind, Except.bind]
    by_cases he : c2 = c0
    · subst he
      rw [if_pos rfl]
      refine ⟨b, fB, ?_, hb, fun v => ?_⟩
      · simp [upd2]
      · funext x y
        unfold upd2
        by_cases hh : x = c2 ∧ y = c1
        · rw [if_pos hh, if_pos hh]
        · rw [if_neg hh, if_neg hh, if_neg hh]
    · rw [if_neg he]
      obtain ⟨b', k1, k2⟩ := hb.wrB hc2 h1 k
      refine ⟨b', _, ?_, k2, fun _ => rfl⟩
      rw [k1]
      simp only []
      rw [k2.rdB h0 h1]

theorem entB_pos {x : Nat} : 0 < entB t x ↔ ∃ p, x = p + 1 ∧ isS t p = true := by
  unfold entB inv
  constructor
  · intro h
    by_cases hc : x = 0 ∨ isS t (x - 1) = true
    · rw [if_pos hc] at h
      refine ⟨x - 1, by omega, ?_⟩
      rcases hc with hc | hc
      · omega
      · exact hc
    · rw [if_neg hc] at h
      omega
  · rintro ⟨p, rfl, hp⟩
    rw [if_pos (.inr hp)]
    omega

/-- The element for a type B suffix is computed from the character before it. -/
theorem entB_value {p : Nat} (hp : isS t p = true) :
    ∃ pred, largerBefore t p (ch t p) = .ok pred ∧
      (if pred = true then inv p else (p : Int)) = entB t p := by
  have hl := isS_lt hp
  unfold largerBefore
  cases p with
  | zero => exact ⟨false, rfl, rfl⟩
  | succ q =>
    rw [if_pos (by omega), Nat.add_sub_cancel, rd_ch (by omega)]
    refine ⟨_, rfl, ?_⟩
    have hb := isL_before_S hp
    unfold entB
    by_cases h : ch t (q + 1) < ch t q
    · have := hb.2 h
      rw [if_pos (decide_eq_true h), if_neg]
      simp [this]
    · have : isS t q = true := by
        by_cases hq : isS t q = true
        · exact hq
        · exact absurd (hb.1 (by simpa using hq)) h
      rw [if_neg (by simpa using h), if_pos]
      exact .inr this

theorem S_of_rk {c x : Nat} (hx : x < t.length) (h1 : bBeg t c ≤ rk t x) (h2 : rk t x < start t (c + 1)) : isS t x = true ∧ ch t x = c := by
  have hr := rk_range hx
  have hsb : start t c ≤ bBeg t c := cnt_mono fun _ _ h => .inl h
  have hc : ch t x = c := by
    rcases Nat.lt_trichotomy (ch t x) c with k | k | k
    · have := start_mono (t := t) (c := ch t x + 1) (d := c) k; omega
    · exact k
    · have := start_mono (t := t) (c := c + 1) (d := ch t x) k; omega
  refine ⟨?_, hc⟩
  rcases L_or_S hx with hL | hS
  · have := rk_L_range hL
    rw [hc] at this
    omega
  · exact hS

theorem scanB_ok (hn : Small t) (hk : ∀ x, x < t.length → ch t x < 256) {c1 : Nat} (hc1 : c1 < 255) {fS : Nat → Nat → Int} :
    ∀ (todo : Nat) (cur : Cursor) (s : SaBB) (fB : Nat → Nat → Int), bBeg t c1 + todo ≤ start t (c1 + 1) → Bk s.b fB fS →
    (∀ c2, cur.c2 = some c2 → c2 ≤ c1) → BInv t c1 (bBeg t c1 + todo) s.sa (eff fB c1 cur) →
    ∃ s' fB' f, scanB t c1 todo ((bBeg t c1 : Nat) + (todo : Int) - 1) cur s = .ok s' ∧ Bk s'.b fB' fS ∧ BInv t c1 (bBeg t c1) s'.sa f ∧
      ∀ x y, y ≠ c1 → fB' x y = f x y
  | 0, cur, s, fB, _, hb, _, h => ⟨s, fB, _, rfl, hb, h, fun x y hy => by
      unfold eff
      cases cur.c2 with
      | none => rfl
      | some c2 =>
        show fB x y = upd2 fB c2 c1 cur.k x y
        unfold upd2
        rw [if_neg (fun hh => hy hh.2)]⟩
  | todo + 1, cur, s, fB, hle, hb, hcur, h => by
    have hsl := start_le_length t (c1 + 1)
    obtain ⟨x, hxl, hxr⟩ := rk_surj (t := t) (q := bBeg t c1 + todo) (by omega)
    obtain ⟨hx, hxc⟩ := S_of_rk (c := c1) hxl (by omega) (by omega)
    rw [show bBeg t c1 + (todo + 1) = rk t x + 1 by omega] at h
    have hg := h.get hx
    have hst : st s.sa (rk t x) (inv (entB t x)) = .ok (s.sa.set (rk t x) (entA t x)) := by
      rw [inv_entB]
      exact st_ok (entA_range hn hxl) (by rw [h.len]; omega)
    unfold scanB
    rw [idx_ok (j := rk t x) (by omega)]
    simp only [Bind.bind, Except.bind]
    rw [rd_ok hg]
    simp only []
    rw [hst]
    simp only []
    have hj : ((bBeg t c1 : Nat) : Int) + ((todo + 1 : Nat) : Int) - 1 - 1 = (bBeg t c1 : Nat) + (todo : Int) - 1 := by omega
    rw [hj]
    by_cases hv : 0 < entB t x
    · obtain ⟨p, rfl, hp⟩ := entB_pos.1 hv
      have hve : entB t (p + 1) = ((p + 1 : Nat) : Int) := by unfold entB; rw [if_pos (.inr hp)]
      rw [if_pos hv]
      have hpv : (entB t (p + 1)).toNat - 1 = p := by omega
      rw [hpv, rd_ch (by omega)]
      simp only []
      obtain ⟨pred, k1, k2⟩ := entB_value hp
      rw [k1]
      simp only []
      have hle' : ch t p ≤ c1 := by have := S_ch hp; omega
      obtain ⟨b', fB', k3, k4, k5⟩ := loadB_ok (c0 := ch t p) hb hle' (by omega) hcur
      rw [k3]
      simp only []
      have hpl := h.place hx hp hxc
      rw [hpl, idx_nat]
      simp only []
      rw [k2, st_ok (entB_range hn (by omega)) (by rw [List.length_set, h.len]; exact rk_lt (by omega))]
      simp only []
      have hstep := h.step hx hp hxc
      rw [hxr, ← k5] at hstep
      obtain ⟨s', fB'', f, m1, m2, m3, m4⟩ := scanB_ok hn hk hc1 (fS := fS) todo ⟨((rk t p : Nat) : Int) - 1, some (ch t p)⟩
        ⟨(s.sa.set (bBeg t c1 + todo) (entA t (p + 1))).set (rk t p) (entB t p), b'⟩ fB' (by omega) k4 (fun c2 e => by injection e with e; omega) hstep
      refine ⟨s', fB'', f, ?_, m2, m3, m4⟩
      rw [hxr]
      exact m1
    · rw [if_neg hv]
      have hd := h.done hx (by
        by_cases h0 : x = 0
        · exact .inl h0
        · right
          by_cases hs : isS t (x - 1) = true
          · exact absurd (entB_pos.2 ⟨x - 1, by omega, hs⟩) hv
          · simpa using hs)
      rw [hxr] at hd ⊢
      exact scanB_ok hn hk hc1 todo cur _ fB (by omega) hb hcur hd

theorem scanBs_ok (hn : Small t) (hk : ∀ x, x < t.length → ch t x < 256) {a : List Int} (ha : Ak a (fun c => (start t c : Nat))) {fS : Nat → Nat → Int}
    (hS : ∀ x, x < 255 → fS x (x + 1) = (bBeg t x : Nat)) : ∀ (todo : Nat) (s : SaBB) (fB : Nat → Nat → Int), todo ≤ 255 → Bk s.b fB fS →
    (0 < todo → BInv t (todo - 1) (start t todo) s.sa fB) → (todo = 0 → s.sa.length = t.length ∧ ∀ x, isS t x = true → s.sa[rk t x]? = some (entA t x)) →
    ∃ s', scanBs t a todo s = .ok s' ∧ s'.sa.length = t.length ∧ ∀ x, isS t x = true → s'.sa[rk t x]? = some (entA t x)
  | 0, s, _, _, _, _, h => ⟨s, rfl, h rfl⟩
  | c1 + 1, s, fB, h255, hb, h, _ => by
    have h := h (by omega)
    rw [Nat.add_sub_cancel] at h
    have hle : bBeg t c1 ≤ start t (c1 + 1) := cnt_mono fun z _ hz => by rcases hz with k | k <;> omega
    obtain ⟨s1, fB1, f, h1, h2, h3, h4⟩ := scanB_ok hn hk (c1 := c1) (by omega) (start t (c1 + 1) - bBeg t c1) ⟨0, none⟩ s fB (by omega) hb
      (fun c2 e => by cases e) (by rw [show bBeg t c1 + (start t (c1 + 1) - bBeg t c1) = start t (c1 + 1) by omega]; exact h)
    unfold scanBs
    rw [hb.rdS (c0 := c1) (c1 := c1 + 1) (by omega) (by omega), hS c1 (by omega)]
    simp only [Bind.bind, Except.bind]
    rw [ha.rd (c := c1 + 1) (by omega)]
    simp only []
    rw [show (((start t (c1 + 1) : Nat) : Int) - (bBeg t c1 : Nat)).toNat = start t (c1 + 1) - bBeg t c1 by omega,
      show ((start t (c1 + 1) : Nat) : Int) - 1 = (bBeg t c1 : Nat) + ((start t (c1 + 1) - bBeg t c1 : Nat) : Int) - 1 by omega, h1]
    simp only []
    have hno : ∀ x, isS t x = true → start t c1 ≤ rk t x → bBeg t c1 ≤ rk t x := by
      intro x hx hr
      have hr' := rk_S_range hx
      rcases Nat.lt_trichotomy (ch t x) c1 with k | k | k
      · have := start_mono (t := t) (c := ch t x + 1) (d := c1) k; omega
      · rw [k] at hr'; exact hr'.1
      · have h5 := start_mono (t := t) (c := c1 + 1) (d := ch t x) k
        have h6 := (rk_range (t := t) (x := x) (by have := isS_lt hx; omega)).1
        omega
    have hsb : start t c1 ≤ bBeg t c1 := cnt_mono fun _ _ h => .inl h
    refine scanBs_ok hn hk ha hS c1 s1 fB1 (by omega) h2 (fun hc => h3.skip hsb (by omega) hno (fun c0 c1' k1 k2 => h4 c0 c1' (by omega))) (fun hc => ?_)
    subst hc
    have e0 : start t 0 = 0 := cnt_false fun z _ h => by omega
    have h5 := h3.skip (c' := 0) (f' := f) hsb (Nat.le_refl _) hno (fun _ _ _ _ => rfl)
    rw [e0] at h5
    refine ⟨h5.len, fun x hx => ?_⟩
    rcases S_cases hx with hs | hn'
    · rw [h5.star x hs, if_pos (Nat.zero_le _)]
    · rw [h5.nb x hn' (Nat.zero_le _), if_pos (Nat.zero_le _)]

theorem scanBs_all (hn : Small t) (hk : ∀ x, x < t.length → ch t x < 256) {a : List Int} (ha : Ak a (fun c => (start t c : Nat))) {s : SaBB}
    (h : Moved t s) : ∃ s', scanBs t a 255 s = .ok s' ∧ s'.sa.length = t.length ∧ ∀ x, isS t x = true → s'.sa[rk t x]? = some (entA t x) := by
  obtain ⟨⟨fB, fS, h1, h2, h3⟩, h4⟩ := h
  have hlow : ∀ x, isS t x = true → rk t x < start t 255 := by
    intro x hx
    have h5 := (rk_range (t := t) (x := x) (by have := isS_lt hx; omega)).2
    have := S_small hk hx
    have := start_mono (t := t) (c := ch t x + 1) (d := 255) (by omega)
    omega
  refine scanBs_ok hn hk ha h3 255 s fB (Nat.le_refl _) h1 (fun _ => ⟨h4.len, fun x hx => ?_, fun y hy hj => ?_, fun c0 c1 k0 k1 => ?_⟩) (fun h => by omega)
  · have := hlow x hx.1
    rw [if_neg (by omega)]
    exact h4.moved x hx (Nat.zero_le _)
  · have := hlow _ hy.2
    omega
  · rw [h2 c0 c1 (by omega) k0 (by omega), cnt_false (fun y _ hy => by have := hlow _ hy.1.1.2; omega)]
    simp

/-! ### From left to right -/

/-- The suffix is found before element `i` is scanned. -/
def Found (t : List Nat) (i y : Nat) : Prop := y + 1 = t.length ∨ (y + 1 < t.length ∧ rk t (y + 1) < i)

/-- The elements before `i` are scanned. `f` is where the next type A suffix before one of them
goes. -/
structure AInv (t : List Nat) (i : Nat) (sa : List Int) (f : Nat → Int) : Prop where
  len : sa.length = t.length
  s : ∀ x, isS t x = true → sa[rk t x]? = some (if rk t x < i then (x : Int) else entA t x)
  l : ∀ x, isL t x → Found t i x → sa[rk t x]? = some (if rk t x < i then (x : Int) else entA t x)
  ptr : ∀ c, c < 256 → f c = (start t c : Nat) + (cnt t.length (fun y => (isL t y ∧ ch t y = c) ∧ Found t i y) : Nat)

theorem found_self {x : Nat} (hx : isL t x) : Found t (rk t x) x := by
  by_cases he : x + 1 = t.length
  · exact .inl he
  · have := hx.1
    exact .inr ⟨by omega, rk_mono (by omega) (L_desc hx.2 hx.1)⟩

theorem AInv.get {x : Nat} {sa : List Int} {f : Nat → Int} (h : AInv t (rk t x) sa f) (hx : x < t.length) : sa[rk t x]? = some (entA t x) := by
  rcases L_or_S hx with hL | hS
  · rw [h.l x hL (found_self hL), if_neg (by omega)]
  · rw [h.s x hS, if_neg (by omega)]

theorem found_succ {x y : Nat} (hx : x < t.length) : Found t (rk t x + 1) y ↔ Found t (rk t x) y ∨ y + 1 = x := by
  unfold Found
  constructor
  · rintro (h | ⟨h1, h2⟩)
    · exact .inl (.inl h)
    · by_cases he : y + 1 = x
      · exact .inr he
      · have := rk_ne h1 hx he
        exact .inl (.inr ⟨h1, by omega⟩)
  · rintro ((h | h) | rfl)
    · exact .inl h
    · exact .inr ⟨h.1, by omega⟩
    · exact .inr ⟨hx, by omega⟩

/-- The suffix before is not of type A. -/
theorem AInv.done {x : Nat} {sa : List Int} {f : Nat → Int} (h : AInv t (rk t x) sa f) (hx : x < t.length) (hp : x = 0 ∨ isS t (x - 1) = true) :
    AInv t (rk t x + 1) (sa.set (rk t x) (x : Int)) f := by
  have hxl := rk_lt hx
  have hiff : ∀ y, isL t y → (Found t (rk t x + 1) y ↔ Found t (rk t x) y) := by
    intro y hy
    rw [found_succ hx]
    refine ⟨fun hh => hh.resolve_right ?_, .inl⟩
    rintro rfl
    rcases hp with hp | hp
    · omega
    · rw [Nat.add_sub_cancel, hy.2] at hp; cases hp
  have hget : ∀ y, y < t.length → sa[rk t y]? = some (if rk t y < rk t x then (y : Int) else entA t y) →
      (sa.set (rk t x) (x : Int))[rk t y]? = some (if rk t y < rk t x + 1 then (y : Int) else entA t y) := by
    intro y hy hh
    by_cases he : y = x
    · subst he
      rw [get_set_eq (by rw [h.len]; omega), if_pos (by omega)]
    · have hne := rk_ne hy hx he
      rw [get_set_ne (Ne.symm hne), hh]
      by_cases hlt : rk t y < rk t x
      · rw [if_pos hlt, if_pos (by omega)]
      · rw [if_neg hlt, if_neg (by omega)]
  refine ⟨by rw [List.length_set]; exact h.len, fun y hy => hget y (by have := isS_lt hy; omega) (h.s y hy),
    fun y hy hf => hget y hy.1 (h.l y hy ((hiff y hy).1 hf)), fun c hc => ?_⟩
  rw [h.ptr c hc]
  have : cnt t.length (fun y => (isL t y ∧ ch t y = c) ∧ Found t (rk t x) y) = cnt t.length (fun y => (isL t y ∧ ch t y = c) ∧ Found t (rk t x + 1) y) :=
    cnt_congr fun y _ => and_congr_right fun hh => (hiff y hh.1).symm
  rw [this]

theorem AInv.place {p : Nat} {sa : List Int} {f : Nat → Int} (h : AInv t (rk t (p + 1)) sa f) (hx : p + 1 < t.length) (hk : ch t p < 256)
    (hp : isS t p = false) : f (ch t p) = (rk t p : Nat) := by
  have hL : isL t p := ⟨by omega, hp⟩
  rw [h.ptr _ hk, rk_L hL rfl]
  have : cnt t.length (fun y => (isL t y ∧ ch t y = ch t p) ∧ Found t (rk t (p + 1)) y) =
      cnt t.length (fun y => (isL t y ∧ ch t y = ch t p) ∧ Lex (t.drop y) (t.drop p)) := by
    refine cnt_congr fun y hy => and_congr_right fun hh => ?_
    rw [drop_step hy (by omega) hh.2]
    unfold Found
    by_cases he : y + 1 = t.length
    · refine ⟨fun _ => ?_, fun _ => .inl he⟩
      rw [List.drop_eq_nil_of_le (by omega), drop_ch hx]
      trivial
    · rw [← rk_lt_iff (by omega) hx]
      exact ⟨fun hh => by omega, fun hh => .inr ⟨by omega, hh⟩⟩
  rw [this]
  omega

theorem AInv.step {p : Nat} {sa : List Int} {f : Nat → Int} (h : AInv t (rk t (p + 1)) sa f) (hx : p + 1 < t.length) (hk : ch t p < 256)
    (hp : isS t p = false) : AInv t (rk t (p + 1) + 1) (sa.set (rk t p) (entA t p)) (upd f (ch t p) ((rk t p : Nat) + 1)) := by
  have hL : isL t p := ⟨by omega, hp⟩
  have hlt := rk_mono hx (L_desc hp (by omega))
  have hpl := rk_lt (t := t) (x := p) (by omega)
  have hpt := h.place hx hk hp
  have hent : entA t (p + 1) = ((p + 1 : Nat) : Int) := by
    unfold entA
    rw [if_neg]
    simp [hp]
  have hget : ∀ y, y < t.length → y ≠ p → sa[rk t y]? = some (if rk t y < rk t (p + 1) then (y : Int) else entA t y) →
      (sa.set (rk t p) (entA t p))[rk t y]? = some (if rk t y < rk t (p + 1) + 1 then (y : Int) else entA t y) := by
    intro y hy hyp hh
    rw [get_set_ne (rk_ne (by omega) hy (Ne.symm hyp)), hh]
    by_cases he : y = p + 1
    · subst he
      rw [if_neg (by omega), if_pos (by omega), hent]
    · have hne := rk_ne hy hx he
      by_cases hlt : rk t y < rk t (p + 1)
      · rw [if_pos hlt, if_pos (by omega)]
      · rw [if_neg hlt, if_neg (by omega)]
  refine ⟨by rw [List.length_set]; exact h.len, fun y hy => hget y (by have := isS_lt hy; omega) (fun e => by rw [e, hp] at hy; cases hy) (h.s y hy),
    fun y hy hf => ?_, fun c hc => ?_⟩
  · by_cases hyp : y = p
    · subst hyp
      rw [get_set_eq (by rw [h.len]; omega), if_neg (by omega)]
    · refine hget y hy.1 hyp (h.l y hy ?_)
      rcases (found_succ hx).1 hf with k | k
      · exact k
      · omega
  · unfold upd
    by_cases he : c = ch t p
    · subst he
      rw [if_pos rfl, ← hpt, h.ptr _ hc]
      have : cnt t.length (fun y => (isL t y ∧ ch t y = ch t p) ∧ Found t (rk t (p + 1) + 1) y) =
          cnt t.length (fun y => (isL t y ∧ ch t y = ch t p) ∧ Found t (rk t (p + 1)) y) + 1 := by
        refine cnt_add_one (show p < t.length by omega) (fun y _ => ?_) (fun hh => by unfold Found at hh; omega)
        rw [found_succ hx]
        constructor
        · rintro ⟨k1, k2 | k2⟩
          · exact .inl ⟨k1, k2⟩
          · exact .inr (by omega)
        · rintro (k | rfl)
          · exact ⟨k.1, .inl k.2⟩
          · exact ⟨⟨hL, rfl⟩, .inr rfl⟩
      rw [this]
      omega
    · rw [if_neg he, h.ptr c hc]
      have : cnt t.length (fun y => (isL t y ∧ ch t y = c) ∧ Found t (rk t (p + 1) + 1) y) =
          cnt t.length (fun y => (isL t y ∧ ch t y = c) ∧ Found t (rk t (p + 1)) y) := by
        refine cnt_congr fun y _ => and_congr_right fun hh => ?_
        rw [found_succ hx]
        refine ⟨fun k => k.resolve_right (fun e => ?_), .inl⟩
        have : y = p := by omega
        subst this
        exact he hh.2.symm
      rw [this]

theorem entA_pos {x : Nat} : 0 < entA t x ↔ ∃ p, x = p + 1 ∧ isS t p = false := by
  unfold entA inv
  constructor
  · intro h
    by_cases hc : x = 0 ∨ isS t (x - 1) = true
    · rw [if_pos hc] at h
      omega
    · rw [if_neg hc] at h
      exact ⟨x - 1, by omega, by by_cases hs : isS t (x - 1) = true
                                 · exact absurd (.inr hs) hc
                                 · simpa using hs⟩
  · rintro ⟨p, rfl, hp⟩
    rw [if_neg (by simp [hp])]
    omega

theorem entA_value {p : Nat} (hp : isL t p) :
    ∃ pred, firstOrSmallerBefore t p (ch t p) = .ok pred ∧
      (if pred = true then inv p else (p : Int)) = entA t p := by
  have hl := hp.1
  unfold firstOrSmallerBefore
  cases p with
  | zero => exact ⟨true, rfl, rfl⟩
  | succ q =>
    rw [if_neg (by omega), Nat.add_sub_cancel, rd_ch (by omega)]
    refine ⟨_, rfl, ?_⟩
    have hb := isS_before_L hl hp.2
    unfold entA
    by_cases h : ch t q < ch t (q + 1)
    · rw [if_pos (decide_eq_true h), if_pos (.inr (hb.2 h))]
    · rw [if_neg (by simpa using h), if_neg]
      rintro (hh | hh)
      · omega
      · exact h (hb.1 hh)

theorem scanAStep_ok (hn : Small t) (hk : ∀ x, x < t.length → ch t x < 256) (i : Nat) (s : SaA) (hi : i < t.length)
    (h : ∃ f, Ak s.a f ∧ s.c2 < 256 ∧ AInv t i s.sa (upd f s.c2 s.k)) :
    ∃ s', scanAStep t i s = .ok s' ∧ ∃ f, Ak s'.a f ∧ s'.c2 < 256 ∧ AInv t (i + 1) s'.sa (upd f s'.c2 s'.k) := by
  obtain ⟨x, hx, rfl⟩ := rk_surj hi
  obtain ⟨f, h1, h2, h3⟩ := h
  have hg := h3.get hx
  unfold scanAStep
  rw [rd_ok hg]
  simp only [Bind.bind, Except.bind]
  by_cases hv : 0 < entA t x
  · rw [if_pos hv]
    obtain ⟨p, rfl, hp⟩ := entA_pos.1 hv
    have hL : isL t p := ⟨by omega, hp⟩
    have hc := hk p (by omega)
    have hve : entA t (p + 1) = ((p + 1 : Nat) : Int) := by unfold entA; rw [if_neg (by simp [hp])]
    have hpv : (entA t (p + 1)).toNat - 1 = p := by omega
    rw [hpv, rd_ch (by omega)]
    simp only []
    obtain ⟨pred, k1, k2⟩ := entA_value hL
    rw [k1]
    simp only []
    have hpl := h3.place hx hc hp
    have hstep := h3.step hx hc hp
    have hst : st s.sa (rk t p) (entA t p) = .ok (s.sa.set (rk t p) (entA t p)) :=
      st_ok (entA_range hn (by omega)) (by rw [h3.len]; exact rk_lt (by omega))
    by_cases he : ch t p = s.c2
    · rw [loadA, if_pos he]
      simp only []
      rw [he] at hpl hstep
      have hkk : s.k = (rk t p : Nat) := by
        rw [← hpl]
        unfold upd
        rw [if_pos rfl]
      rw [hkk, idx_nat]
      simp only []
      rw [k2, hst]
      refine ⟨_, rfl, f, h1, h2, ?_⟩
      have e : upd (upd f s.c2 s.k) s.c2 ((rk t p : Nat) + 1) = upd f s.c2 ((rk t p : Nat) + 1) := by
        funext c
        unfold upd
        by_cases hh : c = s.c2
        · rw [if_pos hh, if_pos hh]
        · rw [if_neg hh, if_neg hh, if_neg hh]
      rw [e] at hstep
      exact hstep
    · rw [loadA, if_neg he]
      obtain ⟨a', m1, m2⟩ := h1.wr h2 s.k
      simp only [Bind.bind, Except.bind]
      rw [m1]
      simp only []
      rw [m2.rd hc]
      simp only []
      rw [hpl, idx_nat]
      simp only []
      rw [k2, hst]
      exact ⟨_, rfl, _, m2, hc, hstep⟩
  · rw [if_neg hv]
    have hp : x = 0 ∨ isS t (x - 1) = true := by
      by_cases h0 : x = 0
      · exact .inl h0
      · right
        by_cases hs : isS t (x - 1) = true
        · exact hs
        · exact absurd (entA_pos.2 ⟨x - 1, by omega, by simpa using hs⟩) hv
    have hve : inv (entA t x) = (x : Int) := by
      unfold entA
      rw [if_pos hp, inv_inv]
    rw [hve, st_ok (range_of hn (by omega) (by omega)) (by rw [h3.len]; exact rk_lt hx)]
    exact ⟨_, rfl, f, h1, h2, h3.done hx hp⟩

theorem scanA_ok (hn : Small t) (hk : ∀ x, x < t.length → ch t x < 256) (h2 : 2 ≤ t.length) {a sa : List Int} (ha : Ak a (fun c => (start t c : Nat)))
    (hl : sa.length = t.length) (hs : ∀ x, isS t x = true → sa[rk t x]? = some (entA t x)) : ∃ sa', scanA t a sa = .ok sa' ∧ IsSa t sa' := by
  have hlast : isL t (t.length - 1) := ⟨by omega, isS_last (by omega)⟩
  have hr : rk t (t.length - 1) = start t (ch t (t.length - 1)) := by
    rw [rk_L hlast rfl, cnt_false, Nat.add_zero]
    rintro z hz ⟨hh, hlex⟩
    rw [drop_step hz (by omega) hh.2, List.drop_eq_nil_of_le (i := t.length - 1 + 1) (by omega)] at hlex
    exact lex_nil _ hlex
  have hrl := rk_lt (t := t) (x := t.length - 1) (by omega)
  have hval : (if ch t (t.length - 2) < ch t (t.length - 1) then inv ((t.length - 1 : Nat) : Int) else ((t.length - 1 : Nat) : Int)) = entA t (t.length - 1) := by
    have hb := isS_before_L (t := t) (y := t.length - 2) (by omega) (by rw [show t.length - 2 + 1 = t.length - 1 by omega]; exact hlast.2)
    rw [show t.length - 2 + 1 = t.length - 1 by omega] at hb
    unfold entA
    rw [show t.length - 1 - 1 = t.length - 2 by omega]
    by_cases h : ch t (t.length - 2) < ch t (t.length - 1)
    · rw [if_pos h, if_pos (.inr (hb.2 h))]
    · rw [if_neg h, if_neg]
      rintro (hh | hh)
      · omega
      · exact h (hb.1 hh)
  have hini : AInv t 0 (sa.set (rk t (t.length - 1)) (entA t (t.length - 1))) (upd (fun c => (start t c : Nat)) (ch t (t.length - 1)) ((start t (ch t (t.length - 1)) : Nat) + 1)) := by
    have hf : ∀ y, y < t.length → (Found t 0 y ↔ y = t.length - 1) := by
      intro y hy
      unfold Found
      omega
    refine ⟨by rw [List.length_set]; exact hl, fun x hx => ?_, fun x hx hf' => ?_, fun c hc => ?_⟩
    · have hxl := isS_lt hx
      rw [get_set_ne (rk_ne (by omega) (by omega) (by omega)), if_neg (by omega)]
      exact hs x hx
    · have := (hf x hx.1).1 hf'
      subst this
      rw [get_set_eq (by rw [hl]; omega), if_neg (by omega)]
    · unfold upd
      by_cases he : c = ch t (t.length - 1)
      · subst he
        rw [if_pos rfl]
        have : cnt t.length (fun y => (isL t y ∧ ch t y = ch t (t.length - 1)) ∧ Found t 0 y) = cnt t.length (fun y => y = t.length - 1) :=
          cnt_congr fun y hy => by
            rw [hf y hy]
            exact ⟨And.right, fun e => ⟨by rw [e]; exact ⟨hlast, rfl⟩, e⟩⟩
        rw [this, cnt_eq, if_pos (by omega)]
        rfl
      · rw [if_neg he, cnt_false]
        · simp
        · rintro y hy ⟨hh, hh'⟩
          have := (hf y hy).1 hh'
          subst this
          exact he hh.2.symm
  obtain ⟨s', h3, f, _, _, h4⟩ := upLoop_inv (step := scanAStep t) (n := t.length)
    (fun i s => ∃ f, Ak s.a f ∧ s.c2 < 256 ∧ AInv t i s.sa (upd f s.c2 s.k)) (scanAStep_ok hn hk) t.length 0
    ⟨sa.set (rk t (t.length - 1)) (entA t (t.length - 1)), a, (start t (ch t (t.length - 1)) : Nat) + 1, ch t (t.length - 1)⟩ (by omega)
    ⟨_, ha, hk _ (by omega), hini⟩
  refine ⟨s'.sa, ?_, h4.len, rk t, fun x hx => ⟨rk_lt hx, ?_⟩, fun x y hx _ => rk_mono hx⟩
  · unfold scanA
    rw [rd_ch (by omega)]
    simp only [Bind.bind, Except.bind]
    rw [rd_ch (by omega)]
    simp only []
    rw [ha.rd (hk _ (by omega))]
    simp only []
    rw [idx_nat]
    simp only []
    rw [hval, ← hr, st_ok (entA_range hn (by omega)) (by rw [hl]; omega)]
    simp only []
    rw [hr] at h3 ⊢
    rw [h3]
  · have hlt := rk_lt hx
    rcases L_or_S hx with hL | hS
    · rw [h4.l x hL, if_pos hlt]
      by_cases he : x + 1 = t.length
      · exact .inl he
      · exact .inr ⟨by omega, rk_lt (by omega)⟩
    · rw [h4.s x hS, if_pos hlt]

end Dss
end Detools
