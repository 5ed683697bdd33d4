import Verif.Proofs.DssSs
import Verif.Proofs.DssMain
/-
divsufsort: the ranks of the B* suffixes.
-/
namespace Detools
namespace Dss
open Sais

variable {t : List Nat}

/-- One less than the number of B* positions with a substring that is not greater. -/
noncomputable def nameOf (t : List Nat) (x : Nat) : Nat := cnt t.length (fun y => star t y ∧ ¬ Lex (sub t x) (sub t y)) - 1

theorem nameOf_pos {x : Nat} (hx : star t x) : 0 < cnt t.length (fun y => star t y ∧ ¬ Lex (sub t x) (sub t y)) :=
  cnt_pos (a := x) (by have := star_lt hx; omega) ⟨hx, Lex.irrefl _⟩

theorem nameOf_lt {x y : Nat} (hx : star t x) (hy : star t y) (h : Lex (sub t x) (sub t y)) : nameOf t x < nameOf t y := by
  have h1 := nameOf_pos hx
  have := cnt_lt (n := t.length) (p := fun z => star t z ∧ ¬ Lex (sub t x) (sub t z)) (q := fun z => star t z ∧ ¬ Lex (sub t y) (sub t z))
    (fun z _ hz => ⟨hz.1, fun k => hz.2 (h.trans k)⟩) (a := y) (by have := star_lt hy; omega) ⟨hy, Lex.irrefl _⟩ (fun k => k.2 h)
  unfold nameOf
  omega

theorem nameOf_eq {x y : Nat} (h : sub t x = sub t y) : nameOf t x = nameOf t y := by
  unfold nameOf
  rw [h]

noncomputable def names (t : List Nat) : List Nat := (bStars t).map (nameOf t)

theorem names_length : (names t).length = nStar t := by rw [names, List.length_map, bStars_length]

theorem names_get {x : Nat} (hx : star t x) : (names t)[sNo t x]? = some (nameOf t x) := by
  rw [names, List.getElem?_map, bStars_get hx]
  rfl

theorem names_ch {x : Nat} (hx : star t x) : ch (names t) (sNo t x) = nameOf t x := by
  have := ch_get (t := names t) (x := sNo t x) (by rw [names_length]; exact sNo_lt hx)
  rw [names_get hx] at this
  injection this with this
  exact this.symm

theorem names_names : Names t (names t) :=
  ⟨names_length, fun x y hx hy h => by rw [names_ch hx, names_ch hy]; exact nameOf_lt hx hy h,
    fun x y hx hy h => by rw [names_ch hx, names_ch hy]; exact nameOf_eq h⟩

/-- The suffix array after all calls of `sssort`: `X` is the B* positions in order. -/
structure Ordered (t : List Nat) (sa : List Int) (X : Nat → Nat) : Prop where
  star : ∀ q, q < nStar t → star t (X q)
  inj : ∀ p q, p < nStar t → q < nStar t → X p = X q → p = q
  surj : ∀ x, Dss.star t x → ∃ q, q < nStar t ∧ X q = x
  le : ∀ q, q + 1 < nStar t → ¬ Lex (sub t (X (q + 1))) (sub t (X q))
  val : ∀ q, q < nStar t → sa[q]? = some (if 0 < q ∧ sub t (X (q - 1)) = sub t (X q) then inv (sNo t (X q) : Int) else (sNo t (X q) : Int))

theorem not_lex_trans {a b c : List Nat} (h1 : ¬ Lex b a) (h2 : ¬ Lex c b) : ¬ Lex c a := by
  intro h
  rcases Lex.tri a b with k | k | k
  · exact h2 (h.trans k)
  · rw [k] at h; exact h2 h
  · exact h1 k

theorem ordered_of {sa : List Int} (h : ∀ x, star t x → BDone t sa (ch t x) (ch t (x + 1))) : ∃ X, Ordered t sa X := by
  have hex : ∀ x, ∃ q, star t x → At t sa q x ∧ jAt t (ch t x) (ch t (x + 1)) ≤ q ∧ q < sEnd t (ch t x) (ch t (x + 1)) := by
    intro x
    by_cases hx : star t x
    · obtain ⟨q, h1⟩ := (h x hx).at' x hx ⟨rfl, rfl⟩
      exact ⟨q, fun _ => h1⟩
    · exact ⟨0, fun k => absurd k hx⟩
  obtain ⟨f, hf⟩ := Classical.axiomOfChoice hex
  have hlt : ∀ x, star t x → f x < nStar t := fun x hx => by
    have := (hf x hx).2.2
    have := sEnd_le (t := t) (ch t x) (ch t (x + 1))
    omega
  have hfi : ∀ x y, star t x → star t y → f x = f y → x = y := fun x y hx hy he => by
    have h1 := (hf x hx).1
    rw [he] at h1
    exact h1.unique (hf y hy).1
  have hsurj : ∀ q, ∃ x, q < nStar t → star t x ∧ f x = q := by
    intro q
    by_cases hq : q < nStar t
    · obtain ⟨x, _, hx, e⟩ := image_surj (n := t.length) (p := star t) (f := f) (fun x _ hx => hlt x hx) (fun x y _ _ hx hy => hfi x y hx hy) hq
      exact ⟨x, fun _ => ⟨hx, e⟩⟩
    · exact ⟨0, fun k => absurd k hq⟩
  obtain ⟨X, hX⟩ := Classical.axiomOfChoice hsurj
  -- neighbours are in the same bucket or differ
  have hstep : ∀ q, q + 1 < nStar t → ¬ Lex (sub t (X (q + 1))) (sub t (X q)) ∧
      sa[q + 1]? = some (if sub t (X q) = sub t (X (q + 1)) then inv (sNo t (X (q + 1)) : Int) else (sNo t (X (q + 1)) : Int)) := by
    intro q hq
    obtain ⟨hx, ex⟩ := hX q (by omega)
    obtain ⟨hy, ey⟩ := hX (q + 1) hq
    obtain ⟨ax, bx, cx⟩ := hf _ hx
    obtain ⟨ay, by', cy⟩ := hf _ hy
    rw [ex] at ax bx cx
    rw [ey] at ay by' cy
    generalize X q = x at *
    generalize X (q + 1) = y at *
    by_cases hp : ch t x = ch t y ∧ ch t (x + 1) = ch t (y + 1)
    · rw [hp.1, hp.2] at bx
      have := (h y hy).next q x y bx cy ax ay
      refine ⟨this.1, ?_⟩
      rw [this.2]
    · have hd : sEnd t (ch t x) (ch t (x + 1)) ≤ jAt t (ch t y) (ch t (y + 1)) := by
        rcases pair_disj (t := t) hp with k | k
        · exact k
        · omega
      have hj : jAt t (ch t y) (ch t (y + 1)) = q + 1 := by omega
      have hv := (h y hy).first y (by rw [hj]; exact ay) (by omega)
      rw [hj] at hv
      have hpl : ch t x < ch t y ∨ (ch t x = ch t y ∧ ch t (x + 1) < ch t (y + 1)) := by
        by_cases hgt : ch t x < ch t y ∨ (ch t x = ch t y ∧ ch t (x + 1) < ch t (y + 1))
        · exact hgt
        · have : sEnd t (ch t y) (ch t (y + 1)) ≤ jAt t (ch t x) (ch t (x + 1)) := by
            refine cnt_mono fun z _ hz => ⟨hz.1, ?_⟩
            rcases hz.2 with k | k <;> omega
          omega
      have s1 := sub_two hx
      have s2 := sub_two hy
      have hlex : Lex (sub t x) (sub t y) := by
        have e1 : sub t x = ch t x :: ch t (x + 1) :: (sub t x).drop 2 := by
          conv => lhs; rw [← List.take_append_drop 2 (sub t x), s1]
          rfl
        have e2 : sub t y = ch t y :: ch t (y + 1) :: (sub t y).drop 2 := by
          conv => lhs; rw [← List.take_append_drop 2 (sub t y), s2]
          rfl
        rw [e1, e2, lex_cons, lex_cons]
        omega
      refine ⟨hlex.asymm, ?_⟩
      rw [hv, if_neg (fun e => by rw [e] at hlex; exact Lex.irrefl _ hlex)]
  refine ⟨X, fun q hq => (hX q hq).1, fun p q hp hq he => ?_, fun x hx => ⟨f x, hlt x hx, ?_⟩, fun q hq => (hstep q hq).1, fun q hq => ?_⟩
  · rw [← (hX p hp).2, ← (hX q hq).2, he]
  · obtain ⟨h1, h2⟩ := hX (f x) (hlt x hx)
    exact hfi _ _ h1 hx h2
  · match q, hq with
    | 0, hq =>
      rw [if_neg (by omega)]
      obtain ⟨hx, ex⟩ := hX 0 hq
      obtain ⟨ax, bx, cx⟩ := hf _ hx
      rw [ex] at ax bx cx
      have hj : jAt t (ch t (X 0)) (ch t (X 0 + 1)) = 0 := by omega
      have := (h _ hx).first (X 0) (by rw [hj]; exact ax) (by omega)
      rw [hj] at this
      exact this
    | q + 1, hq =>
      rw [(hstep q hq).2]
      simp

open Classical in
/-- Where the groups start. -/
noncomputable def heads (t : List Nat) (X : Nat → Nat) (q : Nat) : Bool := decide (¬ (0 < q ∧ sub t (X (q - 1)) = sub t (X q)))

theorem heads_false {X : Nat → Nat} {q : Nat} : heads t X (q + 1) = false ↔ sub t (X q) = sub t (X (q + 1)) := by
  unfold heads
  rw [decide_eq_false_iff_not]
  simp

theorem Ordered.mono {sa : List Int} {X : Nat → Nat} (h : Ordered t sa X) : ∀ (d p : Nat), p + d < nStar t → ¬ Lex (sub t (X (p + d))) (sub t (X p))
  | 0, _, _ => Lex.irrefl _
  | d + 1, p, hp => not_lex_trans (h.mono d p (by omega)) (h.le (p + d) hp)

theorem Ordered.grouped {sa : List Int} {X : Nat → Nat} (h : Ordered t sa X) :
    Grouped (nStar t) (fun q => sNo t (X q)) (heads t X) (fun q => nameOf t (X q)) := by
  refine ⟨fun q hq => sNo_lt (h.star q hq), fun p q hp hq he => h.inj p q hp hq (sNo_inj (h.star p hp) (h.star q hq) he), ?_, fun q hq hh => ?_, fun q hq hh => ?_⟩
  · unfold heads; exact decide_eq_true (fun k => by omega)
  · exact nameOf_eq (heads_false.1 hh)
  · show nameOf t (X q) = q
    have hc : cnt t.length (fun y => Dss.star t y ∧ ¬ Lex (sub t (X q)) (sub t y)) = cnt (nStar t) (fun p => p ≤ q) := by
      rw [← cnt_image (n := nStar t) (p := fun p => p ≤ q) (f := X) (m := t.length) (fun p hp _ => by have := star_lt (h.star p hp); omega)
        (fun p p' hp hp' _ _ => h.inj p p' hp hp')]
      refine cnt_congr fun y _ => ⟨fun ⟨hy, hl⟩ => ?_, ?_⟩
      · obtain ⟨p, hp, rfl⟩ := h.surj y hy
        refine ⟨p, hp, ?_, rfl⟩
        by_cases hle : p ≤ q
        · exact hle
        · exfalso
          rcases hh with hh | hh
          · omega
          · have hne : sub t (X q) ≠ sub t (X (q + 1)) := fun e => by rw [heads_false.2 e] at hh; cases hh
            have h1 := h.le q (by omega)
            have h2 := h.mono (p - (q + 1)) (q + 1) (by omega)
            rw [show q + 1 + (p - (q + 1)) = p by omega] at h2
            rcases Lex.tri (sub t (X q)) (sub t (X (q + 1))) with k | k | k
            · rcases Lex.tri (sub t (X (q + 1))) (sub t (X p)) with k' | k' | k'
              · exact hl (k.trans k')
              · rw [k'] at k; exact hl k
              · exact h2 k'
            · exact hne k
            · exact h1 k
      · rintro ⟨p, hp, hle, rfl⟩
        refine ⟨h.star p hp, ?_⟩
        have := h.mono (q - p) p (by omega)
        rw [show p + (q - p) = q by omega] at this
        exact this
    have hq' : cnt (nStar t) (fun p => p ≤ q) = q + 1 := by
      have := cnt_below (n := nStar t) (i := q + 1) (p := fun _ => True) (by omega)
      rw [cnt_true (n := q + 1) (fun _ _ => trivial)] at this
      rw [← this]
      exact cnt_congr fun x _ => ⟨fun k => ⟨trivial, by omega⟩, fun k => by omega⟩
    unfold nameOf
    omega

theorem Ordered.code {sa : List Int} {X : Nat → Nat} (h : Ordered t sa X) {q : Nat} (hq : q < nStar t) :
    sa[q]? = some (code (fun q => sNo t (X q)) (heads t X) q) := by
  rw [h.val q hq]
  unfold Dss.code heads
  by_cases hc : 0 < q ∧ sub t (X (q - 1)) = sub t (X q)
  · rw [if_pos hc, if_neg (by rw [decide_eq_true_iff]; exact fun k => k hc)]
  · rw [if_neg hc, if_pos (by rw [decide_eq_true_iff]; exact hc)]

theorem names_at {X : Nat → Nat} {sa : List Int} (h : Ordered t sa X) {s p : Nat} : (names t)[s]? = some p ↔ ∃ q, q < nStar t ∧ s = sNo t (X q) ∧ nameOf t (X q) = p := by
  constructor
  · intro hs
    have hl := (List.getElem?_eq_some_iff.1 hs).1
    rw [names_length] at hl
    obtain ⟨x, hx, rfl⟩ := sNo_surj hl
    obtain ⟨q, hq, rfl⟩ := h.surj x hx
    rw [names_get hx] at hs
    injection hs with hs
    exact ⟨q, hq, rfl, hs⟩
  · rintro ⟨q, hq, rfl, e⟩
    rw [names_get (h.star q hq), e]

theorem Ordered.groups {sa sa' : List Int} {X : Nat → Nat} (h : Ordered t sa X) {q : Nat}
    (hg : Gr (nStar t) (fun q => sNo t (X q)) (heads t X) (fun q => nameOf t (X q)) sa' q) : TrGroups (names t) sa' q := by
  have g := h.grouped
  induction hg with
  | done =>
    have := TrGroups.done (w := names t) (sa := sa')
    rwa [names_length] at this
  | sorted q n h1 h2 h3 h4 _ ih =>
    refine .sorted q n h1 h3 (fun p k1 k2 => ⟨sNo t (X p), fun s => ?_⟩) ih
    rw [names_at h]
    constructor
    · rintro ⟨p', hp', rfl, e⟩
      have a := g.ge _ p' (Nat.le_refl _) hp'
      have a1 : p' ≤ nameOf t (X p') := a.1
      by_cases hlt : p' < p
      · have b := g.before (e := p) (by omega) (.inr (h4 p k1 k2).1) _ p' (Nat.le_refl _) hlt
        have b1 : nameOf t (X p') < p := b
        omega
      · have : p' = p := by omega
        rw [this]
    · rintro rfl
      exact ⟨p, by omega, rfl, (h4 p k1 k2).2⟩
  | group q e h1 h2 h3 h4 _ ih =>
    refine .group q e ((List.range (e + 1 - q)).map fun d => sNo t (X (q + d))) h1 ?_ ?_ (fun s => ?_) ih
    · apply List.ext_getElem?
      intro d
      by_cases hd : d < e + 1 - q
      · rw [List.getElem?_take, if_pos hd, List.getElem?_drop, (h4 (q + d) (by omega) (by omega)).1, List.getElem?_map, List.getElem?_map,
          List.getElem?_range hd]
        rfl
      · rw [List.getElem?_take, if_neg hd, List.getElem?_map, List.getElem?_map, List.getElem?_eq_none (by rw [List.length_range]; omega)]
        rfl
    · refine List.pairwise_iff_getElem.2 fun d d' hd hd' hlt he => ?_
      rw [List.length_map, List.length_range] at hd hd'
      rw [List.getElem_map, List.getElem_map, List.getElem_range, List.getElem_range] at he
      have := g.inj (q + d) (q + d') (by omega) (by omega) he
      omega
    · rw [names_at h, List.mem_map]
      constructor
      · rintro ⟨d, hd, rfl⟩
        rw [List.mem_range] at hd
        exact ⟨q + d, by omega, rfl, (h4 (q + d) (by omega) (by omega)).2⟩
      · rintro ⟨p, hp, rfl, he⟩
        have a := g.ge _ p (Nat.le_refl _) hp
        have a1 : p ≤ nameOf t (X p) := a.1
        by_cases hlt : p < q
        · have b := g.before (e := q) (by omega) (.inr h3) _ p (Nat.le_refl _) hlt
          have b1 : nameOf t (X p) < q := b
          omega
        · refine ⟨p - q, by rw [List.mem_range]; omega, ?_⟩
          rw [show q + (p - q) = p by omega]

theorem sortStars_names {o : Sorters} (h1 : SsSorts o) (h2 : ∀ sa, TrGiven (names t) sa → ∃ sa', o.tr (names t).length sa = .ok sa' ∧ sa'.length = sa.length ∧
      (sa'.drop (names t).length).take (names t).length =
        (List.range (names t).length).map fun r => Int.ofNat ((List.range (names t).length).filter fun s => decide ((names t).drop s < (names t).drop r)).length) (hn : Small t) (hk : ∀ c, c ∈ t → c < 256) (hk' : ∀ x, x < t.length → ch t x < 256) :
    SortsStars o t := by
  intro s hpos hs
  have h2m := nStar_le (t := t)
  obtain ⟨sa1, k1, k2, k3⟩ := ss_ok h1 hn hk hk' hs
  obtain ⟨X, hX⟩ := ordered_of k3
  obtain ⟨sa2, k4, k5, k6⟩ := rankLoop_ok hX.grouped h2m hn (nStar t) (nStar t) sa1 (Nat.le_refl _) (Nat.le_refl _)
    ⟨k2, fun q hq => hX.code hq, fun q q1 q2 => by omega⟩ (.inl rfl) .done
  have hgiven : TrGiven (names t) sa2 := by
    refine ⟨by rw [names_length, k5.len]; exact ⟨h2m, hn⟩, ?_, fun r hr => ?_, by rw [names_length]; exact hpos, hX.groups k6⟩
    · rw [names_length]
      apply List.ext_getElem?
      intro d
      by_cases hd : d < nStar t
      · obtain ⟨x, hx, rfl⟩ := sNo_surj hd
        obtain ⟨q, hq, rfl⟩ := hX.surj x hx
        rw [List.getElem?_take, if_pos hd, List.getElem?_drop, List.getElem?_map, names_get hx]
        exact k5.isa q (Nat.zero_le _) hq
      · rw [List.getElem?_take, if_neg hd, List.getElem?_map, List.getElem?_eq_none (by rw [names_length]; omega)]
        rfl
    · rw [names_length] at hr ⊢
      obtain ⟨x, hx, e1⟩ := sNo_surj (t := t) (r := r) (by omega)
      obtain ⟨y, hy, e2⟩ := sNo_surj (t := t) (r := nStar t - 1) (by omega)
      rw [← e1, ← e2, names_get hx, names_get hy]
      intro he
      injection he with he
      have hne := sub_last_ne hy hx (by omega) (fun e => by rw [e] at e1; omega)
      rcases Lex.tri (sub t x) (sub t y) with k | k | k
      · have := nameOf_lt hx hy k; omega
      · exact hne k
      · have := nameOf_lt hy hx k; omega
  obtain ⟨sa3, m1, m2, m3⟩ := h2 _ hgiven
  rw [names_length] at m1
  refine ⟨sa3, ?_, by rw [m2, k5.len], fun x hx => ?_⟩
  · unfold sortStars
    rw [k1]
    simp only [Bind.bind, Except.bind]
    rw [k4]
    exact m1
  · have hlt := sNo_lt hx
    have := congrArg (fun l => l[sNo t x]?) m3
    simp only [names_length] at this
    rw [List.getElem?_take, if_pos hlt, List.getElem?_drop, List.getElem?_map, List.getElem?_range hlt] at this
    rw [this]
    have e := names_rank (names_names (t := t)) hx
    rw [names_length] at e
    simp only [Option.map_some, e]
    rfl

theorem sortStars_ok {o : Sorters} (h1 : SsSorts o) (h2 : TrSorts o) (hn : Small t) (hk : ∀ c, c ∈ t → c < 256) (hk' : ∀ x, x < t.length → ch t x < 256) :
    SortsStars o t :=
  sortStars_names h1 (h2 _) hn hk hk'

/-- A name is that of one substring. -/
theorem names_sub {r s : Nat} (hr : r < nStar t) (hs : s < nStar t) (he : (names t)[r]? = (names t)[s]?) : bStarSub t r = bStarSub t s := by
  obtain ⟨x, hx, rfl⟩ := sNo_surj hr
  obtain ⟨y, hy, rfl⟩ := sNo_surj hs
  rw [names_get hx, names_get hy] at he
  injection he with he
  show sub t x = sub t y
  rcases Lex.tri (sub t x) (sub t y) with k | k | k
  · have := nameOf_lt hx hy k; omega
  · exact k
  · have := nameOf_lt hy hx k; omega

/-- A name occurs as often as its substring. -/
theorem names_count (v : Nat) : ∃ x, (names t).count v ≤ (bStarSubs t).count x := by
  by_cases hv : v ∈ names t
  · obtain ⟨r, hr⟩ := List.getElem?_of_mem hv
    have hrl := (List.getElem?_eq_some_iff.1 hr).1
    rw [names_length] at hrl
    refine ⟨bStarSub t r, ?_⟩
    have hw : names t = (List.range (nStar t)).map (fun i => (names t)[i]?.getD 0) := by
      apply List.ext_getElem
      · simp [names_length]
      · intro i h1 h2
        simp [h1]
    conv => lhs; rw [hw]
    rw [List.count_eq_countP, List.countP_map, bStarSubs, List.count_eq_countP, List.countP_map, bStars_length]
    refine List.countP_mono_left fun s hs he => ?_
    have hs := List.mem_range.1 hs
    have hsl : s < (names t).length := by rw [names_length]; exact hs
    simp only [Function.comp, List.getElem?_eq_getElem hsl, Option.getD_some, beq_iff_eq] at he ⊢
    exact names_sub hs hrl (by rw [hr, List.getElem?_eq_getElem hsl, he])
  · exact ⟨[], by rw [List.count_eq_zero.2 hv]; exact Nat.zero_le _⟩

end Dss
end Detools
