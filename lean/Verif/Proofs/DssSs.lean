import Verif.Proofs.DssRank
/-
divsufsort: the B* substrings, bucket by bucket.
-/
namespace Detools
namespace Dss
open Sais

variable {t : List Nat}

/-- The number of the B* position is at an index, maybe complemented. -/
def At (t : List Nat) (sa : List Int) (q x : Nat) : Prop := star t x ∧ (sa[q]? = some (sNo t x : Int) ∨ sa[q]? = some (inv (sNo t x : Int)))

theorem At.unique {sa : List Int} {q x y : Nat} (hx : At t sa q x) (hy : At t sa q y) : x = y := by
  refine sNo_inj hx.1 hy.1 ?_
  rcases hx.2 with h1 | h1 <;> rcases hy.2 with h2 | h2 <;> rw [h1] at h2 <;> injection h2 with h2
  all_goals (try unfold inv at h2)
  all_goals omega

theorem At.of {sa : List Int} {q x s : Nat} {p : Prop} [Decidable p] (hx : At t sa q x) (h : sa[q]? = some (if p then -(s : Int) - 1 else (s : Int))) : s = sNo t x := by
  by_cases hp : p
  · rw [if_pos hp] at h
    rcases hx.2 with h1 | h1 <;> rw [h1] at h <;> injection h with h
    all_goals (try unfold inv at h)
    all_goals omega
  · rw [if_neg hp] at h
    rcases hx.2 with h1 | h1 <;> rw [h1] at h <;> injection h with h
    all_goals (try unfold inv at h)
    all_goals omega

theorem At.mk' {sa : List Int} {q x : Nat} {p : Prop} [Decidable p] (hx : star t x) (h : sa[q]? = some (if p then -(sNo t x : Int) - 1 else (sNo t x : Int))) :
    At t sa q x := by
  by_cases hp : p
  · rw [if_pos hp] at h; exact ⟨hx, .inr h⟩
  · rw [if_neg hp] at h; exact ⟨hx, .inl h⟩

/-- A bucket before it is sorted. -/
structure BTodo (t : List Nat) (sa : List Int) (c0 c1 : Nat) : Prop where
  at' : ∀ x, star t x → Pair t c0 c1 x → ∃ q, sa[q]? = some (sNo t x : Int) ∧ jAt t c0 c1 ≤ q ∧ q < sEnd t c0 c1
  last : ∀ x, star t x → Pair t c0 c1 x → sNo t x + 1 = nStar t → sa[jAt t c0 c1]? = some (sNo t x : Int)

open Classical in
/-- A bucket after it is sorted. -/
structure BDone (t : List Nat) (sa : List Int) (c0 c1 : Nat) : Prop where
  at' : ∀ x, star t x → Pair t c0 c1 x → ∃ q, At t sa q x ∧ jAt t c0 c1 ≤ q ∧ q < sEnd t c0 c1
  first : ∀ x, At t sa (jAt t c0 c1) x → jAt t c0 c1 < sEnd t c0 c1 → sa[jAt t c0 c1]? = some (sNo t x : Int)
  next : ∀ q x y, jAt t c0 c1 ≤ q → q + 1 < sEnd t c0 c1 → At t sa q x → At t sa (q + 1) y →
    ¬ Lex (sub t y) (sub t x) ∧ sa[q + 1]? = some (if sub t x = sub t y then inv (sNo t y : Int) else (sNo t y : Int))

theorem BTodo.frame {sa sa' : List Int} {c0 c1 : Nat} (h : BTodo t sa c0 c1) (hf : ∀ q, jAt t c0 c1 ≤ q → q < sEnd t c0 c1 → sa'[q]? = sa[q]?) : BTodo t sa' c0 c1 := by
  refine ⟨fun x hx hp => ?_, fun x hx hp hl => ?_⟩
  · obtain ⟨q, h1, h2, h3⟩ := h.at' x hx hp
    exact ⟨q, by rw [hf q h2 h3]; exact h1, h2, h3⟩
  · have := srk_range hx hp
    rw [hf _ (Nat.le_refl _) (by omega)]
    exact h.last x hx hp hl

theorem At.frame {sa sa' : List Int} {q x : Nat} (h : At t sa q x) (e : sa'[q]? = sa[q]?) : At t sa' q x := by
  unfold At at *
  rw [e]; exact h

theorem BDone.frame {sa sa' : List Int} {c0 c1 : Nat} (h : BDone t sa c0 c1) (hf : ∀ q, jAt t c0 c1 ≤ q → q < sEnd t c0 c1 → sa'[q]? = sa[q]?) : BDone t sa' c0 c1 := by
  refine ⟨fun x hx hp => ?_, fun x hx hlt => ?_, fun q x y h1 h2 hx hy => ?_⟩
  · obtain ⟨q, h1, h2, h3⟩ := h.at' x hx hp
    exact ⟨q, h1.frame (hf q h2 h3), h2, h3⟩
  · have e := hf _ (Nat.le_refl _) hlt
    rw [e]
    exact h.first x (hx.frame e.symm) hlt
  · have e1 := hf q h1 (by omega)
    have e2 := hf (q + 1) (by omega) h2
    rw [e2]
    exact h.next q x y h1 h2 (hx.frame e1.symm) (hy.frame e2.symm)

/-- The indexes of a bucket, one for each B* position. -/
theorem bucket_surj {c0 c1 : Nat} {f : Nat → Nat} (h : ∀ x, star t x → Pair t c0 c1 x → jAt t c0 c1 ≤ f x ∧ f x < sEnd t c0 c1)
    (hi : ∀ x y, star t x → star t y → Pair t c0 c1 x → Pair t c0 c1 y → f x = f y → x = y) {q : Nat} (h1 : jAt t c0 c1 ≤ q) (h2 : q < sEnd t c0 c1) :
    ∃ x, star t x ∧ Pair t c0 c1 x ∧ f x = q := by
  have e := sEnd_eq (t := t) c0 c1
  obtain ⟨x, _, ⟨hx, hp⟩, h3⟩ := image_surj (n := t.length) (p := fun z => star t z ∧ Pair t c0 c1 z) (f := fun x => f x - jAt t c0 c1)
    (fun x _ hx => by
      have := h x hx.1 hx.2
      have e' : cnt t.length (fun z => star t z ∧ Pair t c0 c1 z) = cS t c0 c1 := rfl
      omega)
    (fun x y _ _ hx hy he => by
      have k1 := h x hx.1 hx.2
      have k2 := h y hy.1 hy.2
      have he' : f x - jAt t c0 c1 = f y - jAt t c0 c1 := he
      exact hi x y hx.1 hy.1 hx.2 hy.2 (by omega))
    (q := q - jAt t c0 c1) (by
      have e' : cnt t.length (fun z => star t z ∧ Pair t c0 c1 z) = cS t c0 c1 := rfl
      omega)
  have h3' : f x - jAt t c0 c1 = q - jAt t c0 c1 := h3
  have := h x hx hp
  exact ⟨x, hx, hp, by omega⟩

/-- Each index of a bucket that is not sorted has a number, and no two have the same. -/
theorem BTodo.cells {sa : List Int} {c0 c1 : Nat} (h : BTodo t sa c0 c1) :
    (∀ q, jAt t c0 c1 ≤ q → q < sEnd t c0 c1 → ∃ x, star t x ∧ Pair t c0 c1 x ∧ sa[q]? = some (sNo t x : Int)) ∧
    (∀ p q x, jAt t c0 c1 ≤ p → p < sEnd t c0 c1 → jAt t c0 c1 ≤ q → q < sEnd t c0 c1 → star t x → sa[p]? = some (sNo t x : Int) → sa[q]? = some (sNo t x : Int) → p = q) := by
  have hex : ∀ x, ∃ q, star t x → Pair t c0 c1 x → sa[q]? = some (sNo t x : Int) ∧ jAt t c0 c1 ≤ q ∧ q < sEnd t c0 c1 := by
    intro x
    by_cases hx : star t x ∧ Pair t c0 c1 x
    · obtain ⟨q, h1⟩ := h.at' x hx.1 hx.2
      exact ⟨q, fun _ _ => h1⟩
    · exact ⟨0, fun h1 h2 => absurd ⟨h1, h2⟩ hx⟩
  obtain ⟨f, hf⟩ := Classical.axiomOfChoice hex
  have hsurj := fun {q : Nat} => bucket_surj (t := t) (c0 := c0) (c1 := c1) (f := f) (fun x hx hp => (hf x hx hp).2) (fun x y hx hy px py he => by
    have h1 := (hf x hx px).1
    have h2 := (hf y hy py).1
    rw [he, h2] at h1
    injection h1 with h1
    exact (sNo_inj hy hx (by omega)).symm) (q := q)
  refine ⟨fun q h1 h2 => ?_, fun p q x p1 p2 q1 q2 hx hp hq => ?_⟩
  · obtain ⟨x, hx, px, rfl⟩ := hsurj h1 h2
    exact ⟨x, hx, px, (hf x hx px).1⟩
  · obtain ⟨y, hy, py, rfl⟩ := hsurj p1 p2
    obtain ⟨z, hz, pz, rfl⟩ := hsurj q1 q2
    have h1 := (hf y hy py).1
    have h2 := (hf z hz pz).1
    rw [hp] at h1
    rw [hq] at h2
    injection h1 with h1
    injection h2 with h2
    rw [sNo_inj hy hz (by omega)]

theorem sub_two {x : Nat} (hx : star t x) : (sub t x).take 2 = [ch t x, ch t (x + 1)] := by
  have hl := star_lt hx
  obtain ⟨n, h1, h2, h3⟩ := sub_prefix hx
  rw [h3, List.take_take, Nat.min_eq_left h1, drop_ch (x := x) (by omega), drop_ch (x := x + 1) (by omega)]
  rfl

/-- One call of `sssort`, or none. -/
theorem ssBucket_ok {o : Sorters} (ho : SsSorts o) (hn : Small t) (hk : ∀ c, c ∈ t → c < 256) {sa : List Int} {c0 c1 : Nat} (hlen : sa.length = t.length)
    (hpa : ∀ x, star t x → sa[t.length - nStar t + sNo t x]? = some (x : Int)) (h : BTodo t sa c0 c1) :
    ∃ sa', ssBucket o t (nStar t) (jAt t c0 c1 : Nat) (sEnd t c0 c1 : Nat) sa = .ok sa' ∧ sa'.length = t.length ∧
      (∀ q, (q < jAt t c0 c1 ∨ (sEnd t c0 c1 ≤ q ∧ q < nStar t) ∨ t.length - nStar t ≤ q) → sa'[q]? = sa[q]?) ∧ BDone t sa' c0 c1 := by
  obtain ⟨hc1, hc2⟩ := h.cells
  have hle := sEnd_le (t := t) c0 c1
  have h2m := nStar_le (t := t)
  unfold ssBucket
  by_cases hbig : (1 : Int) < (sEnd t c0 c1 : Nat) - (jAt t c0 c1 : Nat)
  · rw [if_pos hbig, idx_nat]
    simp only [Bind.bind, Except.bind]
    obtain ⟨x0, hx0, px0, e0⟩ := hc1 (jAt t c0 c1) (Nat.le_refl _) (by omega)
    rw [rd_ok e0]
    simp only [Int.toNat_natCast]
    -- the numbers
    let l : List Nat := ((sa.drop (jAt t c0 c1)).take (sEnd t c0 c1 - jAt t c0 c1)).map Int.toNat
    have hll : l.length = sEnd t c0 c1 - jAt t c0 c1 := by
      simp only [l, List.length_map, List.length_take, List.length_drop]
      omega
    have hl : ∀ d, d < sEnd t c0 c1 - jAt t c0 c1 → ∃ x, star t x ∧ Pair t c0 c1 x ∧ l[d]? = some (sNo t x) ∧ sa[jAt t c0 c1 + d]? = some (sNo t x : Int) := by
      intro d hd
      obtain ⟨x, hx, px, e⟩ := hc1 (jAt t c0 c1 + d) (by omega) (by omega)
      refine ⟨x, hx, px, ?_, e⟩
      simp only [l, List.getElem?_map, List.getElem?_take, if_pos hd, List.getElem?_drop, e, Option.map_some, Int.toNat_natCast]
    have hmem : ∀ r, r ∈ l → ∃ x, star t x ∧ Pair t c0 c1 x ∧ r = sNo t x := by
      intro r hr
      obtain ⟨d, hd, e⟩ := List.getElem_of_mem hr
      obtain ⟨x, hx, px, e', _⟩ := hl d (by omega)
      rw [List.getElem?_eq_getElem hd, e] at e'
      injection e' with e'
      exact ⟨x, hx, px, e'⟩
    have hmem' : ∀ x, star t x → Pair t c0 c1 x → sNo t x ∈ l := by
      intro x hx px
      obtain ⟨q, h1, h2, h3⟩ := h.at' x hx px
      obtain ⟨y, hy, py, e1, e2⟩ := hl (q - jAt t c0 c1) (by omega)
      rw [show jAt t c0 c1 + (q - jAt t c0 c1) = q by omega, h1] at e2
      injection e2 with e2
      have : x = y := sNo_inj hx hy (by omega)
      subst this
      exact List.mem_of_getElem? e1
    have hl0 : l[0]? = some (sNo t x0) := by
      obtain ⟨y, hy, py, e1, e2⟩ := hl 0 (by omega)
      rw [Nat.add_zero, e0] at e2
      injection e2 with e2
      rw [e1, sNo_inj hy hx0 (by omega)]
    have hinj : ∀ d e x, d < sEnd t c0 c1 - jAt t c0 c1 → e < sEnd t c0 c1 - jAt t c0 c1 → star t x → l[d]? = some (sNo t x) → l[e]? = some (sNo t x) → d = e := by
      intro d e x hd he hx h1 h2
      obtain ⟨y, hy, py, a1, a2⟩ := hl d hd
      obtain ⟨z, hz, pz, b1, b2⟩ := hl e he
      rw [h1] at a1
      rw [h2] at b1
      injection a1 with a1
      injection b1 with b1
      have ey : x = y := sNo_inj hx hy a1
      have ez : x = z := sNo_inj hx hz b1
      subst ey
      subst ez
      have := hc2 _ _ _ (by omega) (by omega) (by omega) (by omega) hx a2 b2
      omega
    have hgiven : SsGiven t sa (jAt t c0 c1) (sEnd t c0 c1) l := by
      refine ⟨hlen, fun r x hr => ?_, ⟨by omega, by rw [bStars_length]; exact hle⟩, ?_, fun r hr => ?_, ?_, fun r s hr hs => ?_, fun hr => ?_⟩
      · obtain ⟨hx, rfl⟩ := bStars_iff.1 hr
        rw [bStars_length]
        exact hpa x hx
      · apply List.ext_getElem?
        intro d
        by_cases hd : d < sEnd t c0 c1 - jAt t c0 c1
        · obtain ⟨x, hx, px, e1, e2⟩ := hl d hd
          rw [List.getElem?_take, if_pos hd, List.getElem?_drop, e2, List.getElem?_map, e1]
          rfl
        · rw [List.getElem?_take, if_neg hd, List.getElem?_map, List.getElem?_eq_none (by omega)]
          rfl
      · obtain ⟨x, hx, _, rfl⟩ := hmem r hr
        rw [bStars_length]
        exact sNo_lt hx
      · refine List.pairwise_iff_getElem.2 fun d e hd he hlt heq' => ?_
        obtain ⟨x, hx, px, e1, _⟩ := hl d (by omega)
        have e2 : l[e]? = some (sNo t x) := by rw [List.getElem?_eq_getElem he, ← heq', ← List.getElem?_eq_getElem hd]; exact e1
        have := hinj d e x (by omega) (by omega) hx e1 e2
        omega
      · obtain ⟨x, hx, px, rfl⟩ := hmem r hr
        obtain ⟨y, hy, py, rfl⟩ := hmem s hs
        rw [sub_two hx, sub_two hy, px.1, px.2, py.1, py.2]
      · rw [bStars_length] at hr
        obtain ⟨d, hd, e⟩ := List.getElem_of_mem hr
        rw [List.length_tail] at hd
        rw [List.getElem_tail] at e
        have e' : l[d + 1]? = some (nStar t - 1) := by rw [List.getElem?_eq_getElem (by omega), e]
        obtain ⟨x, hx, px, e1, e2⟩ := hl (d + 1) (by omega)
        rw [e'] at e1
        injection e1 with e1
        have hxl := sNo_lt hx
        have h3 := h.last x hx px (by omega)
        have := hc2 _ _ _ (Nat.le_refl _) (by omega) (by omega) (by omega) hx h3 e2
        omega
    obtain ⟨sa', k1, k2, k3, l', k4, k5, k6, k7⟩ := ho t sa _ _ l hk hn hgiven
    have hflag : decide (l.head? = some ((bStars t).length - 1)) = decide (((sNo t x0 : Nat) : Int) = (nStar t : Int) - 1) := by
      rw [List.head?_eq_getElem?, hl0, bStars_length]
      have := sNo_lt hx0
      by_cases hq : sNo t x0 = nStar t - 1
      · rw [decide_eq_true (by rw [hq]), decide_eq_true (by omega)]
      · rw [decide_eq_false (by intro hh; injection hh with hh; exact hq hh), decide_eq_false (by omega)]
    rw [hflag, bStars_length] at k1
    rw [bStars_length] at k3
    have hll' : l'.length = sEnd t c0 c1 - jAt t c0 c1 := by rw [k4.length_eq, hll]
    have hout : ∀ d, d < sEnd t c0 c1 - jAt t c0 c1 → ((sa'.drop (jAt t c0 c1)).take (sEnd t c0 c1 - jAt t c0 c1))[d]? = sa'[jAt t c0 c1 + d]? := by
      intro d hd
      rw [List.getElem?_take, if_pos hd, List.getElem?_drop]
    have hl' : ∀ d, d < sEnd t c0 c1 - jAt t c0 c1 → ∃ x, star t x ∧ l'[d]? = some (sNo t x) := by
      intro d hd
      obtain ⟨x, hx, _, e⟩ := hmem l'[d] (k4.subset (List.getElem_mem (by omega)))
      exact ⟨x, hx, by rw [List.getElem?_eq_getElem (by omega), e]⟩
    refine ⟨sa', k1, by rw [k2, hlen], k3, fun x hx px => ?_, fun x hx hlt => ?_, fun q x y q1 q2 hx hy => ?_⟩
    · have := k4.symm.subset (hmem' x hx px)
      obtain ⟨d, hd, e⟩ := List.getElem_of_mem this
      have e' : l'[d]? = some (sNo t x) := by rw [List.getElem?_eq_getElem hd, e]
      obtain ⟨y, hy, ey⟩ := hl' (d - 1) (by omega)
      have h3 := k7 d (sNo t x) (sNo t y) e' ey
      rw [hout d (by omega)] at h3
      exact ⟨jAt t c0 c1 + d, .mk' hx h3, by omega, by omega⟩
    · obtain ⟨y, hy, ey⟩ := hl' 0 (by omega)
      have h3 := k7 0 (sNo t y) (sNo t y) ey ey
      rw [hout 0 (by omega), Nat.add_zero] at h3
      have := hx.of h3
      rw [h3, if_neg (by omega), this]
    · obtain ⟨u, hu, eu⟩ := hl' (q - jAt t c0 c1) (by omega)
      obtain ⟨v, hv, ev⟩ := hl' (q + 1 - jAt t c0 c1) (by omega)
      obtain ⟨z, hz, ez⟩ := hl' (q - jAt t c0 c1 - 1) (by omega)
      have a1 := k7 _ _ _ eu ez
      have a2 := k7 _ _ (sNo t u) ev (by rw [show q + 1 - jAt t c0 c1 - 1 = q - jAt t c0 c1 by omega]; exact eu)
      rw [hout _ (by omega), show jAt t c0 c1 + (q - jAt t c0 c1) = q by omega] at a1
      rw [hout _ (by omega), show jAt t c0 c1 + (q + 1 - jAt t c0 c1) = q + 1 by omega] at a2
      have ex := hx.of a1
      have ey := hy.of a2
      have ex' := sNo_inj hu hx.1 ex
      have ey' := sNo_inj hv hy.1 ey
      subst ex'
      subst ey'
      refine ⟨fun hl => ?_, ?_⟩
      · rw [← lex_iff] at hl
        obtain ⟨d1, g1⟩ := List.getElem?_eq_some_iff.1 eu
        obtain ⟨d2, g2⟩ := List.getElem?_eq_some_iff.1 ev
        have := List.pairwise_iff_getElem.1 k5 _ _ d1 d2 (by omega)
        rw [g1, g2] at this
        exact this hl
      · rw [a2]
        congr 1
        by_cases he : sub t u = sub t v
        · rw [if_pos ⟨by omega, he⟩, if_pos he]; rfl
        · rw [if_neg (fun hh => he hh.2), if_neg he]
  · rw [if_neg hbig]
    refine ⟨sa, rfl, hlen, fun _ _ => rfl, fun x hx px => ?_, fun x hx hlt => ?_, fun q x y q1 q2 _ _ => by omega⟩
    · obtain ⟨q, h1, h2, h3⟩ := h.at' x hx px
      exact ⟨q, ⟨hx, .inl h1⟩, h2, h3⟩
    · obtain ⟨y, hy, py, e⟩ := hc1 _ (Nat.le_refl _) hlt
      rw [e, hx.unique ⟨hy, .inl e⟩]

/-! ### All buckets -/

/-- The buckets with `D` are sorted. -/
structure SsInv (t : List Nat) (D : Nat → Nat → Prop) (sa : List Int) : Prop where
  len : sa.length = t.length
  pa : ∀ x, star t x → sa[t.length - nStar t + sNo t x]? = some (x : Int)
  todo : ∀ c0 c1, c0 < c1 → c1 < 256 → ¬ D c0 c1 → BTodo t sa c0 c1
  done : ∀ c0 c1, c0 < c1 → c1 < 256 → D c0 c1 → BDone t sa c0 c1

theorem SsInv.congr {D D' : Nat → Nat → Prop} {sa : List Int} (h : SsInv t D sa) (hD : ∀ c0 c1, c0 < c1 → c1 < 256 → (D' c0 c1 ↔ D c0 c1)) : SsInv t D' sa :=
  ⟨h.len, h.pa, fun c0 c1 h1 h2 hn => h.todo c0 c1 h1 h2 (fun k => hn ((hD c0 c1 h1 h2).2 k)), fun c0 c1 h1 h2 hd => h.done c0 c1 h1 h2 ((hD c0 c1 h1 h2).1 hd)⟩

theorem SsInv.step {o : Sorters} (ho : SsSorts o) (hn : Small t) (hk : ∀ c, c ∈ t → c < 256) {D D' : Nat → Nat → Prop} {sa : List Int} (h : SsInv t D sa) {c0 c1 : Nat}
    (h01 : c0 < c1) (h1b : c1 < 256) (hD : ¬ D c0 c1) (hD' : ∀ a0 a1, D' a0 a1 ↔ D a0 a1 ∨ (a0 = c0 ∧ a1 = c1)) :
    ∃ sa', ssBucket o t (nStar t) (jAt t c0 c1 : Nat) (sEnd t c0 c1 : Nat) sa = .ok sa' ∧ SsInv t D' sa' := by
  obtain ⟨sa', h1, h2, h3, h4⟩ := ssBucket_ok ho hn hk h.len h.pa (h.todo c0 c1 h01 h1b hD)
  have h2m := nStar_le (t := t)
  have hfr : ∀ a0 a1, ¬ (a0 = c0 ∧ a1 = c1) → ∀ q, jAt t a0 a1 ≤ q → q < sEnd t a0 a1 → sa'[q]? = sa[q]? := by
    intro a0 a1 hne q q1 q2
    have := sEnd_le (t := t) a0 a1
    refine h3 q ?_
    rcases pair_disj (t := t) hne with k | k
    · exact .inl (by omega)
    · exact .inr (.inl (by omega))
  refine ⟨sa', h1, h2, fun x hx => ?_, fun a0 a1 b0 b1 ha => ?_, fun a0 a1 b0 b1 ha => ?_⟩
  · rw [h3 _ (.inr (.inr (by omega)))]
    exact h.pa x hx
  · have hne : ¬ (a0 = c0 ∧ a1 = c1) := fun e => ha ((hD' _ _).2 (.inr e))
    exact (h.todo a0 a1 b0 b1 (fun e => ha ((hD' _ _).2 (.inl e)))).frame (hfr a0 a1 hne)
  · by_cases hne : a0 = c0 ∧ a1 = c1
    · obtain ⟨rfl, rfl⟩ := hne
      exact h4
    · rcases (hD' _ _).1 ha with k | k
      · exact (h.done a0 a1 b0 b1 k).frame (hfr a0 a1 hne)
      · exact absurd k hne

theorem ssInner_ok {o : Sorters} (ho : SsSorts o) (hn : Small t) (hk : ∀ c, c ∈ t → c < 256) {b : List Int} {fB : Nat → Nat → Int}
    (hb : Bk b fB (fun c0 c1 => (jAt t c0 c1 : Nat))) {c0 : Nat} : ∀ (todo : Nat) (sa : List Int), c0 + todo ≤ 255 →
    SsInv t (fun a0 a1 => c0 < a0 ∨ (a0 = c0 ∧ c0 + todo < a1)) sa →
    ∃ sa', ssInner o t (nStar t) b c0 todo (sEnd t c0 (c0 + todo) : Nat) sa = .ok ((j0 t c0 : Nat), sa') ∧
      SsInv t (fun a0 a1 => c0 < a0 ∨ (a0 = c0 ∧ c0 < a1)) sa'
  | 0, sa, _, h => ⟨sa, by unfold ssInner; rw [Nat.add_zero, sEnd_first], h⟩
  | todo + 1, sa, hle, h => by
    obtain ⟨sa1, h1, h2⟩ := h.step ho hn hk (c0 := c0) (c1 := c0 + (todo + 1)) (D' := fun a0 a1 => c0 < a0 ∨ (a0 = c0 ∧ c0 + todo < a1)) (by omega) (by omega) (by omega) (by omega)
    obtain ⟨sa2, h3, h4⟩ := ssInner_ok ho hn hk hb todo sa1 (by omega) h2
    refine ⟨sa2, ?_, h4⟩
    unfold ssInner
    rw [hb.rdS (c0 := c0) (c1 := c0 + (todo + 1)) (by omega) (by omega)]
    simp only [Bind.bind, Except.bind]
    rw [h1]
    simp only []
    rw [show c0 + (todo + 1) = c0 + todo + 1 by omega, jAt_sEnd]
    exact h3

theorem j0_mono {a b : Nat} (h : a ≤ b) : j0 t a ≤ j0 t b := cnt_mono fun _ _ hx => ⟨hx.1, by omega⟩

theorem j0_zero : j0 t 0 = 0 := cnt_false fun _ _ hx => by omega

theorem ssOuter_ok {o : Sorters} (ho : SsSorts o) (hn : Small t) (hk : ∀ c, c ∈ t → c < 256) (hk' : ∀ x, x < t.length → ch t x < 256) {b : List Int} {fB : Nat → Nat → Int}
    (hb : Bk b fB (fun c0 c1 => (jAt t c0 c1 : Nat))) : ∀ (todo : Nat) (sa : List Int), todo ≤ 255 →
    SsInv t (fun a0 _ => todo ≤ a0) sa →
    ∃ sa', ssOuter o t (nStar t) b todo (j0 t todo : Nat) sa = .ok sa' ∧ sa'.length = t.length ∧ ∀ x, star t x → BDone t sa' (ch t x) (ch t (x + 1))
  | 0, sa, _, h => by
    refine ⟨sa, ?_, h.len, fun x hx => h.done _ _ (star_ch hx) (hk' _ (star_lt hx)) (Nat.zero_le _)⟩
    unfold ssOuter
    rw [j0_zero, if_neg (by omega)]
  | c0 + 1, sa, hle, h => by
    unfold ssOuter
    by_cases hpos : (0 : Int) < (j0 t (c0 + 1) : Nat)
    · rw [if_pos hpos]
      simp only [Bind.bind, Except.bind]
      obtain ⟨sa1, h1, h2⟩ := ssInner_ok ho hn hk hb (c0 := c0) (255 - c0) sa (by omega) (h.congr (fun a0 a1 _ _ => by omega))
      rw [show c0 + (255 - c0) = 255 by omega, sEnd_last hk'] at h1
      rw [h1]
      simp only []
      exact ssOuter_ok ho hn hk hk' hb c0 sa1 (by omega) (h2.congr (fun a0 a1 _ _ => by omega))
    · rw [if_neg hpos]
      refine ⟨sa, rfl, h.len, fun x hx => h.done _ _ (star_ch hx) (hk' _ (star_lt hx)) ?_⟩
      by_cases hc : ch t x < c0 + 1
      · have : 0 < j0 t (c0 + 1) := cnt_pos (a := x) (by have := star_lt hx; omega) ⟨hx, hc⟩
        omega
      · omega

theorem ss_ok {o : Sorters} (ho : SsSorts o) (hn : Small t) (hk : ∀ c, c ∈ t → c < 256) (hk' : ∀ x, x < t.length → ch t x < 256) {s : SaBB} (h : Placed t s) :
    ∃ sa, ssOuter o t (nStar t) s.b 255 (nStar t) s.sa = .ok sa ∧ sa.length = t.length ∧ ∀ x, star t x → BDone t sa (ch t x) (ch t (x + 1)) := by
  have hi : SsInv t (fun a0 _ => 255 ≤ a0) s.sa := by
    refine ⟨h.len, h.pa, fun c0 c1 _ _ _ => ⟨fun x hx hp => ?_, fun x hx hp hl => ?_⟩, fun c0 c1 _ _ _ => by omega⟩
    · have := h.at' x hx
      rw [hp.1, hp.2] at this
      exact this
    · have := h.last x hx hl
      rw [hp.1, hp.2] at this
      exact this
  have := ssOuter_ok ho hn hk hk' h.b 255 s.sa (Nat.le_refl _) hi
  rwa [j0_all hk'] at this

end Dss
end Detools
