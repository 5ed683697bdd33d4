import Verif.Proofs.SaisInduce
/-
SA-IS: the sorted left-most S suffixes are put in their buckets.
-/
namespace Detools
namespace Sais

/-- The number of positions of `P` before `x`. -/
noncomputable def rnk (n : Nat) (P : Nat → Prop) (K : Nat → List Nat) (x : Nat) : Nat := cnt n (fun y => P y ∧ Lex (K y) (K x))

/-- The positions of `P` are ordered by `K`. -/
structure Ranked (n : Nat) (P : Nat → Prop) (K : Nat → List Nat) : Prop where
  lt : ∀ {x}, P x → x < n
  inj : ∀ {x y}, P x → P y → K x = K y → x = y

theorem cnt_full {n : Nat} {p : Nat → Prop} (h : cnt n p = n) : ∀ x, x < n → p x := by
  intro x hx
  by_cases hp : p x
  · exact hp
  · have := cnt_lt (n := n) (p := p) (q := fun _ => True) (fun _ _ _ => trivial) hx trivial hp
    rw [cnt_true (fun _ _ => trivial)] at this
    omega

section
variable {n : Nat} {P : Nat → Prop} {K : Nat → List Nat} (o : Ranked n P K)
include o

theorem Ranked.rnk_lt {x : Nat} (h : P x) : rnk n P K x < cnt n P :=
  cnt_lt (fun _ _ h => h.1) (o.lt h) h (fun h => Lex.irrefl _ h.2)

theorem Ranked.mono {x y : Nat} (hx : P x) (h : Lex (K x) (K y)) : rnk n P K x < rnk n P K y :=
  cnt_lt (fun _ _ hz => ⟨hz.1, hz.2.trans h⟩) (o.lt hx) ⟨hx, h⟩ (fun h => Lex.irrefl _ h.2)

theorem Ranked.mono_iff {x y : Nat} (hx : P x) (hy : P y) : rnk n P K x < rnk n P K y ↔ Lex (K x) (K y) := by
  refine ⟨fun h => ?_, o.mono hx⟩
  rcases Lex.tri (K x) (K y) with h1 | h1 | h1
  · exact h1
  · rw [o.inj hx hy h1] at h
    exact absurd h (Nat.lt_irrefl _)
  · exact absurd (Nat.lt_trans h (o.mono hy h1)) (Nat.lt_irrefl _)

theorem Ranked.rnk_inj {x y : Nat} (hx : P x) (hy : P y) (h : rnk n P K x = rnk n P K y) : x = y := by
  rcases Lex.tri (K x) (K y) with h1 | h1 | h1
  · exact absurd (o.mono hx h1) (by omega)
  · exact o.inj hx hy h1
  · exact absurd (o.mono hy h1) (by omega)

theorem Ranked.surj {r : Nat} (h : r < cnt n P) : ∃ x, P x ∧ rnk n P K x = r := by
  have h1 := cnt_image (p := P) (f := rnk n P K) (m := cnt n P) (n := n) (fun x _ h => o.rnk_lt h) (fun x y _ _ h1 h2 h3 => o.rnk_inj h1 h2 h3)
  obtain ⟨x, _, h2, h3⟩ := cnt_full h1 r h
  exact ⟨x, h2, h3⟩

/-- A strictly monotone function into the numbers is not below the rank. -/
theorem Ranked.rnk_le {f : Nat → Nat} {x : Nat} (h : ∀ y, P y → Lex (K y) (K x) → f y < f x)
    (hi : ∀ y z, P y → P z → f y = f z → y = z) : rnk n P K x ≤ f x := by
  have h1 := cnt_image (p := fun y => P y ∧ Lex (K y) (K x)) (f := f) (m := f x) (n := n) (fun y _ hy => h y hy.1 hy.2)
    (fun y z _ _ h1 h2 h3 => hi y z h1.1 h2.1 h3)
  unfold rnk
  rw [← h1]
  exact cnt_le _ _

end

variable {t : List Nat} {k : Nat}

theorem zeroDown_ok {q : Nat} : ∀ {j : Nat} {sa : List Int}, j ≤ sa.length → ∃ sa', zeroDown q j sa = .ok sa' ∧ sa'.length = sa.length ∧
    ∀ r, sa'[r]? = if q ≤ r ∧ r < j then some 0 else sa[r]?
  | 0, sa, _ => ⟨sa, rfl, rfl, fun r => by rw [if_neg (by omega)]⟩
  | j + 1, sa, h => by
    unfold zeroDown
    by_cases hq : q ≤ j
    · rw [if_pos hq, wr_ok _ (by omega)]
      obtain ⟨sa', h1, h2, h3⟩ := zeroDown_ok (q := q) (j := j) (sa := sa.set j 0) (by rw [List.length_set]; omega)
      refine ⟨sa', h1, by rw [h2, List.length_set], fun r => ?_⟩
      rw [h3 r]
      by_cases hr : r = j
      · subst hr
        rw [if_neg (by omega), if_pos (by omega), get_set_eq (by omega)]
      · rw [get_set_ne (by omega)]
        by_cases h4 : q ≤ r ∧ r < j
        · rw [if_pos h4, if_pos (by omega)]
        · rw [if_neg h4, if_neg (by omega)]
    · rw [if_neg hq]
      exact ⟨sa, rfl, rfl, fun r => by rw [if_neg (by omega)]⟩

/-- The rank of a left-most S suffix. -/
noncomputable def lrank (t : List Nat) (x : Nat) : Nat := rnk t.length (fun x => isLms t x = true) t.drop x

/-- The number of left-most S positions. -/
noncomputable def lcount (t : List Nat) : Nat := cnt t.length (fun x => isLms t x = true)

theorem lmsRanked (t : List Nat) : Ranked t.length (fun x => isLms t x = true) t.drop where
  lt h := by have := isLms_lt h; omega
  inj h1 h2 h3 := drop_inj (by have := isLms_lt h1; omega) (by have := isLms_lt h2; omega) h3

/-- The left-most S suffixes are in order in the first elements. -/
def LmsSorted (t : List Nat) (sa : List Int) : Prop :=
  sa.length = t.length ∧ ∀ x, isLms t x = true → sa[lrank t x]? = some (x : Int)

/-- Before the suffix of rank `i - 1` is put in place. -/
structure PlaceInv (t : List Nat) (i j : Nat) (c0 : Option Nat) (sa : List Int) : Prop where
  len : sa.length = t.length
  below : ∀ x, isLms t x = true → lrank t x < i → sa[lrank t x]? = some (x : Int) ∧ lpos t x < j
  above : ∀ x, isLms t x = true → i ≤ lrank t x → sa[lpos t x]? = some (x : Int) ∧ j ≤ lpos t x
  zero : ∀ q, j ≤ q → q < t.length → (∀ x, isLms t x = true → lpos t x ≠ q) → sa[q]? = some 0
  cur : match c0 with
    | none => i = lcount t ∧ j = t.length
    | some c => ∃ y, isLms t y = true ∧ lrank t y = i ∧ lpos t y = j ∧ ch t y = c

theorem ch_mono {x y : Nat} (hx : x < t.length) (hy : y < t.length) (h : Lex (t.drop x) (t.drop y)) : ch t x ≤ ch t y := by
  rw [drop_ch hx, drop_ch hy, lex_cons] at h
  omega

/-- The next suffix goes before the last one if they are in the same bucket. -/
theorem lpos_same (h0 : 0 < t.length) {x y : Nat} (hx : isLms t x = true) (hy : isLms t y = true) (hr : lrank t y = lrank t x + 1)
    (hc : ch t x = ch t y) : lpos t x + 1 = lpos t y := by
  have o := (sufL h0).toOrder
  have r := lmsRanked t
  have h1 := (o.posB hx).2
  have h2 := (o.posB hy).2
  have h3 : cnt t.length (fun z => isLms t z = true ∧ ch t z = ch t x ∧ ¬ Lex (t.drop z) (t.drop x)) =
      cnt t.length (fun z => isLms t z = true ∧ ch t z = ch t y ∧ ¬ Lex (t.drop z) (t.drop y)) + 1 := by
    rw [← cnt_insert (a := x) (r.lt hx) (fun h => h.2.2 ((r.mono_iff hx hy).1 (by unfold lrank at hr; omega)))]
    apply cnt_congr
    intro z _
    constructor
    · rintro ⟨h1, h2, h3⟩
      by_cases he : z = x
      · exact .inr he
      · refine .inl ⟨h1, by omega, fun h4 => ?_⟩
        have h5 := r.mono h1 h4
        rw [← r.mono_iff h1 hx] at h3
        have h6 : rnk t.length (fun x => isLms t x = true) t.drop z ≠ rnk t.length (fun x => isLms t x = true) t.drop x :=
          fun e => he (r.rnk_inj h1 hx e)
        unfold lrank at hr
        omega
    · rintro (⟨h1, h2, h3⟩ | rfl)
      · refine ⟨h1, by omega, fun h4 => h3 (h4.trans ((r.mono_iff hx hy).1 (by unfold lrank at hr; omega)))⟩
      · exact ⟨hx, rfl, Lex.irrefl _⟩
  unfold lpos
  rw [← hc] at h2
  rw [← hc] at h3
  omega

/-- The last suffix of a bucket goes to its end. -/
theorem lpos_last (h0 : 0 < t.length) {x : Nat} (hx : isLms t x = true) (h : ∀ z, isLms t z = true → Lex (t.drop x) (t.drop z) → ch t z ≠ ch t x) :
    lpos t x + 1 = fin t (ch t x) := by
  have o := (sufL h0).toOrder
  have r := lmsRanked t
  have h1 := (o.posB hx).2
  have h3 : cnt t.length (fun z => isLms t z = true ∧ ch t z = ch t x ∧ ¬ Lex (t.drop z) (t.drop x)) = 1 := by
    rw [cnt_congr (q := fun z => z = x), cnt_eq, if_pos (r.lt hx)]
    intro z _
    constructor
    · rintro ⟨h1, h2, h3⟩
      rcases (o.not_lex (.inr h1) (.inr hx)).1 h3 with h4 | h4
      · exact h4
      · exact absurd h2 (h z h1 h4)
    · rintro rfl
      exact ⟨hx, rfl, Lex.irrefl _⟩
  unfold lpos
  omega

theorem lrank_le_lpos (h0 : 0 < t.length) {x : Nat} (hx : isLms t x = true) : lrank t x ≤ lpos t x := by
  have o := (sufL h0).toOrder
  exact (lmsRanked t).rnk_le (fun y hy h => o.mono (.inr hy) (.inr hx) h) (fun y z hy hz h => o.pos_inj (.inr hy) (.inr hz) h)

/-- One suffix is put in place. -/
theorem PlaceInv.next (h0 : 0 < t.length) {i j j' : Nat} {c0 : Option Nat} {sa sa' : List Int} (h : PlaceInv t (i + 1) j c0 sa) {x : Nat}
    (hx : isLms t x = true) (hr : lrank t x = i) (hj' : lpos t x < j') (hjj : j' ≤ j) (hl : sa'.length = sa.length)
    (hsa : ∀ r, sa'[r]? = if j' ≤ r ∧ r < j then some 0 else sa[r]?) (hn : ∀ z, isLms t z = true → lpos t x < lpos t z → j ≤ lpos t z) (he : lpos t x + 1 = j') :
    PlaceInv t i (lpos t x) (some (ch t x)) (sa'.set (lpos t x) x) := by
  have o := (sufL h0).toOrder
  have r := lmsRanked t
  have hlt : lpos t x < t.length := o.pos_lt (.inr hx)
  have hle := lrank_le_lpos h0 hx
  refine ⟨by rw [List.length_set, hl, h.len], ?_, ?_, ?_, ⟨x, hx, hr, rfl, rfl⟩⟩
  · intro z hz hzi
    refine ⟨?_, o.mono (.inr hz) (.inr hx) ((r.mono_iff hz hx).1 (by unfold lrank at hr hzi; omega))⟩
    rw [get_set_ne (by omega), hsa, if_neg (by omega)]
    exact (h.below z hz (by omega)).1
  · intro z hz hzi
    by_cases hzx : z = x
    · subst hzx
      exact ⟨get_set_eq (by rw [hl, h.len]; exact hlt), Nat.le_refl _⟩
    · have h2 : lrank t z ≠ lrank t x := fun e => hzx (r.rnk_inj hz hx e)
      have h1 := h.above z hz (by omega)
      have hne : lpos t x ≠ lpos t z := fun e => hzx (o.pos_inj (.inr hz) (.inr hx) e.symm)
      rw [get_set_ne hne, hsa, if_neg (by omega)]
      exact ⟨h1.1, by omega⟩
  · intro q hq hql hz
    rw [get_set_ne (hz x hx), hsa]
    by_cases h1 : j' ≤ q ∧ q < j
    · rw [if_pos h1]
    · rw [if_neg h1]
      have := hz x hx
      exact h.zero q (by omega) hql hz

theorem placeSorted_ok {c : List Nat} (hn31 : Small t) (hk : ∀ x ∈ t, x < k) (h0 : 0 < t.length) (hc : IsCounts t k c) :
    ∀ (i j : Nat) (c0 : Option Nat) (sa : List Int), PlaceInv t i j c0 sa → i ≤ lcount t → j ≤ t.length →
      ∃ sa', placeSorted t (bucketEnds 0 c) i j c0 sa = .ok sa' ∧ Seeded t sa'
  | 0, j, c0, sa, h, hi, hj => by
    obtain ⟨sa', h1, h2, h3⟩ := zeroDown_ok (q := 0) (j := j) (sa := sa) (by rw [h.len]; exact hj)
    refine ⟨sa', h1, by rw [h2, h.len], ?_, ?_⟩
    · intro x hx
      have := h.above x hx (Nat.zero_le _)
      rw [h3, if_neg (by omega)]
      exact this.1
    · intro q hq hx
      rw [h3]
      by_cases h4 : q < j
      · rw [if_pos (by omega)]
      · rw [if_neg (by omega)]
        exact h.zero q (by omega) hq hx
  | i + 1, j, c0, sa, h, hi, hj => by
    have o := (sufL h0).toOrder
    have r := lmsRanked t
    obtain ⟨x, hx, hr⟩ := r.surj (r := i) (by unfold lcount at hi; omega)
    have hxl : x < t.length := r.lt hx
    have hr' : lrank t x = i := hr
    obtain ⟨hb1, hb2⟩ := h.below x hx (by omega)
    have hck : ch t x < k := hk _ (List.mem_of_getElem? (ch_get hxl))
    have hlt : lpos t x < t.length := o.pos_lt (.inr hx)
    have hpl : (sa.set (lpos t x) (x : Int)).length = t.length := by rw [List.length_set, h.len]
    rw [hr'] at hb1
    unfold placeSorted
    rw [rd_ok hb1]
    simp only [Bind.bind, Except.bind, Int.toNat_natCast]
    rw [rd_ch hxl]
    simp only []
    rw [rd_ok (ends_get hc hck)]
    simp only []
    by_cases he : c0 = some (ch t x)
    · rw [if_pos he]
      subst he
      obtain ⟨y, hy, hyr, hyj, hyc⟩ := h.cur
      have hs := lpos_same h0 hx hy (by omega) hyc.symm
      have ej : j = lpos t x + 1 := by omega
      rw [dec_ok ej]
      simp only []
      rw [st_ok (range_of hn31 (by omega) (by omega)) (by rw [h.len]; exact hlt)]
      simp only []
      have hn := h.next h0 (sa' := sa) (j' := j) hx hr' hb2 (Nat.le_refl _) rfl (fun r => by rw [if_neg (by omega)]) (fun z hz hl => by omega) (by omega)
      exact placeSorted_ok hn31 hk h0 hc i (lpos t x) _ _ hn (by omega) (by omega)
    · rw [if_neg he]
      -- no later suffix is in the same bucket
      have hlater : ∀ z, isLms t z = true → Lex (t.drop x) (t.drop z) → ch t z ≠ ch t x ∧ j ≤ lpos t z := by
        intro z hz hl
        have hzr := r.mono hx hl
        have hza := h.above z hz (by unfold lrank at hr' ⊢; omega)
        refine ⟨fun hcz => ?_, hza.2⟩
        cases c0 with
        | none =>
          have h1 := r.rnk_lt hz
          have h2 := h.cur.1
          unfold lcount at h2
          omega
        | some c =>
          obtain ⟨y, hy, hyr, hyj, hyc⟩ := h.cur
          have hxy : Lex (t.drop x) (t.drop y) := (r.mono_iff hx hy).1 (by unfold lrank at hyr; omega)
          have hyz : ch t y ≤ ch t z := by
            rcases Lex.tri (t.drop y) (t.drop z) with h1 | h1 | h1
            · exact ch_mono (r.lt hy) (r.lt hz) h1
            · rw [r.inj hy hz h1]; exact Nat.le_refl _
            · have := r.mono hz h1
              unfold lrank at hyr
              omega
          have := ch_mono hxl (r.lt hy) hxy
          exact he (by rw [← hyc]; congr 1; omega)
      have hp := lpos_last h0 hx (fun z hz hl => (hlater z hz hl).1)
      have hq : fin t (ch t x) ≤ j := by omega
      rw [Nat.min_eq_left hq]
      obtain ⟨sa', z1, z2, z3⟩ := zeroDown_ok (q := fin t (ch t x)) (j := j) (sa := sa) (by rw [h.len]; exact hj)
      rw [z1]
      simp only []
      have ej : fin t (ch t x) = lpos t x + 1 := by omega
      rw [dec_ok ej]
      simp only []
      rw [st_ok (range_of hn31 (by omega) (by omega)) (by rw [z2, h.len]; exact hlt)]
      simp only []
      have hn := h.next h0 (sa' := sa') (j' := fin t (ch t x)) hx hr' (by omega) hq z2 z3
        (fun z hz hl => (hlater z hz ((o.mono_iff (.inr hx) (.inr hz)).1 hl)).2) hp
      exact placeSorted_ok hn31 hk h0 hc i (lpos t x) _ _ hn (by omega) (by omega)

theorem placeSorted_all {c : List Nat} {sa : List Int} (hn31 : Small t) (hk : ∀ x ∈ t, x < k) (h0 : 0 < t.length) (hc : IsCounts t k c) (hs : LmsSorted t sa) :
    ∃ sa', placeSorted t (bucketEnds 0 c) (lcount t) t.length none sa = .ok sa' ∧ Seeded t sa' := by
  have o := (sufL h0).toOrder
  refine placeSorted_ok hn31 hk h0 hc _ _ _ _ ⟨hs.1, fun x hx _ => ⟨hs.2 x hx, o.pos_lt (.inr hx)⟩, fun x hx h => ?_, fun q h1 h2 => by omega, ⟨rfl, rfl⟩⟩ (Nat.le_refl _) (Nat.le_refl _)
  have := (lmsRanked t).rnk_lt hx
  unfold lcount lrank at h
  omega

/-- A single left-most S suffix is in place. -/
theorem seeded_one (h0 : 0 < t.length) {x : Nat} (hx : isLms t x = true) (hu : ∀ y, isLms t y = true → y = x) :
    Seeded t ((List.replicate t.length (0 : Int)).set (fin t (ch t x) - 1) x) := by
  have o := (sufL h0).toOrder
  have hp := lpos_last h0 hx (fun z hz hl => by rw [hu z hz] at hl; exact absurd hl (Lex.irrefl _))
  have hlt : lpos t x < t.length := o.pos_lt (.inr hx)
  have e : fin t (ch t x) - 1 = lpos t x := by omega
  rw [e]
  refine ⟨by simp, fun y hy => ?_, fun q hq hy => ?_⟩
  · rw [hu y hy]
    exact get_set_eq (by simpa using hlt)
  · rw [get_set_ne (hy x hx), List.getElem?_replicate, if_pos hq]

theorem seeded_none (h : ∀ y, isLms t y = false) : Seeded t (List.replicate t.length (0 : Int)) := by
  refine ⟨by simp, fun y hy => ?_, fun q hq _ => ?_⟩
  · rw [h y] at hy; cases hy
  · rw [List.getElem?_replicate, if_pos hq]

end Sais
end Detools
