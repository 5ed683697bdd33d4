import Verif.Proofs.SaisSort1
/-
SA-IS: the sorted left-most S substrings are moved to the front and get names.
-/
namespace Detools
namespace Sais

/-! ### Compaction -/

/-- The number of negative elements before `i`. -/
noncomputable def negs (sa : List Int) (i : Nat) : Nat := cnt i (fun r => ∃ v, sa[r]? = some v ∧ v < 0)

theorem negs_neg {sa : List Int} {i : Nat} {v : Int} (h : sa[i]? = some v) (hv : v < 0) : negs sa (i + 1) = negs sa i + 1 := by
  unfold negs
  rw [cnt, if_pos ⟨v, h, hv⟩]

theorem negs_pos {sa : List Int} {i : Nat} {v : Int} (h : sa[i]? = some v) (hv : ¬ v < 0) : negs sa (i + 1) = negs sa i := by
  unfold negs
  rw [cnt, if_neg, Nat.add_zero]
  rintro ⟨w, h1, h2⟩
  rw [h] at h1
  injection h1 with h1
  omega

theorem negs_mono {sa : List Int} {i : Nat} : ∀ {j : Nat}, i ≤ j → negs sa i ≤ negs sa j
  | 0, h => by have : i = 0 := by omega
               subst this; exact Nat.le_refl _
  | j + 1, h => by
    by_cases he : i = j + 1
    · subst he; exact Nat.le_refl _
    · refine Nat.le_trans (negs_mono (j := j) (by omega)) ?_
      show cnt j _ ≤ cnt (j + 1) _
      rw [cnt]
      omega

theorem negs_le (sa : List Int) (i : Nat) : negs sa i ≤ i := cnt_le _ _

/-- The elements below `i` were looked at; `j` negative ones were moved. -/
structure CInv (sa0 : List Int) (i j : Nat) (sa : List Int) : Prop where
  len : sa.length = sa0.length
  num : j = negs sa0 i
  kept : ∀ q v, q < i → sa0[q]? = some v → v < 0 → sa[negs sa0 q]? = some (inv v)
  zero : ∀ r, j ≤ r → r < i → sa[r]? = some 0
  rest : ∀ r, i ≤ r → sa[r]? = sa0[r]?

theorem compactHead_ok {sa0 : List Int} (hr : ∀ (q : Nat) (v : Int), sa0[q]? = some v → Low v) (hz : ∀ (q : Nat) (v : Int), sa0[q]? = some v → v ≤ 0) : ∀ (todo i : Nat) (sa : List Int), i + todo = sa0.length →
    CInv sa0 i i sa → negs sa0 sa0.length < sa0.length →
    ∃ i' sa', compactHead todo i sa = .ok (i', sa') ∧ i' < sa0.length ∧ CInv sa0 i' i' sa' ∧ sa0[i']? = some 0
  | 0, i, sa, hi, h, hn => by
    have h1 := h.num
    have : i = sa0.length := by omega
    rw [this] at h1
    omega
  | todo + 1, i, sa, hi, h, hn => by
    have hlt : i < sa0.length := by omega
    have hget : sa0[i]? = some sa0[i] := List.getElem?_eq_getElem hlt
    generalize sa0[i] = v at hget
    unfold compactHead
    rw [rd_ok ((h.rest i (Nat.le_refl _)).trans hget)]
    simp only [Bind.bind, Except.bind]
    by_cases hv : v < 0
    · rw [if_pos hv, st_ok (low_inv (hr i v hget) hv) (by rw [h.len]; exact hlt)]
      refine compactHead_ok hr hz todo (i + 1) _ (by omega) ⟨by rw [List.length_set, h.len], ?_, ?_, fun r h1 h2 => by omega, ?_⟩ hn
      · rw [negs_neg hget hv, ← h.num]
      · intro q w hq hw hw0
        by_cases he : q = i
        · subst he
          rw [hget] at hw
          injection hw with hw
          subst hw
          rw [← h.num, get_set_eq (by rw [h.len]; exact hlt)]
        · have h1 := negs_neg hw hw0
          have h2 := negs_mono (sa := sa0) (i := q + 1) (j := i) (by omega)
          have h3 := h.num
          rw [get_set_ne (by omega)]
          exact h.kept q w (by omega) hw hw0
      · intro r hr
        rw [get_set_ne (by omega)]
        exact h.rest r (by omega)
    · rw [if_neg hv]
      have := hz i v hget
      have hv0 : v = 0 := by omega
      subst hv0
      exact ⟨i, sa, rfl, hlt, h, hget⟩

theorem compactTail_ok {sa0 : List Int} {m : Nat} (hr : ∀ (q : Nat) (v : Int), sa0[q]? = some v → Low v) (hz : ∀ (q : Nat) (v : Int), sa0[q]? = some v → v ≤ 0) (hm : negs sa0 sa0.length = m) :
    ∀ (todo i j : Nat) (sa : List Int), i + todo = sa0.length → CInv sa0 i j sa → j < i → j < m →
    ∃ sa', compactTail m todo i j sa = .ok sa' ∧ CInv sa0 sa0.length m sa'
  | 0, i, j, sa, hi, h, hj, hjm => by
    have h1 := h.num
    have : i = sa0.length := by omega
    rw [this] at h1
    omega
  | todo + 1, i, j, sa, hi, h, hj, hjm => by
    have hlt : i < sa0.length := by omega
    have hget : sa0[i]? = some sa0[i] := List.getElem?_eq_getElem hlt
    generalize sa0[i] = v at hget
    unfold compactTail
    rw [rd_ok ((h.rest i (Nat.le_refl _)).trans hget)]
    simp only [Bind.bind, Except.bind]
    by_cases hv : v < 0
    · rw [if_pos hv, st_ok (low_inv (hr i v hget) hv) (by rw [h.len]; omega)]
      simp only []
      rw [wr_ok _ (by rw [List.length_set, h.len]; exact hlt)]
      simp only []
      have hc : CInv sa0 (i + 1) (j + 1) ((sa.set j (inv v)).set i 0) := by
        refine ⟨by rw [List.length_set, List.length_set, h.len], by rw [negs_neg hget hv, ← h.num], ?_, ?_, ?_⟩
        · intro q w hq hw hw0
          by_cases he : q = i
          · subst he
            rw [hget] at hw
            injection hw with hw
            subst hw
            rw [← h.num, get_set_ne (by omega), get_set_eq (by rw [h.len]; omega)]
          · have h1 := negs_neg hw hw0
            have h2 := negs_mono (sa := sa0) (i := q + 1) (j := i) (by omega)
            have h3 := h.num
            rw [get_set_ne (by omega), get_set_ne (by omega)]
            exact h.kept q w (by omega) hw hw0
        · intro r h1 h2
          by_cases he : r = i
          · subst he
            rw [get_set_eq (by rw [List.length_set, h.len]; exact hlt)]
          · rw [get_set_ne (by omega), get_set_ne (by omega)]
            exact h.zero r (by omega) (by omega)
        · intro r hr
          rw [get_set_ne (by omega), get_set_ne (by omega)]
          exact h.rest r (by omega)
      by_cases he : j + 1 = m
      · rw [if_pos he]
        refine ⟨_, rfl, hc.len, hm.symm, ?_, ?_, fun r hr => ?_⟩
        · intro q w hq hw hw0
          refine hc.kept q w ?_ hw hw0
          by_cases hqi : q < i + 1
          · exact hqi
          · have h1 := negs_neg hw hw0
            have h2 := negs_mono (sa := sa0) (i := i + 1) (j := q) (by omega)
            have h3 := negs_mono (sa := sa0) (i := q + 1) (j := sa0.length) (by omega)
            have h4 := hc.num
            omega
        · intro r h1 h2
          by_cases hri : r < i + 1
          · exact hc.zero r (by omega) hri
          · rw [hc.rest r (by omega)]
            have hg : sa0[r]? = some sa0[r] := List.getElem?_eq_getElem h2
            generalize sa0[r] = w at hg
            rw [hg]
            by_cases hw0 : w < 0
            · have h1 := negs_neg hg hw0
              have h2 := negs_mono (sa := sa0) (i := i + 1) (j := r) (by omega)
              have h3 := negs_mono (sa := sa0) (i := r + 1) (j := sa0.length) (by omega)
              have h4 := hc.num
              omega
            · have := hz r w hg
              congr 1
              omega
        · exact hc.rest r (by omega)
      · rw [if_neg he]
        exact compactTail_ok hr hz hm todo (i + 1) (j + 1) _ (by omega) hc (by omega) (by omega)
    · rw [if_neg hv]
      have := hz i v hget
      have hv0 : v = 0 := by omega
      subst hv0
      refine compactTail_ok hr hz hm todo (i + 1) j _ (by omega) ⟨h.len, by rw [negs_pos hget (by omega), ← h.num], ?_, ?_, fun r hr => h.rest r (by omega)⟩ (by omega) hjm
      · intro q w hq hw hw0
        by_cases he : q = i
        · subst he
          rw [hget] at hw
          injection hw with hw
          omega
        · exact h.kept q w (by omega) hw hw0
      · intro r h1 h2
        by_cases he : r = i
        · subst he
          rw [h.rest r (Nat.le_refl _), hget]
        · exact h.zero r h1 (by omega)

/-- The negative elements are moved to the front. -/
theorem compact_ok {sa : List Int} {m : Nat} (hr : ∀ (q : Nat) (v : Int), sa[q]? = some v → Low v) (hz : ∀ (q : Nat) (v : Int), sa[q]? = some v → v ≤ 0) (hm : negs sa sa.length = m) (hl : m < sa.length) :
    ∃ sa', compact m sa = .ok sa' ∧ sa'.length = sa.length ∧
      (∀ q v, sa[q]? = some v → v < 0 → sa'[negs sa q]? = some (inv v)) ∧ ∀ r, m ≤ r → r < sa.length → sa'[r]? = some 0 := by
  obtain ⟨i, sa1, h1, h2, h3, h4⟩ := compactHead_ok hr hz sa.length 0 sa (by omega)
    ⟨rfl, rfl, fun q v h => by omega, fun r _ h => by omega, fun r _ => rfl⟩ (by omega)
  unfold compact
  rw [h1]
  simp only [Bind.bind, Except.bind]
  have hi := h3.num
  by_cases him : i < m
  · rw [if_pos him, h3.len]
    have hc : CInv sa (i + 1) i sa1 := by
      refine ⟨h3.len, by rw [negs_pos h4 (by omega), ← hi], ?_, ?_, fun r hr => h3.rest r (by omega)⟩
      · intro q w hq hw hw0
        by_cases he : q = i
        · subst he
          rw [h4] at hw
          injection hw with hw
          omega
        · exact h3.kept q w (by omega) hw hw0
      · intro r hr1 hr2
        have : r = i := by omega
        subst this
        rw [h3.rest r (Nat.le_refl _), h4]
    obtain ⟨sa2, g1, g2⟩ := compactTail_ok hr hz hm (sa.length - (i + 1)) (i + 1) i sa1 (by omega) hc (by omega) him
    exact ⟨sa2, g1, g2.len, fun q v hv => g2.kept q v (get_lt hv) hv, fun r hr1 hr2 => g2.zero r hr1 hr2⟩
  · rw [if_neg him]
    have hmi := negs_mono (sa := sa) (i := i) (j := sa.length) (by omega)
    refine ⟨sa1, rfl, h3.len, fun q v hv hv0 => ?_, fun r hr1 hr2 => ?_⟩
    · refine h3.kept q v ?_ hv hv0
      by_cases hqi : q < i
      · exact hqi
      · have g1 := negs_neg hv hv0
        have g2 := negs_mono (sa := sa) (i := i) (j := q) (by omega)
        have g3 := negs_mono (sa := sa) (i := q + 1) (j := sa.length) (get_lt hv)
        omega
    · rw [h3.rest r (by omega)]
      have hg : sa[r]? = some sa[r] := List.getElem?_eq_getElem hr2
      generalize sa[r] = w at hg
      rw [hg]
      by_cases hw0 : w < 0
      · have g1 := negs_neg hg hw0
        have g2 := negs_mono (sa := sa) (i := i) (j := r) (by omega)
        have g3 := negs_mono (sa := sa) (i := r + 1) (j := sa.length) hr2
        omega
      · have := hz r w hg
        congr 1
        omega

variable {t : List Nat} {k p0 : Nat}

/-- The rank of a left-most S substring. -/
noncomputable def srank (t : List Nat) (x : Nat) : Nat := rnk t.length (fun x => isLms t x = true) (KS t) x

theorem subRanked (t : List Nat) : Ranked t.length (fun x => isLms t x = true) (KS t) where
  lt h := by have := isLms_lt h; omega
  inj h1 h2 h3 := KS_inj (by have := isLms_lt h1; omega) (by have := isLms_lt h2; omega) h3

/-- The sorted left-most S substrings in the first elements. -/
structure Front (t : List Nat) (w : Nat → Int) (sa : List Int) : Prop where
  len : sa.length = t.length
  elem : ∀ x, isLms t x = true → sa[srank t x]? = some (w x)
  zero : ∀ r, lcount t ≤ r → r < t.length → sa[r]? = some 0

theorem negs_sub (hf : IsFirst t p0) {v : Nat → Int} {sa : List Int} (h : SubSorted t p0 v sa) (hv : ∀ x, isLms t x = true → v x < 0) :
    negs sa sa.length = lcount t ∧ ∀ x, isLms t x = true → negs sa (subPos t p0 x) = srank t x := by
  have o := (subS hf).toOrder
  have key : ∀ r, r < t.length → ((∃ w, sa[r]? = some w ∧ w < 0) ↔ ∃ x, isLms t x = true ∧ subPos t p0 x = r) := by
    intro r hr
    constructor
    · rintro ⟨w, h1, h2⟩
      by_cases he : ∃ x, isLms t x = true ∧ subPos t p0 x = r
      · exact he
      · rw [h.zero r hr fun x hx hp => he ⟨x, hx, hp⟩] at h1
        injection h1 with h1
        omega
    · rintro ⟨x, h1, rfl⟩
      exact ⟨v x, h.elem x h1, hv x h1⟩
  have hinj : ∀ x y, isLms t x = true → isLms t y = true → subPos t p0 x = subPos t p0 y → x = y :=
    fun x y hx hy he => o.pos_inj (.inr (lms_high hf hx)) (.inr (lms_high hf hy)) he
  have hlt : ∀ x, isLms t x = true → subPos t p0 x < t.length := fun x hx => o.pos_lt (.inr (lms_high hf hx))
  constructor
  · rw [h.len]
    unfold negs lcount
    rw [← cnt_image (p := fun x => isLms t x = true) (f := subPos t p0) (m := t.length) (n := t.length) (fun x _ hx => hlt x hx) (fun x y _ _ hx hy => hinj x y hx hy)]
    apply cnt_congr
    intro r hr
    rw [key r hr]
    constructor
    · rintro ⟨x, h1, h2⟩
      exact ⟨x, by have := isLms_lt h1; omega, h1, h2⟩
    · rintro ⟨x, _, h1, h2⟩
      exact ⟨x, h1, h2⟩
  · intro x hx
    unfold negs srank rnk
    rw [← cnt_image (p := fun y => isLms t y = true ∧ Lex (KS t y) (KS t x)) (f := subPos t p0) (m := subPos t p0 x) (n := t.length)
      (fun y _ hy => o.mono (.inr (lms_high hf hy.1)) (.inr (lms_high hf hx)) hy.2) (fun y z _ _ hy hz => hinj y z hy.1 hz.1)]
    apply cnt_congr
    intro r hr
    rw [key r (by have := hlt x hx; omega)]
    constructor
    · rintro ⟨y, h1, h2⟩
      refine ⟨y, by have := isLms_lt h1; omega, ⟨h1, ?_⟩, h2⟩
      rw [← o.mono_iff (.inr (lms_high hf h1)) (.inr (lms_high hf hx))]
      rw [← h2] at hr
      exact hr
    · rintro ⟨y, _, h1, h2⟩
      exact ⟨y, h1.1, h2⟩

theorem lcount_half (h0 : 0 < t.length) : 2 * lcount t ≤ t.length := by
  have := lmsList_half h0
  rw [lmsList_length h0] at this
  exact this

theorem compact_front (hf : IsFirst t p0) {v : Nat → Int} {sa : List Int} (h : SubSorted t p0 v sa) (hv : ∀ x, isLms t x = true → v x < 0)
    (hr : ∀ x, isLms t x = true → Low (v x)) :
    ∃ sa', compact (lcount t) sa = .ok sa' ∧ Front t (fun x => inv (v x)) sa' := by
  have h0 := (subL hf).pos
  obtain ⟨hn1, hn2⟩ := negs_sub hf h hv
  have hrr : ∀ (q : Nat) (w : Int), sa[q]? = some w → Low w := by
    intro q w hw
    have hq := get_lt hw
    rw [h.len] at hq
    by_cases he : ∃ x, isLms t x = true ∧ subPos t p0 x = q
    · obtain ⟨x, h1, rfl⟩ := he
      rw [h.elem x h1] at hw
      injection hw with hw
      exact hw ▸ hr x h1
    · rw [h.zero q hq fun x hx hp => he ⟨x, hx, hp⟩] at hw
      injection hw with hw
      unfold Low
      omega
  have hz : ∀ (q : Nat) (w : Int), sa[q]? = some w → w ≤ 0 := by
    intro q w hw
    have hq := get_lt hw
    rw [h.len] at hq
    by_cases he : ∃ x, isLms t x = true ∧ subPos t p0 x = q
    · obtain ⟨x, h1, rfl⟩ := he
      rw [h.elem x h1] at hw
      injection hw with hw
      have := hv x h1
      omega
    · rw [h.zero q hq fun x hx hp => he ⟨x, hx, hp⟩] at hw
      injection hw with hw
      omega
  have := lcount_half h0
  obtain ⟨sa', h1, h2, h3, h4⟩ := compact_ok hrr hz hn1 (by rw [h.len]; omega)
  refine ⟨sa', h1, by rw [h2, h.len], fun x hx => ?_, fun r hr1 hr2 => h4 r hr1 (by rw [h.len]; exact hr2)⟩
  rw [← hn2 x hx]
  exact h3 _ _ (h.elem x hx) (hv x hx)

/-! ### Names -/

/-- The substring of rank `i` differs from the one before. -/
def fI (t : List Nat) (i : Nat) : Prop := ∀ x y, isLms t x = true → isLms t y = true → srank t x + 1 = i → srank t y = i → WS t x ≠ WS t y

/-- The name of a left-most S substring. -/
noncomputable def nm (t : List Nat) (x : Nat) : Nat := cnt (srank t x + 1) (fI t)

/-- The number of names. -/
noncomputable def names (t : List Nat) : Nat := cnt (lcount t) (fI t)

theorem cnt_le_cnt {p : Nat → Prop} {i : Nat} : ∀ {j : Nat}, i ≤ j → cnt i p ≤ cnt j p
  | 0, h => by have : i = 0 := by omega
               subst this; exact Nat.le_refl _
  | j + 1, h => by
    by_cases he : i = j + 1
    · subst he; exact Nat.le_refl _
    · refine Nat.le_trans (cnt_le_cnt (j := j) (by omega)) ?_
      rw [cnt]
      omega

theorem fI_zero (t : List Nat) : fI t 0 := fun x y _ _ h => by omega

theorem fI_iff {x y : Nat} (hx : isLms t x = true) (hy : isLms t y = true) (h : srank t x + 1 = srank t y) : fI t (srank t y) ↔ WS t x ≠ WS t y := by
  constructor
  · intro hh
    exact hh x y hx hy h rfl
  · intro hh u v hu hv h1 h2
    rw [(subRanked t).rnk_inj hu hx (show srank t u = srank t x by omega), (subRanked t).rnk_inj hv hy (show srank t v = srank t y by omega)]
    exact hh

theorem srank_lt {x : Nat} (hx : isLms t x = true) : srank t x < lcount t := (subRanked t).rnk_lt hx

theorem srank_surj {r : Nat} (h : r < lcount t) : ∃ x, isLms t x = true ∧ srank t x = r := (subRanked t).surj h

theorem nm_pos (t : List Nat) (x : Nat) : 0 < nm t x := cnt_pos (a := 0) (by omega) (fI_zero t)

theorem nm_le {x : Nat} (hx : isLms t x = true) : nm t x ≤ names t := cnt_le_cnt (srank_lt hx)

theorem nm_mono {x y : Nat} (h : srank t x ≤ srank t y) : nm t x ≤ nm t y := cnt_le_cnt (by omega)

/-- Substrings of higher rank are not smaller. -/
theorem WS_mono {x y : Nat} (hx : isLms t x = true) (hy : isLms t y = true) (h : srank t x ≤ srank t y) : WS t x = WS t y ∨ Lex (WS t x) (WS t y) := by
  have r := subRanked t
  by_cases he : srank t x = srank t y
  · rw [r.rnk_inj hx hy he]; exact .inl rfl
  · exact KS_WS (r.lt hx) (r.lt hy) ((r.mono_iff hx hy).1 (show srank t x < srank t y by omega))

theorem nm_eq_of_le {x : Nat} (hx : isLms t x = true) : ∀ (d : Nat) (y : Nat), isLms t y = true → srank t y = srank t x + d →
    (nm t x = nm t y ↔ WS t x = WS t y)
  | 0, y, hy, h => by
    rw [(subRanked t).rnk_inj hx hy (show srank t x = srank t y by omega)]
    simp
  | d + 1, y, hy, h => by
    obtain ⟨z, hz, hzr⟩ := srank_surj (t := t) (r := srank t x + d) (by have := srank_lt hy; omega)
    have ih := nm_eq_of_le hx d z hz hzr
    have hfi := fI_iff hz hy (by omega)
    have h1 : nm t x ≤ nm t z := nm_mono (by omega)
    classical
    have h2 : nm t y = nm t z + if fI t (srank t y) then 1 else 0 := by
      have e : srank t y = srank t z + 1 := by omega
      unfold nm
      rw [cnt]
      simp only [e]
    by_cases hw : WS t z = WS t y
    · rw [if_neg (fun h => hfi.1 h hw)] at h2
      rw [h2, ← hw]
      exact ih
    · rw [if_pos (hfi.2 hw)] at h2
      constructor
      · intro h3; omega
      · intro h3
        exfalso
        rcases WS_mono hx hz (by omega) with g1 | g1 <;> rcases WS_mono hz hy (by omega) with g2 | g2
        · exact hw g2
        · rw [← g1, ← h3] at g2; exact Lex.irrefl _ g2
        · exact hw g2
        · rw [h3] at g1; exact g1.asymm g2

theorem nm_eq {x y : Nat} (hx : isLms t x = true) (hy : isLms t y = true) : nm t x = nm t y ↔ WS t x = WS t y := by
  rcases Nat.le_total (srank t x) (srank t y) with h | h
  · exact nm_eq_of_le hx (srank t y - srank t x) y hy (by omega)
  · rw [eq_comm, nm_eq_of_le hy (srank t x - srank t y) x hx (by omega), eq_comm]

/-- Smaller names mean smaller suffixes. -/
theorem nm_lt {x y : Nat} (hx : isLms t x = true) (hy : isLms t y = true) (h : nm t x < nm t y) : Lex (t.drop x) (t.drop y) := by
  have r := subRanked t
  have h1 : srank t x ≤ srank t y := by
    by_cases he : srank t x ≤ srank t y
    · exact he
    · have := nm_mono (t := t) (x := y) (y := x) (by omega)
      omega
  rcases WS_mono hx hy h1 with h2 | h2
  · rw [(nm_eq hx hy).2 h2] at h
    exact absurd h (Nat.lt_irrefl _)
  · exact WS_drop (r.lt hx) (r.lt hy) h2

/-- If all names are different the substrings are in the order of the suffixes. -/
theorem srank_lrank (hn : names t = lcount t) {x : Nat} (hx : isLms t x = true) : srank t x = lrank t x := by
  unfold srank lrank rnk
  apply cnt_congr
  intro y _
  have r := subRanked t
  have r' := lmsRanked t
  have hall : ∀ i, i < lcount t → fI t i := cnt_full hn
  have hval : ∀ z, isLms t z = true → nm t z = srank t z + 1 := by
    intro z hz
    exact cnt_true fun i hi => hall i (by have := srank_lt hz; omega)
  constructor
  · rintro ⟨h1, h2⟩
    refine ⟨h1, nm_lt h1 hx ?_⟩
    have : srank t y < srank t x := r.mono h1 h2
    rw [hval y h1, hval x hx]
    omega
  · rintro ⟨h1, h2⟩
    refine ⟨h1, ?_⟩
    rcases Lex.tri (KS t y) (KS t x) with h3 | h3 | h3
    · exact h3
    · rw [r.inj h1 hx h3] at h2
      exact absurd h2 (Lex.irrefl _)
    · have : srank t x < srank t y := r.mono hx h3
      have h4 := nm_lt hx h1 (by rw [hval y h1, hval x hx]; omega)
      exact absurd h4 h2.asymm

end Sais
end Detools
