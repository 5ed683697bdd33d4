import Verif.Spec.PyInfoShow
import Verif.Proofs.PyInPlaceExact
/-
Lemmas for C66.
-/
namespace Detools

theorem insertSorted_perm (x : Int) : ∀ l, (insertSorted x l).Perm (x :: l)
  | [] => .refl _
  | y :: ys => by
    unfold insertSorted
    by_cases h : x ≤ y
    · rw [if_pos h]
    · rw [if_neg h]
      exact (List.Perm.cons y (insertSorted_perm x ys)).trans (.swap x y ys)

theorem insertSorted_sorted (x : Int) : ∀ l : List Int, l.Pairwise (· ≤ ·) → (insertSorted x l).Pairwise (· ≤ ·)
  | [], _ => by simp [insertSorted]
  | y :: ys, h => by
    unfold insertSorted
    have h1 := List.pairwise_cons.1 h
    by_cases hx : x ≤ y
    · rw [if_pos hx]
      refine List.pairwise_cons.2 ⟨fun z hz => ?_, h⟩
      rcases List.mem_cons.1 hz with rfl | hz
      · exact hx
      · exact Int.le_trans hx (h1.1 z hz)
    · rw [if_neg hx]
      refine List.pairwise_cons.2 ⟨fun z hz => ?_, insertSorted_sorted x ys h1.2⟩
      rcases List.mem_cons.1 ((insertSorted_perm x ys).mem_iff.1 hz) with rfl | hz
      · omega
      · exact h1.1 z hz

theorem pySorted_perm : ∀ l, (pySorted l).Perm l
  | [] => .refl _
  | x :: xs => (insertSorted_perm x _).trans (.cons x (pySorted_perm xs))

theorem pySorted_sorted : ∀ l, (pySorted l).Pairwise (· ≤ ·)
  | [] => .nil
  | x :: xs => insertSorted_sorted x _ (pySorted_sorted xs)

theorem shownMean_ok (l : List Int) (h : l ≠ []) : ∃ m, shownMean l = .ok m ∧ IsShownMean m l := by
  refine ⟨_, by rw [shownMean, if_neg h], ?_⟩
  have hn : (0 : Int) < l.length := by have := List.length_pos_iff.2 h; omega
  unfold IsShownMean
  generalize (l.length : Int) = n at hn ⊢
  generalize l.sum = t
  have h1 : n * t.tdiv n + t.tmod n = t := Int.mul_tdiv_add_tmod t n
  constructor
  · intro h0
    have h2 := Int.tmod_nonneg n h0
    have h3 := Int.tmod_lt_of_pos t hn
    rw [Int.add_mul, Int.mul_comm (t.tdiv n) n]
    omega
  · intro h0
    have h2 : -n < t.tmod n := Int.lt_tmod_of_pos t hn
    have h3 : t.tmod n ≤ 0 := by
      have := Int.tmod_nonneg n (show 0 ≤ -t by omega)
      rw [Int.neg_tmod] at this
      omega
    rw [Int.sub_mul, Int.mul_comm (t.tdiv n) n]
    omega

theorem shownMedian_ok (l : List Int) (h : l ≠ []) : ∃ m, shownMedian l = .ok m ∧ IsShownMedian m l := by
  have hp := pySorted_perm l
  have hn : 0 < (pySorted l).length := by rw [hp.length_eq]; exact List.length_pos_iff.2 h
  unfold shownMedian
  simp only
  rw [if_neg (by omega)]
  have key (i : Nat) (hi : i < (pySorted l).length) : (pySorted l)[i]? = some ((pySorted l).getD i 0) := by
    rw [List.getD_eq_getElem?_getD, List.getElem?_eq_getElem hi]
    rfl
  by_cases h2 : (pySorted l).length % 2 = 1
  · rw [if_pos h2]
    refine ⟨_, rfl, _, hp, pySorted_sorted l, _, _, key _ (by omega), key _ (by omega), ?_⟩
    rw [show ((pySorted l).length - 1) / 2 = (pySorted l).length / 2 by omega]
    generalize (pySorted l).getD _ 0 = a
    rw [show a + a = a * 2 by omega, Int.mul_tdiv_cancel a (by decide)]
  · rw [if_neg h2]
    refine ⟨_, rfl, _, hp, pySorted_sorted l, _, _, key _ (by omega), key _ (by omega), ?_⟩
    rw [show ((pySorted l).length - 1) / 2 = (pySorted l).length / 2 - 1 by omega]

theorem formatRatio_true (a b : Int) : RatioTrue a b (formatRatio a b) := by
  unfold formatRatio RatioTrue
  refine ⟨fun h => if_neg (by omega), fun h => ⟨_, _, if_pos h, h, rfl⟩⟩

theorem segmentSizesShown_ok (l : List Int) (h : l ≠ []) : ∃ s, segmentSizesShown l = .ok s ∧ SizesTrue l s := by
  obtain ⟨m, h1, h2⟩ := shownMean_ok l h
  obtain ⟨d, h3, h4⟩ := shownMedian_ok l h
  refine ⟨⟨l.length, l.sum, some m, some d⟩, ?_, rfl, rfl, fun e => absurd e h, fun _ => ⟨m, d, rfl, rfl, h2, h4⟩⟩
  simp only [segmentSizesShown, h1, h3, Bind.bind, Except.bind, Pure.pure, Except.pure]

theorem sequentialSizesShown_ok (l : List Int) : ∃ s, sequentialSizesShown l = .ok s ∧ SizesTrue l s := by
  by_cases h : l = []
  · subst h
    exact ⟨_, rfl, rfl, rfl, fun _ => ⟨rfl, rfl⟩, fun e => absurd rfl e⟩
  · obtain ⟨s, h1, h2⟩ := segmentSizesShown_ok l h
    refine ⟨s, ?_, h2⟩
    rw [← h1, sequentialSizesShown, if_pos h]
    rfl

theorem sequentialRecordsShown_ok (i : RecordsInfo) : ∃ s, sequentialRecordsShown i = .ok s ∧ RecordsTrue i s := by
  obtain ⟨a, h1, h2⟩ := sequentialSizesShown_ok i.diffSizes
  obtain ⟨b, h3, h4⟩ := sequentialSizesShown_ok i.extraSizes
  refine ⟨⟨formatRatio i.diffSizes.sum i.extraSizes.sum, formatRatio i.numberOfSizeBytes (i.diffSizes.sum + i.extraSizes.sum), a, b⟩, ?_, h2, h4, formatRatio_true _ _, formatRatio_true _ _⟩
  simp only [sequentialRecordsShown, h1, h3, Bind.bind, Except.bind, Pure.pure, Except.pure]

theorem segmentRecordsShown_ok (i : RecordsInfo) (hd : i.diffSizes ≠ []) (he : i.extraSizes ≠ []) :
    ∃ s, segmentRecordsShown i = .ok s ∧ RecordsTrue i s := by
  obtain ⟨a, h1, h2⟩ := segmentSizesShown_ok i.diffSizes hd
  obtain ⟨b, h3, h4⟩ := segmentSizesShown_ok i.extraSizes he
  refine ⟨⟨formatRatio i.diffSizes.sum i.extraSizes.sum, formatRatio i.numberOfSizeBytes (i.diffSizes.sum + i.extraSizes.sum), a, b⟩, ?_, h2, h4, formatRatio_true _ _, formatRatio_true _ _⟩
  simp only [segmentRecordsShown, h1, h3, Bind.bind, Except.bind, Pure.pure, Except.pure]

/-- What the loop over records gives, whatever the patch. -/
theorem infoLoop_total {D : Decompressor} : ∀ (fuel : Nat) (toPos toSize : Int) (r : PatchReader D) {info r'},
    infoLoop fuel toPos toSize r = .ok (info, r') → toPos ≤ toSize →
    info.toSize = toSize ∧ info.diffSizes.sum + info.extraSizes.sum = toSize - toPos ∧
      info.extraSizes.length = info.diffSizes.length ∧ info.adjustmentSizes.length = info.diffSizes.length ∧
      (toPos < toSize → info.diffSizes ≠ [])
  | 0, toPos, toSize, r, info, r', h, hle => by
    unfold infoLoop at h
    by_cases hlt : toPos < toSize
    · rw [if_pos hlt] at h; cases h
    · rw [if_neg hlt] at h
      cases h
      exact ⟨rfl, by simp; omega, rfl, rfl, fun e => absurd e hlt⟩
  | fuel + 1, toPos, toSize, r, info, r', h, hle => by
    unfold infoLoop at h
    by_cases hlt : toPos < toSize
    · rw [if_pos hlt] at h
      simp only [Bind.bind, Except.bind, Pure.pure, Except.pure] at h
      split at h
      · cases h
      rename_i x hx
      by_cases hd : toPos + x.1 > toSize
      · rw [if_pos hd] at h; cases h
      rw [if_neg hd] at h
      split at h
      · cases h
      split at h
      · cases h
      rename_i y hy
      by_cases he : toPos + x.1 + y.1 > toSize
      · rw [if_pos he] at h; cases h
      rw [if_neg he] at h
      split at h
      · cases h
      split at h
      · cases h
      split at h
      · cases h
      rename_i z hz
      cases h
      obtain ⟨k1, k2, k3, k4, -⟩ := infoLoop_total fuel _ toSize _ (info := z.1) (r' := z.2) hz (by omega)
      refine ⟨rfl, ?_, by simp [k3], by simp [k4], fun _ => by simp⟩
      simp only [List.sum_cons]
      omega
    · rw [if_neg hlt] at h
      cases h
      exact ⟨rfl, by simp; omega, rfl, rfl, fun e => absurd e hlt⟩

/-- The to-data of segment `i`. -/
theorem infoSegments_total {D : Decompressor} (knows : Int → Bool) (fuel : Nat) (seg toSize : Int) (hseg : 0 < seg) :
    ∀ (left i : Nat) (r : PatchReader D) {segments r'}, infoSegments knows fuel seg toSize left i r = .ok (segments, r') →
    (left ≠ 0 → ((i + left - 1 : Nat) : Int) * seg < toSize) →
    segments.length = left ∧ ∀ j s, segments[j]? = some s →
      s.2.2.toSize = min seg (toSize - (i + j : Nat) * seg) ∧ s.2.2.diffSizes.sum + s.2.2.extraSizes.sum = s.2.2.toSize ∧
      s.2.2.extraSizes.length = s.2.2.diffSizes.length ∧ s.2.2.adjustmentSizes.length = s.2.2.diffSizes.length ∧ s.2.2.diffSizes ≠ []
  | 0, i, r, segments, r', h, _ => by
    unfold infoSegments at h
    cases h
    exact ⟨rfl, fun j s hj => by simp at hj⟩
  | left + 1, i, r, segments, r', h, hl => by
    have hl' := hl (by omega)
    have hpos : 0 < toSize - (i : Int) * seg := by
      have h1 : (i : Int) * seg ≤ ((i + (left + 1) - 1 : Nat) : Int) * seg := Int.mul_le_mul_of_nonneg_right (by omega) (by omega)
      omega
    have step {info more} {r1 r2 : PatchReader D} (h1 : infoLoop fuel 0 (min seg (toSize - (i : Int) * seg)) r1 = .ok (info, r2)) {r3 : PatchReader D}
        (h2 : infoSegments knows fuel seg toSize left (i + 1) r2 = .ok (more, r3)) (p : Int) (f : Option Int) :
        ((p, f, info) :: more).length = left + 1 ∧ ∀ j s, ((p, f, info) :: more)[j]? = some s →
      s.2.2.toSize = min seg (toSize - (i + j : Nat) * seg) ∧ s.2.2.diffSizes.sum + s.2.2.extraSizes.sum = s.2.2.toSize ∧
      s.2.2.extraSizes.length = s.2.2.diffSizes.length ∧ s.2.2.adjustmentSizes.length = s.2.2.diffSizes.length ∧ s.2.2.diffSizes ≠ [] := by
      obtain ⟨k1, k2, k3, k4, k5⟩ := infoLoop_total fuel 0 _ r1 h1 (by omega)
      obtain ⟨m1, m2⟩ := infoSegments_total knows fuel seg toSize hseg left (i + 1) r2 h2
        (fun _ => by rw [show i + 1 + left - 1 = i + (left + 1) - 1 by omega]; exact hl')
      refine ⟨by simp [m1], fun j s hj => ?_⟩
      match j with
      | 0 =>
        simp only [List.getElem?_cons_zero, Option.some.injEq] at hj
        subst hj
        exact ⟨k1, by show info.diffSizes.sum + info.extraSizes.sum = info.toSize; omega, k3, k4, k5 (by omega)⟩
      | j + 1 =>
        rw [List.getElem?_cons_succ] at hj
        have := m2 j s hj
        rw [show i + 1 + j = i + (j + 1) by omega] at this
        exact this
    unfold infoSegments at h
    simp only [Bind.bind, Except.bind, Pure.pure, Except.pure] at h
    split at h
    · cases h
    rename_i x hx
    by_cases hd : x.1 > 0
    · rw [if_pos hd] at h
      split at h
      · cases h
      rename_i y hy
      by_cases hk : ¬ knows y.1 = true
      · rw [if_pos hk] at h; cases h
      rw [if_neg hk] at h
      split at h
      · cases h
      split at h
      · cases h
      rename_i z hz
      split at h
      · cases h
      rename_i w hw
      cases h
      exact step (info := z.1) (r2 := z.2) (more := w.1) (r3 := w.2) hz hw _ _
    · rw [if_neg hd] at h
      split at h
      · cases h
      rename_i z hz
      split at h
      · cases h
      rename_i w hw
      cases h
      exact step (info := z.1) (r2 := z.2) (more := w.1) (r3 := w.2) hz hw _ _

theorem segmentsRecordsShown_ok : ∀ (l : List (Int × Option Int × RecordsInfo)),
    (∀ s ∈ l, s.2.2.diffSizes ≠ [] ∧ s.2.2.extraSizes ≠ []) →
    ∃ shown, segmentsRecordsShown l = .ok shown ∧ shown.length = l.length ∧
      ∀ (j : Nat) s x, l[j]? = some s → shown[j]? = some x → RecordsTrue s.2.2 x
  | [], _ => ⟨[], rfl, rfl, fun j s x hj => by simp at hj⟩
  | s :: l, h => by
    obtain ⟨x, h1, h2⟩ := segmentRecordsShown_ok s.2.2 (h s (by simp)).1 (h s (by simp)).2
    obtain ⟨xs, h3, h4, h5⟩ := segmentsRecordsShown_ok l (fun t ht => h t (by simp [ht]))
    refine ⟨x :: xs, ?_, by simp [h4], fun j t y hj hy => ?_⟩
    · simp only [segmentsRecordsShown, h1, h3, Bind.bind, Except.bind, Pure.pure, Except.pure]
    · match j with
      | 0 =>
        simp only [List.getElem?_cons_zero, Option.some.injEq] at hj hy
        subst hj hy
        exact h2
      | j + 1 =>
        rw [List.getElem?_cons_succ] at hj hy
        exact h5 j t y hj hy

/-- The information of a sequential patch. -/
theorem infoSequential_total (lib : Lib) (dfInfo : Int → Bytes → Except PyErr Unit) (fuel : Nat) (patch : Bytes) {info}
    (h : infoSequential lib dfInfo fuel patch = .ok info) :
    info.patchSize = patch.length ∧ (0 ≤ info.records.toSize →
      info.records.diffSizes.sum + info.records.extraSizes.sum = info.records.toSize ∧
      info.records.extraSizes.length = info.records.diffSizes.length ∧
      info.records.adjustmentSizes.length = info.records.diffSizes.length ∧
      (0 < info.records.toSize → info.records.diffSizes ≠ [])) := by
  unfold infoSequential at h
  simp only [Bind.bind, Except.bind, Pure.pure, Except.pure] at h
  split at h
  · cases h
  rename_i x hx
  by_cases h0 : x.2.1 = 0
  · rw [if_pos h0] at h
    cases h
    exact ⟨rfl, fun _ => ⟨rfl, rfl, rfl, fun e => absurd (show (0 : Int) < 0 from e) (by decide)⟩⟩
  rw [if_neg h0] at h
  split at h
  · cases h
  split at h
  · cases h
  rename_i z hz
  split at h
  · cases h
  cases h
  refine ⟨rfl, fun hle => ?_⟩
  show z.1.diffSizes.sum + z.1.extraSizes.sum = z.1.toSize ∧ z.1.extraSizes.length = z.1.diffSizes.length ∧
    z.1.adjustmentSizes.length = z.1.diffSizes.length ∧ (0 < z.1.toSize → z.1.diffSizes ≠ [])
  by_cases hp : 0 ≤ x.2.1
  · obtain ⟨k1, k2, k3, k4, k5⟩ := infoLoop_total fuel 0 _ _ (info := z.1) (r' := z.2) hz hp
    exact ⟨by omega, k3, k4, fun e => k5 (by omega)⟩
  · exfalso
    have hle : 0 ≤ z.1.toSize := hle
    have : z.1.toSize = x.2.1 := by
      cases fuel with
      | zero => unfold infoLoop at hz; rw [if_neg (fun e => hp (Int.le_of_lt e))] at hz; cases hz; rfl
      | succ fuel => unfold infoLoop at hz; rw [if_neg (fun e => hp (Int.le_of_lt e))] at hz; cases hz; rfl
    omega

/-- The information of an in-place patch. -/
theorem infoInPlace_total (lib : Lib) (knows : Int → Bool) (fuel : Nat) (patch : Bytes) {info}
    (h : infoInPlace lib knows fuel patch = .ok info) :
    info.patchSize = patch.length ∧
    (info.header.toSize ≤ 0 ∨ info.header.segmentSize ≤ 0 → info.segments = []) ∧
    (0 < info.header.toSize → 0 < info.header.segmentSize →
      (info.segments.length : Int) = (info.header.toSize + info.header.segmentSize - 1) / info.header.segmentSize) ∧
    ∀ (j : Nat) s, info.segments[j]? = some s →
      s.2.2.toSize = min info.header.segmentSize (info.header.toSize - j * info.header.segmentSize) ∧
      0 < s.2.2.toSize ∧ s.2.2.diffSizes.sum + s.2.2.extraSizes.sum = s.2.2.toSize ∧
      s.2.2.extraSizes.length = s.2.2.diffSizes.length ∧ s.2.2.adjustmentSizes.length = s.2.2.diffSizes.length ∧ s.2.2.diffSizes ≠ [] := by
  unfold infoInPlace at h
  simp only [Bind.bind, Except.bind, Pure.pure, Except.pure] at h
  split at h
  · cases h
  rename_i x hx
  by_cases h0 : x.1.toSize > 0
  · rw [if_pos h0] at h
    by_cases hz : x.1.segmentSize = 0
    · rw [if_pos hz] at h; cases h
    rw [if_neg hz] at h
    split at h
    · cases h
    rename_i z hs
    cases h
    rw [rangeLength_eq _ _ hz] at hs
    by_cases hneg : x.1.segmentSize < 0
    · rw [if_pos hneg] at hs
      unfold infoSegments at hs
      cases hs
      exact ⟨rfl, fun _ => rfl, fun _ h2 => absurd (show 0 < x.1.segmentSize from h2) (by omega), fun j s hj => by simp at hj⟩
    · rw [if_neg hneg] at hs
      have hp : 0 < x.1.segmentSize := by omega
      have hq : 0 ≤ (x.1.toSize + x.1.segmentSize - 1) / x.1.segmentSize := Int.ediv_nonneg (by omega) (by omega)
      have hlast : (x.1.toSize + x.1.segmentSize - 1) / x.1.segmentSize * x.1.segmentSize ≤ x.1.toSize + x.1.segmentSize - 1 :=
        Int.ediv_mul_le _ (by omega)
      obtain ⟨k1, k2⟩ := infoSegments_total knows fuel _ _ hp _ 0 _ (segments := z.1) (r' := z.2) hs (fun hne => by
        rw [show (((0 + ((x.1.toSize + x.1.segmentSize - 1) / x.1.segmentSize).toNat - 1 : Nat)) : Int) =
          (x.1.toSize + x.1.segmentSize - 1) / x.1.segmentSize - 1 by omega, Int.sub_mul]
        omega)
      refine ⟨rfl, fun h => ?_, fun _ _ => ?_, fun j s hj => ?_⟩
      · rcases h with h | h
        · exact absurd (show x.1.toSize ≤ 0 from h) (by omega)
        · exact absurd (show x.1.segmentSize ≤ 0 from h) (by omega)
      · show (z.1.length : Int) = _
        rw [k1, Int.toNat_of_nonneg hq]
      · obtain ⟨m1, m2, m3, m4, m5⟩ := k2 j s hj
        rw [Nat.zero_add] at m1
        refine ⟨m1, ?_, m2, m3, m4, m5⟩
        rw [m1]
        have hj' : j < z.1.length := (List.getElem?_eq_some_iff.1 hj).1
        have h3 : (j : Int) ≤ (x.1.toSize + x.1.segmentSize - 1) / x.1.segmentSize - 1 := by omega
        have h4 := Int.mul_le_mul_of_nonneg_right h3 (show 0 ≤ x.1.segmentSize by omega)
        rw [Int.sub_mul] at h4
        omega
  · rw [if_neg h0] at h
    cases h
    exact ⟨rfl, fun _ => rfl, fun h => absurd (show 0 < x.1.toSize from h) (by omega), fun j s hj => by simp at hj⟩

theorem patchInfo_sequential {lib : Lib} {dfInfo : Int → Bytes → Except PyErr Unit} {knows : Int → Bool} {fuel : Nat} {patch : Bytes} {info}
    (h : patchInfo lib dfInfo knows fuel patch = .ok (.sequential info)) : infoSequential lib dfInfo fuel patch = .ok info := by
  unfold patchInfo at h
  simp only [Bind.bind, Except.bind, Pure.pure, Except.pure] at h
  split at h
  · cases h
  split at h
  · cases e : infoSequential lib dfInfo fuel patch with
    | error e' => rw [e] at h; cases h
    | ok i => rw [e] at h; cases h; rfl
  split at h
  · cases e : infoInPlace lib knows fuel patch with
    | error e' => rw [e] at h; cases h
    | ok i => rw [e] at h; cases h
  split at h
  · split at h <;> cases h
  · cases h

theorem patchInfo_inPlace {lib : Lib} {dfInfo : Int → Bytes → Except PyErr Unit} {knows : Int → Bool} {fuel : Nat} {patch : Bytes} {info}
    (h : patchInfo lib dfInfo knows fuel patch = .ok (.inPlace info)) : infoInPlace lib knows fuel patch = .ok info := by
  unfold patchInfo at h
  simp only [Bind.bind, Except.bind, Pure.pure, Except.pure] at h
  split at h
  · cases h
  split at h
  · cases e : infoSequential lib dfInfo fuel patch with
    | error e' => rw [e] at h; cases h
    | ok i => rw [e] at h; cases h
  split at h
  · cases e : infoInPlace lib knows fuel patch with
    | error e' => rw [e] at h; cases h
    | ok i => rw [e] at h; cases h; rfl
  split at h
  · split at h <;> cases h
  · cases h

theorem patchInfo_hdiffpatch {lib : Lib} {dfInfo : Int → Bytes → Except PyErr Unit} {knows : Int → Bool} {fuel : Nat} {patch : Bytes} {n c t}
    (h : patchInfo lib dfInfo knows fuel patch = .ok (.hdiffpatch n c t)) : n = patch.length := by
  unfold patchInfo at h
  simp only [Bind.bind, Except.bind, Pure.pure, Except.pure] at h
  split at h
  · cases h
  split at h
  · cases e : infoSequential lib dfInfo fuel patch with
    | error e' => rw [e] at h; cases h
    | ok i => rw [e] at h; cases h
  split at h
  · cases e : infoInPlace lib knows fuel patch with
    | error e' => rw [e] at h; cases h
    | ok i => rw [e] at h; cases h
  split at h
  · split at h <;> cases h
    rfl
  · cases h

end Detools
