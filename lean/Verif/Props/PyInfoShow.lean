import Verif.Proofs.PyInfoShow
import Verif.Props.PyInfo
/-
C66: what patch_info accepts it can show, and the numbers are true.
-/
namespace Detools

/-- C66, sequential patches: any patch of which patch_info gives the information, made by
detools or not, is shown without an exception, and averages, medians and ratios are those of
its records. There are as many extras and adjustments as diffs, and their sizes add up to the
size of the to-data. The size/data ratio is infinite only if there is no to-data. -/
theorem C66_sequential (lib : Lib) (dfInfo : Int → Bytes → Except PyErr Unit) (knows : Int → Bool) (fuel : Nat) (patch : Bytes) (info : SequentialInfo)
    (h : patchInfo lib dfInfo knows fuel patch = .ok (.sequential info)) :
    ∃ ratio shown, showPatchInfo (.sequential info) = .ok (ratio, [shown]) ∧
      RatioTrue patch.length info.records.toSize ratio ∧ RecordsTrue info.records shown ∧
      (0 ≤ info.records.toSize →
        shown.diffs.total + shown.extras.total = info.records.toSize ∧ shown.extras.number = shown.diffs.number ∧
        info.records.adjustmentSizes.length = shown.diffs.number) ∧
      (0 < info.records.toSize → 0 < shown.diffs.number ∧ ratio ≠ none ∧ shown.sizeDataRatio ≠ none) := by
  obtain ⟨k1, k2⟩ := infoSequential_total lib dfInfo fuel patch (patchInfo_sequential h)
  obtain ⟨shown, h1, h2⟩ := sequentialRecordsShown_ok info.records
  have h2' := h2
  obtain ⟨⟨a1, a2, -, -⟩, ⟨b1, b2, -, -⟩, -, c⟩ := h2'
  have hr := formatRatio_true (info.patchSize : Int) info.records.toSize
  refine ⟨formatRatio info.patchSize info.records.toSize, shown, ?_, by rw [← k1]; exact hr, h2, fun h0 => ?_, fun h0 => ?_⟩
  · simp only [showPatchInfo, h1, Bind.bind, Except.bind, Pure.pure, Except.pure]
  · obtain ⟨m1, m2, m3, -⟩ := k2 h0
    exact ⟨by rw [a2, b2, m1], by rw [a1, b1, m2], by rw [a1, m3]⟩
  · obtain ⟨m1, -, -, m4⟩ := k2 (by omega)
    refine ⟨by rw [a1]; exact List.length_pos_iff.2 (m4 h0), ?_, ?_⟩
    · obtain ⟨x, y, e, -⟩ := hr.2 h0
      rw [e]; simp
    · obtain ⟨x, y, e, -⟩ := c.2 (by omega)
      rw [e]; simp

/-- C66, in-place patches: any patch of which patch_info gives the information is shown without
an exception, though the average and the median of no values would raise one, as each segment
has a diff and an extra. The segments are as many as the to-data needs, all of the segment
size but the last, and their diffs and extras add up to that. -/
theorem C66_in_place (lib : Lib) (dfInfo : Int → Bytes → Except PyErr Unit) (knows : Int → Bool) (fuel : Nat) (patch : Bytes) (info : InPlaceInfo)
    (h : patchInfo lib dfInfo knows fuel patch = .ok (.inPlace info)) :
    ∃ ratio shown, showPatchInfo (.inPlace info) = .ok (ratio, shown) ∧
      RatioTrue patch.length info.header.toSize ratio ∧ shown.length = info.segments.length ∧
      (info.header.toSize ≤ 0 ∨ info.header.segmentSize ≤ 0 → shown = []) ∧
      (0 < info.header.toSize → 0 < info.header.segmentSize →
        (shown.length : Int) = (info.header.toSize + info.header.segmentSize - 1) / info.header.segmentSize) ∧
      ∀ (j : Nat) s x, info.segments[j]? = some s → shown[j]? = some x →
        RecordsTrue s.2.2 x ∧ 0 < x.diffs.number ∧ x.extras.number = x.diffs.number ∧
        s.2.2.adjustmentSizes.length = x.diffs.number ∧ x.sizeDataRatio ≠ none ∧
        x.diffs.total + x.extras.total = min info.header.segmentSize (info.header.toSize - j * info.header.segmentSize) := by
  obtain ⟨k1, k2, k3, k4⟩ := infoInPlace_total lib knows fuel patch (patchInfo_inPlace h)
  obtain ⟨shown, h1, h2, h3⟩ := segmentsRecordsShown_ok info.segments (fun s hs => by
    obtain ⟨j, hj⟩ := List.getElem?_of_mem hs
    obtain ⟨-, -, -, m, -, m'⟩ := k4 j s hj
    exact ⟨m', fun e => m' (List.length_eq_zero_iff.1 (by rw [← m, e]; rfl))⟩)
  refine ⟨formatRatio info.patchSize info.header.toSize, shown, ?_, by rw [← k1]; exact formatRatio_true _ _, h2, fun e => ?_,
    fun e1 e2 => by rw [h2]; exact k3 e1 e2, fun j s x hs hx => ?_⟩
  · simp only [showPatchInfo, h1, Bind.bind, Except.bind, Pure.pure, Except.pure]
  · exact List.length_eq_zero_iff.1 (by rw [h2, k2 e]; rfl)
  · have ht := h3 j s x hs hx
    have ht' := ht
    obtain ⟨⟨a1, a2, -, -⟩, ⟨b1, b2, -, -⟩, -, c⟩ := ht'
    obtain ⟨m1, m2, m3, m4, m5, m6⟩ := k4 j s hs
    refine ⟨ht, by rw [a1]; exact List.length_pos_iff.2 m6, by rw [a1, b1, m4], by rw [a1, m5], ?_, by rw [a2, b2, m3, m1]⟩
    obtain ⟨p, q, e, -⟩ := c.2 (by omega)
    rw [e]; simp

/-- C66, hdiffpatch patches. -/
theorem C66_hdiffpatch (lib : Lib) (dfInfo : Int → Bytes → Except PyErr Unit) (knows : Int → Bool) (fuel : Nat) (patch : Bytes) (size : Nat)
    (c : Compression) (toSize : Int) (h : patchInfo lib dfInfo knows fuel patch = .ok (.hdiffpatch size c toSize)) :
    ∃ ratio, showPatchInfo (.hdiffpatch size c toSize) = .ok (ratio, []) ∧ RatioTrue patch.length toSize ratio := by
  refine ⟨_, rfl, ?_⟩
  rw [patchInfo_hdiffpatch h]
  exact formatRatio_true _ _

-- A sequential patch of two records, 2 + 1 and 3 + 0 bytes; a mean and a median that are cut;
-- values in no order, of which some are negative.
example : (patchInfo exampleLib (fun _ _ => .ok ()) (fun _ => true) 20 [0, 6, 0, 2, 0, 0, 1, 9, 0, 3, 1, 2, 3, 0, 0]).bind showPatchInfo =
    .ok (some (1500, 6), [⟨some (500, 1), some (600, 6), ⟨2, 5, some 2, some 2⟩, ⟨2, 1, some 0, some 0⟩⟩]) := by decide +kernel
example : shownMedian [9, -4, 2, 7] = .ok 4 ∧ shownMedian [9, -4, 2] = .ok 2 ∧ shownMean [-3, -4] = .ok (-3) := by decide +kernel
-- Nothing to take the mean of, which the segments of a patch never meet.
example : segmentRecordsShown ⟨0, [], [], [], 0⟩ = .error (.builtin "StatisticsError") := by decide +kernel
-- An in-place patch of two segments, 2 and 1 bytes.
example : (patchInfo exampleLib (fun _ _ => .ok ()) (fun _ => true) 20 [16, 8, 2, 2, 0, 3, 0, 0, 2, 5, 6, 0, 0, 0, 1, 7, 0]).bind showPatchInfo =
    .ok (some (1700, 3), [⟨some (0, 2), some (300, 2), ⟨1, 0, some 0, some 0⟩, ⟨1, 2, some 2, some 2⟩⟩,
      ⟨some (0, 1), some (300, 1), ⟨1, 0, some 0, some 0⟩, ⟨1, 1, some 1, some 1⟩⟩]) := by decide +kernel

end Detools
