import Verif.Proofs.PyInPlace
import Verif.Props.Sequential
/-
C18, C35: in-place patches in Python.

`createInPlace` returns the whole patch file. `applyInPlace … patch mem` is the contents
of the memory file afterwards, and the returned value or exception. `fr <+: mem` says
that the memory starts with `fr`.
-/
namespace Detools

/-- C18. For every compression whose codec is lossless under streaming use: creating an
in-place patch succeeds, and applying it to a memory that starts with the from-data
returns the to size and leaves a memory that starts with the to-data. Nothing at or above
the memory size is changed when the to-data and the minimum shift fit in memory. -/
theorem C18_in_place_roundtrip (lib : Lib) (hsa : SuffixArrayInRange lib.suffixArray) (c : Compression)
    (L : Lossless (lib.codecOf c)) (memory seg : Nat) (minShift : Option Nat) (fr to mem : Bytes)
    (hseg : 0 < seg) (hmem : seg ∣ memory) (hmin : seg ∣ minShift.getD (2 * seg))
    (hsize : memory < 2 ^ 62 ∧ seg < 2 ^ 62 ∧ minShift.getD (2 * seg) < 2 ^ 62 ∧ fr.length + to.length < 2 ^ 31)
    (hfr : fr <+: mem) (hml : memory ≤ mem.length) :
    ∃ patch, createInPlace lib c memory seg (minShift.map Int.ofNat) none fr to = .ok patch ∧
      ∃ mem' F, (∀ fuel, F ≤ fuel → applyInPlace lib fuel patch mem = (mem', .ok to.length)) ∧
        to <+: mem' ∧
        (to.length ≤ memory → minShift.getD (2 * seg) ≤ memory →
          mem'.length = mem.length ∧ mem'.drop memory = mem.drop memory) := by
  obtain ⟨z1, z2, z3, z4⟩ := hsize
  obtain ⟨patch, hc, hp⟩ := createInPlace_ok lib hsa c memory seg minShift fr to hseg hmem hmin z1 z3 z4 z2
  obtain ⟨shift, hs⟩ : ∃ shift, shift = shiftOf memory seg (minShift.getD (2 * seg)) fr.length := ⟨_, rfl⟩
  rw [← hs] at hp
  obtain ⟨F, hF⟩ := applyInPlace_ok lib c L memory seg shift fr to patch mem hseg hp hml hfr
  refine ⟨patch, hc, _, F, hF, ?_, ?_⟩
  · split
    · rename_i h
      rw [List.eq_nil_of_length_eq_zero h]
      exact List.nil_prefix
    · exact Holds.zero_iff.1 (Holds.written _ _ _)
  · intro k1 k2
    split
    · exact ⟨rfl, rfl⟩
    · have hsm : shift ≤ memory := by
        rw [hs]
        unfold shiftOf
        have : (memory + seg - 1) / seg * seg ≤ memory := by
          obtain ⟨q, rfl⟩ := hmem
          rw [show (seg * q + seg - 1) = (seg - 1) + seg * q by omega, Nat.add_mul_div_left _ _ hseg,
            Nat.div_eq_of_lt (by omega), Nat.zero_add, Nat.mul_comm]
          exact Nat.le_refl _
        omega
      have hsl : (sliceTo fr ((memory : Int) - shift)).length ≤ memory - shift := by
        unfold sliceTo
        split
        · simp; omega
        · omega
      have hl1 := fileWrite_length mem shift (sliceTo fr ((memory : Int) - shift)) (by omega)
      have hl2 := fileWrite_length (fileWrite mem shift (sliceTo fr ((memory : Int) - shift))) 0 to (by omega)
      refine ⟨by omega, ?_⟩
      apply List.ext_getElem?
      intro k
      rw [List.getElem?_drop, List.getElem?_drop, fileWrite_get, if_neg (by omega), if_neg (by omega), fileWrite_get]
      by_cases h : memory + k < shift
      · omega
      · rw [if_neg h, if_neg (by omega)]

/-- C18. The codecs of detools itself. -/
theorem C18_in_place_roundtrip_none_crle (lib : Lib) (hsa : SuffixArrayInRange lib.suffixArray) (c : Compression)
    (hc : c = .none ∨ c = .crle) (memory seg : Nat) (minShift : Option Nat) (fr to mem : Bytes)
    (hseg : 0 < seg) (hmem : seg ∣ memory) (hmin : seg ∣ minShift.getD (2 * seg))
    (hsize : memory < 2 ^ 62 ∧ seg < 2 ^ 62 ∧ minShift.getD (2 * seg) < 2 ^ 62 ∧ fr.length + to.length < 2 ^ 31)
    (hfr : fr <+: mem) (hml : memory ≤ mem.length) :
    ∃ patch, createInPlace lib c memory seg (minShift.map Int.ofNat) none fr to = .ok patch ∧
      ∃ mem' F, (∀ fuel, F ≤ fuel → applyInPlace lib fuel patch mem = (mem', .ok to.length)) ∧ to <+: mem' := by
  rcases hc with rfl | rfl
  · obtain ⟨p, h1, m, F, h2, h3, _⟩ := C18_in_place_roundtrip lib hsa .none noneLossless memory seg minShift fr to mem hseg hmem hmin hsize hfr hml
    exact ⟨p, h1, m, F, h2, h3⟩
  · obtain ⟨p, h1, m, F, h2, h3, _⟩ := C18_in_place_roundtrip lib hsa .crle crleLossless memory seg minShift fr to mem hseg hmem hmin hsize hfr hml
    exact ⟨p, h1, m, F, h2, h3⟩

/-- The patch of the examples: memory 12, segments of 2, minimum shift 2, so shift 6. -/
def exampleInPlacePatch : Bytes :=
  [16, 12, 2, 6, 5, 7, 0, 2, 0, 0, 0, 66, 0, 0, 2, 3, 9, 5, 0, 0, 2, 4, 5, 4, 0, 0, 1, 6, 3]

example : createInPlace exampleLib .none 12 2 (some 2) none [1, 2, 3, 4, 5] [1, 2, 3, 9, 4, 5, 6] =
    .ok exampleInPlacePatch := by decide +kernel

example : applyInPlace exampleLib 40 exampleInPlacePatch [1, 2, 3, 4, 5, 255, 254, 253, 252, 251, 250, 249, 77] =
    ([1, 2, 3, 9, 4, 5, 6, 2, 3, 4, 5, 249, 77], .ok 7) := by decide +kernel

/-- C35. With a positive segment size and sizes that can be packed, creation succeeds
exactly when the memory size and the minimum shift size (twice the segment size by
default) are multiples of the segment size, and otherwise raises `detools.Error`. -/
theorem C35_multiples (lib : Lib) (hsa : SuffixArrayInRange lib.suffixArray) (c : Compression)
    (memory seg : Nat) (minShift : Option Nat) (fr to : Bytes) (hseg : 0 < seg)
    (hsize : memory < 2 ^ 62 ∧ seg < 2 ^ 62 ∧ minShift.getD (2 * seg) < 2 ^ 62 ∧ fr.length + to.length < 2 ^ 31) :
    ((∃ patch, createInPlace lib c memory seg (minShift.map Int.ofNat) none fr to = .ok patch) ↔
      seg ∣ memory ∧ seg ∣ minShift.getD (2 * seg)) ∧
    (¬ (seg ∣ memory ∧ seg ∣ minShift.getD (2 * seg)) →
      ∃ msg, createInPlace lib c memory seg (minShift.map Int.ofNat) none fr to = .error (.error msg)) := by
  obtain ⟨z1, z2, z3, z4⟩ := hsize
  have key : ¬ (seg ∣ memory ∧ seg ∣ minShift.getD (2 * seg)) →
      ∃ msg, createInPlace lib c memory seg (minShift.map Int.ofNat) none fr to = .error (.error msg) := by
    intro hno
    have hfm : ∀ n : Nat, Int.fmod (n : Int) seg = 0 → seg ∣ n := by
      intro n h
      rw [Int.fmod_eq_emod_of_nonneg _ (by omega)] at h
      exact Int.natCast_dvd_natCast.1 (Int.dvd_of_emod_eq_zero h)
    unfold createInPlace
    rw [if_neg (by omega)]
    by_cases h1 : Int.fmod (memory : Int) seg = 0
    · rw [if_neg (by simp [h1])]
      have hms : (minShift.map Int.ofNat).getD (2 * (seg : Int)) = (minShift.getD (2 * seg) : Nat) := by
        cases minShift <;> simp
      simp only [hms]
      rw [if_pos]
      · exact ⟨_, rfl⟩
      · intro h2
        exact hno ⟨hfm _ h1, hfm _ h2⟩
    · rw [if_pos h1]
      exact ⟨_, rfl⟩
  refine ⟨⟨?_, ?_⟩, key⟩
  · rintro ⟨p, hp⟩
    apply Classical.byContradiction
    intro hno
    obtain ⟨m, hm⟩ := key hno
    rw [hm] at hp
    cases hp
  · rintro ⟨h1, h2⟩
    obtain ⟨p, hp, _⟩ := createInPlace_ok lib hsa c memory seg minShift fr to hseg h1 h2 z1 z3 z4 z2
    exact ⟨p, hp⟩

/-- C35. The header of a created patch holds the given sizes and a shift size that is a
multiple of the segment size and at least the minimum; when there is room for the
minimum shift the shifted from-data ends inside memory; and a shift above the minimum
leaves less than a segment unused, so the from-data is shifted as far as possible. -/
theorem C35_geometry (lib : Lib) (hsa : SuffixArrayInRange lib.suffixArray) (c : Compression)
    (memory seg : Nat) (minShift : Option Nat) (fr to patch : Bytes) (hseg : 0 < seg)
    (hsize : memory < 2 ^ 62 ∧ seg < 2 ^ 62 ∧ minShift.getD (2 * seg) < 2 ^ 62 ∧ fr.length + to.length < 2 ^ 31)
    (hp : createInPlace lib c memory seg (minShift.map Int.ofNat) none fr to = .ok patch) :
    ∃ (shift : Nat) (body : Bytes),
      readHeaderInPlace patch = .ok (⟨c, memory, seg, shift, fr.length, to.length⟩, body) ∧
      seg ∣ shift ∧ minShift.getD (2 * seg) ≤ shift ∧
      (fr.length + minShift.getD (2 * seg) ≤ memory → shift + fr.length ≤ memory) ∧
      (minShift.getD (2 * seg) < shift → memory < shift + fr.length + seg) := by
  obtain ⟨z1, z2, z3, z4⟩ := hsize
  obtain ⟨hd1, hd2⟩ := (C35_multiples lib hsa c memory seg minShift fr to hseg ⟨z1, z2, z3, z4⟩).1.1 ⟨_, hp⟩
  obtain ⟨p, hp', hs⟩ := createInPlace_ok lib hsa c memory seg minShift fr to hseg hd1 hd2 z1 z3 z4 z2
  rw [hp] at hp'
  cases hp'
  obtain ⟨opss, rfl, _⟩ := hs.shape
  refine ⟨_, _, readHeaderInPlace_ok _ _ _ _ _ _ _, ?_⟩
  generalize minShift.getD (2 * seg) = k at *
  obtain ⟨a, rfl⟩ := hd1
  obtain ⟨b, rfl⟩ := hd2
  unfold shiftOf
  rw [show (seg * a + seg - 1) = (seg - 1) + seg * a by omega, Nat.add_mul_div_left _ _ hseg,
    Nat.div_eq_of_lt (by omega), Nat.zero_add, Nat.mul_comm a seg]
  obtain ⟨q, hq⟩ : ∃ q, q = (fr.length + seg - 1) / seg := ⟨_, rfl⟩
  rw [← hq]
  have hq1 : fr.length ≤ q * seg ∧ q * seg < fr.length + seg := by
    rcases Nat.eq_zero_or_pos fr.length with h | h
    · have : q = 0 := by rw [hq, h]; exact Nat.div_eq_of_lt (by omega)
      rw [this, h]; omega
    · obtain ⟨k1, k2, k3⟩ := segments_count fr.length seg hseg h
      rw [← hq] at k1 k2 k3
      rw [Nat.sub_mul, Nat.one_mul] at k2
      omega
  refine ⟨?_, Nat.le_max_left _ _, ?_, ?_⟩
  · rcases Nat.le_total (seg * b) (seg * a - q * seg) with h | h
    · rw [Nat.max_eq_right h]
      exact Nat.dvd_sub (Nat.dvd_mul_right _ _) (Nat.dvd_mul_left _ _)
    · rw [Nat.max_eq_left h]
      exact Nat.dvd_mul_right _ _
  · intro h
    -- the rounded up from size also fits
    have h1 : (q - 1) * seg < (a - b) * seg ∨ q = 0 := by
      rcases Nat.eq_zero_or_pos q with h0 | h0
      · exact .inr h0
      · left
        have := Nat.le_mul_of_pos_left seg h0
        rw [Nat.sub_mul, Nat.one_mul, Nat.sub_mul, Nat.mul_comm a, Nat.mul_comm b]
        omega
    have h2 : q * seg ≤ (a - b) * seg := by
      rcases h1 with h1 | h1
      · have := Nat.lt_of_mul_lt_mul_right h1
        exact Nat.mul_le_mul_right _ (by omega)
      · rw [h1]; omega
    rw [Nat.sub_mul, Nat.mul_comm a, Nat.mul_comm b] at h2
    omega
  · intro h
    omega

-- Memory 12, from 5 bytes (3 segments), so shift 6 although 2 would do.
example : (readHeaderInPlace exampleInPlacePatch).map (·.1) = .ok ⟨.none, 12, 2, 6, 5, 7⟩ := by decide +kernel
-- Not a multiple.
example : createInPlace exampleLib .none 13 2 none none [1] [2] =
    .error (.error "Memory size is not a multiple of segment size.") := by decide +kernel
example : createInPlace exampleLib .none 12 2 (some 3) none [1] [2] =
    .error (.error "Minimum shift size is not a multiple of segment size.") := by decide +kernel

/-- C18, C35. What is not covered: a patch created with a data format whose patch of the
first segment is not empty is created but can never be applied. -/
theorem C18_data_format_not_applicable (lib : Lib) (fuel : Nat) (patch mem : Bytes) (h : InPlaceHeader) (rest : Bytes)
    (hh : readHeaderInPlace patch = .ok (h, rest)) (h0 : 0 < h.toSize) (hseg : 0 < h.segmentSize) (hshift : 0 ≤ h.shiftSize)
    (hm : h.memorySize ≤ mem.length) (n : Int) (r : PatchReader (lib.codecOf h.compression).decomp) (hn : 0 < n)
    (hr : ({ st := (lib.codecOf h.compression).initDecomp rest.length, file := rest } : PatchReader _).unpackSize fuel = .ok (n, r)) :
    (applyInPlace lib fuel patch mem).2 = .error .notImplemented := by
  unfold applyInPlace
  rw [hh, Mem.lift_bind_ok]
  simp only
  rw [if_pos h0]
  unfold applyInPlaceBody
  obtain ⟨m1, hm1⟩ : ∃ m1, shiftMemory h.memorySize h.shiftSize h.fromSize mem = (m1, .ok ()) := by
    unfold shiftMemory
    rw [if_neg (by omega)]
    unfold Mem.writeAt
    simp only
    rw [if_neg (by omega)]
    exact ⟨_, rfl⟩
  rw [Mem.bind_ok hm1]
  have hs0 : ¬ (h.segmentSize = 0) := by omega
  simp only [hs0, if_false]
  have hc : 0 < rangeLength h.toSize h.segmentSize := by
    obtain ⟨t, ht⟩ := Int.eq_ofNat_of_zero_le (a := h.toSize) (by omega)
    obtain ⟨s, hs⟩ := Int.eq_ofNat_of_zero_le (a := h.segmentSize) (by omega)
    unfold rangeLength
    rw [if_neg (by omega), ht, hs]
    have := divCeil_nat t s (by omega)
    rw [this, Int.toNat_natCast]
    exact (segments_count t s (by omega) (by omega)).1
  obtain ⟨k, hk⟩ : ∃ k, rangeLength h.toSize h.segmentSize = k + 1 := ⟨_, (Nat.succ_pred_eq_of_pos hc).symm⟩
  rw [hk, applySegments]
  simp only [applyInPlaceSegment, hr, Mem.lift_bind_ok]
  rw [if_pos hn]
  rfl

/-- C17, Python, in-place, no compression: appending anything to a created patch with
non-empty to-data makes `apply_patch_in_place` raise "End of patch not found.". -/
theorem C17_in_place_trailing_none (lib : Lib) (hsa : SuffixArrayInRange lib.suffixArray)
    (memory seg : Nat) (minShift : Option Nat) (fr to mem patch z : Bytes)
    (hseg : 0 < seg) (hmem : seg ∣ memory) (hmin : seg ∣ minShift.getD (2 * seg))
    (hsize : memory < 2 ^ 62 ∧ seg < 2 ^ 62 ∧ minShift.getD (2 * seg) < 2 ^ 62 ∧ fr.length + to.length < 2 ^ 31)
    (hcreate : createInPlace lib .none memory seg (minShift.map Int.ofNat) none fr to = .ok patch)
    (hne : to ≠ []) (hz : z ≠ []) (hfr : fr <+: mem) (hml : memory ≤ mem.length) :
    ∃ F mem', ∀ fuel, F ≤ fuel →
      applyInPlace lib fuel (patch ++ z) mem = (mem', .error (.error "End of patch not found.")) := by
  obtain ⟨z1, z2, z3, z4⟩ := hsize
  obtain ⟨opss, g1, g2, g3, _⟩ := createInPlace_all lib hsa memory seg minShift fr to hseg hmem hmin z1 z3 z4 z2
  have hl : to.length ≠ 0 := by simpa using hne
  have h := (g1 .none).symm.trans hcreate
  rw [if_neg hl] at h
  cases h
  have hrun : (lib.codecOf .none).comp.run [encodeSegments opss] = encodeSegments opss := by
    exact (noneRun [encodeSegments opss]).trans (by simp)
  rw [hrun]
  obtain ⟨F, hF⟩ := applyInPlace_tail lib .none noneLossless.toDelivers memory seg _ fr to (encodeSegments opss ++ z) z mem opss hseg
    (by omega) g2 g3 ⟨rfl, rfl⟩ hml hfr
  simp only [if_neg hz] at hF
  rw [List.append_assoc _ _ z]
  exact ⟨F, _, hF⟩

example : (applyInPlace exampleLib 40 (exampleInPlacePatch ++ [0]) [1, 2, 3, 4, 5, 255, 254, 253, 252, 251, 250, 249, 77]).2 =
    .error (.error "End of patch not found.") := by decide +kernel

end Detools
