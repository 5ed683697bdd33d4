import Verif.Proofs.CInPlaceFiles
/-
The in-place file name function of the C library (C44): it updates the memory file as a
device with such a memory is updated. `DevicePatch` is in Spec/Device.lean.
-/
namespace Detools

attribute [local instance] noLzma

/-- Step callbacks that remember the last step set. -/
def rememberSteps : Steps Int where
  set := some fun _ step => (0, step)
  get := some fun stored => (0, stored, stored)

/-- C44. On a file that begins with the from-data and is at least as long as the memory
the patch was created for, the function returns the size of the to-data; the file then
begins with the to-data, has the same length, and is unchanged beyond the memory of the
patch. Without step callbacks. -/
theorem C44_in_place_filenames [Build] {lib : Lib} (hsa : SuffixArrayInRange lib.suffixArray) {c : Compression} {memory seg : Nat} {minShift : Option Nat}
    {fr to patch : Bytes} (h : DevicePatch lib c memory seg minShift fr to patch) (os : IpOs) (file : Bytes)
    (hmem : os.memory = some file) (hlen : memory ≤ file.length) (hfr : fr.length ≤ memory) (hpre : fr <+: file)
    (hpatch : os.patch = some patch) (hseek : os.seeks = true) (hclose : os.closeMemory = 0 ∧ os.closePatch = 0) (u : υ) :
    ∃ file' u', applyPatchInPlaceFilenames os {} u = .ok (to.length, some file', u') ∧
      to <+: file' ∧ file'.length = file.length ∧ file'.drop memory = file.drop memory := by
  obtain ⟨file', u', h1, h2, h3, h4, _⟩ := filenames_created hsa h os file hmem hlen hfr hpre hpatch hseek
    (fun _ => by simp [inPlaceFileIoCleanup, hclose.1, hclose.2]) (rel := fun _ _ => True) (b := false) (steps := {}) (.inl ⟨rfl, rfl, rfl⟩) u (fun h => by cases h)
  exact ⟨file', u', h1, h2, h3, h4⟩

/-- C44. The same with step callbacks; the stored step is 0 afterwards. -/
theorem C44_in_place_filenames_steps [Build] {lib : Lib} (hsa : SuffixArrayInRange lib.suffixArray) {c : Compression} {memory seg : Nat} {minShift : Option Nat}
    {fr to patch : Bytes} (h : DevicePatch lib c memory seg minShift fr to patch) (os : IpOs) (file : Bytes)
    (hmem : os.memory = some file) (hlen : memory ≤ file.length) (hfr : fr.length ≤ memory) (hpre : fr <+: file)
    (hpatch : os.patch = some patch) (hseek : os.seeks = true) (hclose : os.closeMemory = 0 ∧ os.closePatch = 0) (hne : to ≠ []) :
    ∃ file', applyPatchInPlaceFilenames os rememberSteps 0 = .ok (to.length, some file', 0) ∧
      to <+: file' ∧ file'.length = file.length ∧ file'.drop memory = file.drop memory := by
  obtain ⟨file', u', h1, h2, h3, h4, h5⟩ := filenames_created hsa h os file hmem hlen hfr hpre hpatch hseek
    (fun _ => by simp [inPlaceFileIoCleanup, hclose.1, hclose.2]) (rel := fun n (u : Int) => u = n) (b := true) (steps := rememberSteps)
    (.inr ⟨rfl, ⟨_, rfl, fun n u => ⟨n, rfl, rfl⟩⟩, _, rfl, fun n u h => by rw [h]⟩) 0 (fun _ => rfl)
  rw [h5 hne rfl] at h1
  exact ⟨file', h1, h2, h3, h4⟩

/-- C44. If a file cannot be opened, the size of the patch cannot be found, or the patch
is empty, an error is returned and nothing is written. -/
theorem C44_no_start [Build] (os : IpOs) (steps : Steps υ) (u : υ)
    (h : os.memory = none ∨ os.patch = none ∨ os.seeks = false ∨ os.patch = some []) :
    ∃ e, e < 0 ∧ applyPatchInPlaceFilenames os steps u = .ok (e, os.memory, u) := by
  unfold applyPatchInPlaceFilenames inPlaceFileIoInit
  rcases os with ⟨memory, patch, seeks, c1, c2⟩
  simp only at h
  cases memory with
  | none => exact ⟨_, by decide, rfl⟩
  | some m =>
    cases patch with
    | none => exact ⟨_, by decide, rfl⟩
    | some p =>
      cases seeks with
      | false => exact ⟨_, by decide, rfl⟩
      | true =>
        rcases h with h | h | h | h
        · cases h
        · cases h
        · cases h
        · cases h
          exact ⟨_, by decide, rfl⟩


/-- The files of the example device: its memory is followed by three other bytes. -/
def exampleIpOs : IpOs where
  memory := some [1, 2, 3, 4, 5, 255, 254, 253, 252, 251, 250, 249, 70, 71, 72]
  patch := some exampleInPlacePatch

-- The hypotheses of the two theorems are met.
example : DevicePatch exampleLib .none 12 2 (some 2) [1, 2, 3, 4, 5] [1, 2, 3, 9, 4, 5, 6] exampleInPlacePatch := exampleDevice_patch
example : applyPatchInPlaceFilenames exampleIpOs {} () =
    .ok (7, some [1, 2, 3, 9, 4, 5, 6, 2, 3, 4, 5, 255, 70, 71, 72], ()) := by decide +kernel
example : applyPatchInPlaceFilenames exampleIpOs rememberSteps 0 =
    .ok (7, some [1, 2, 3, 9, 4, 5, 6, 2, 3, 4, 5, 255, 70, 71, 72], 0) := by decide +kernel

-- C44_no_start: the memory file is kept.
example : applyPatchInPlaceFilenames { exampleIpOs with patch := some [] } {} () =
    .ok (FILE_TELL_FAILED, some [1, 2, 3, 4, 5, 255, 254, 253, 252, 251, 250, 249, 70, 71, 72], ()) := by decide +kernel

/-- C44. Why the memory file must be as long as the memory: a file with nothing but
the from-data cannot be updated. -/
theorem C44_short_memory_file :
    applyPatchInPlaceFilenames { exampleIpOs with memory := some [1, 2, 3, 4, 5] } {} () =
      .ok (FILE_READ_FAILED, some [1, 2, 3, 4, 5], ()) := by decide +kernel

/-- C44. The results of closing the files are lost: the memory file could not be written
back, and the function reports success. -/
theorem C44_close_failure_lost [Build] (a b : Int) (os : IpOs) (steps : Steps υ) (u : υ) {n file u'} (hn : 0 < n)
    (h : applyPatchInPlaceFilenames os steps u = .ok (n, file, u')) :
    applyPatchInPlaceFilenames { os with closeMemory := a, closePatch := b } steps u = .ok (n, file, u') := by
  unfold applyPatchInPlaceFilenames at h ⊢
  have hi : inPlaceFileIoInit { os with closeMemory := a, closePatch := b } = inPlaceFileIoInit os := rfl
  rw [hi]
  cases hc : inPlaceFileIoInit os with
  | error e =>
    rw [hc] at h
    exact h
  | ok x =>
    obtain ⟨memory, patch⟩ := x
    rw [hc] at h
    simp only at h ⊢
    cases hr : applyPatchInPlaceCallbacks ((memFileEnv steps).with ReadFile) (patchReadWith (Bytes × υ) fileRead) patch.length
        ((memory, u), { data := patch }) with
    | error e => rw [hr] at h; cases h
    | ok y =>
      obtain ⟨res, w, rs⟩ := y
      rw [hr] at h
      simp only [Bind.bind, Except.bind] at h ⊢
      by_cases h0 : res ≠ 0
      · rw [if_pos h0] at h ⊢
        exact h
      · rw [if_neg h0] at h
        cases h
        exfalso
        have : inPlaceFileIoCleanup os ≤ 0 := by
          unfold inPlaceFileIoCleanup
          split
          · decide
          · rename_i h'
            have : os.closeMemory = 0 := by
              apply Decidable.by_contra
              intro hh
              exact h' (.inl hh)
            omega
        omega

example : applyPatchInPlaceFilenames { exampleIpOs with closeMemory := -1 } {} () =
    .ok (7, some [1, 2, 3, 9, 4, 5, 6, 2, 3, 4, 5, 255, 70, 71, 72], ()) := by decide +kernel

end Detools
