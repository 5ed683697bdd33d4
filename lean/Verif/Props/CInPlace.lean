import Verif.Props.CInPlaceFormat
import Verif.Props.PyInPlace
/-
C19, C20, C21, C22: in-place updates with the C library, on a memory that may lose power
at any moment (Spec/Flash.lean, Spec/Device.lean).
-/
namespace Detools

attribute [local instance] noLzma

variable {lib : Lib} {c : Compression} {memory seg : Nat} {minShift : Option Nat} {fr to patch : Bytes}

/-- The divisibility creation checks. -/
theorem DevicePatch.dvd [Build] (hsa : SuffixArrayInRange lib.suffixArray) (h : DevicePatch lib c memory seg minShift fr to patch) (hfr : fr.length ≤ memory) :
    seg ∣ memory ∧ seg ∣ minShift.getD (2 * seg) := by
  have h1 := h.small
  have h2 := h.room
  have h3 := h.fits
  have h4 := h.segLe
  exact (C35_multiples lib hsa c memory seg minShift fr to h.segPos ⟨by omega, by omega, by omega, by omega⟩).1.1 ⟨_, h.created⟩

/-- C50. Created patches have the format C50 is about. -/
theorem C50_created [Build] (hsa : SuffixArrayInRange lib.suffixArray) (h : DevicePatch lib c memory seg minShift fr to patch)
    {f : Flash} (hf : Fresh memory fr f) : DeviceFormat c memory seg (shiftOf memory seg (minShift.getD (2 * seg)) fr.length) fr to patch := by
  have hfl := hf.mem.length_le
  rw [hf.len] at hfl
  obtain ⟨hd1, hd2⟩ := h.dvd hsa hfl
  exact device_format hsa h hd1 hd2 hfl

/-- C19. A device without step callbacks (or with them), with power: the update returns
the size of the to-data and leaves it at the start of the memory, for every way to
divide the patch, whatever erasing leaves in the memory. -/
theorem C19_c_in_place_roundtrip [Build] (hsa : SuffixArrayInRange lib.suffixArray)
    (h : DevicePatch lib c memory seg minShift fr to patch) (f : Flash) (hf : Fresh memory fr f)
    (P : Power) (hpow : P.limit = none) (steps : Bool)
    (pieces : List Bytes) (hpieces : pieces.flatten = patch) (hw : WholeHeader patch pieces) :
    ∃ s w, inPlacePieces (flashEnv P steps) patch.length (powerOn f) pieces = .ok (to.length, s, w) ∧
      to <+: w.arg.mem ∧ w.arg.mem.length = memory ∧ (to ≠ [] → steps = true → w.arg.step = 0) :=
  C50_roundtrip (C50_created hsa h hf) f hf P hpow steps pieces hpieces hw

/-- C20. After any number of attempts, each of which may lose power at any moment (in
the middle of a write, erase or step set, which then leave anything) or stop at any
point of the patch, and none of which completed the update, an update with power
succeeds. -/
theorem C20_survives_interruption [Build] (hsa : SuffixArrayInRange lib.suffixArray)
    (h : DevicePatch lib c memory seg minShift fr to patch) (f : Flash) (hf : Fresh memory fr f)
    (f' : Flash) (hatt : Attempts patch f f') (P : Power) (hpow : P.limit = none)
    (pieces : List Bytes) (hpieces : pieces.flatten = patch) (hw : WholeHeader patch pieces) :
    ∃ s w, inPlacePieces (flashEnv P true) patch.length (powerOn f') pieces = .ok (to.length, s, w) ∧
      to <+: w.arg.mem ∧ w.arg.mem.length = memory ∧ (to ≠ [] → w.arg.step = 0) :=
  C50_survives_interruption (C50_created hsa h hf) f hf f' hatt P hpow pieces hpieces hw

/-- C20. An attempt of which any call fails lost power: nothing else makes it fail. And
an attempt that passes 0 to `step_set` has put the to-data in the memory. -/
theorem C20_attempt [Build] (hsa : SuffixArrayInRange lib.suffixArray)
    (h : DevicePatch lib c memory seg minShift fr to patch) (f : Flash) (hf : Fresh memory fr f)
    (f' : Flash) (hatt : Attempts patch f f') (P : Power)
    (pieces : List Bytes) (hpieces : pieces.flatten = patch) (hw : WholeHeader patch pieces) :
    ∃ res s w, inPlacePieces (flashEnv P true) patch.length (powerOn f') pieces = .ok (res, s, w) ∧
      (res = to.length ∨ res < 0 ∧ P.lost w.arg = true) ∧ (res = to.length ∨ 0 ∈ stepsSet w.trace → to <+: w.arg.mem) :=
  C50_attempt (C50_created hsa h hf) f hf f' hatt P pieces hpieces hw

/-- C21. Every callback stays inside the memory, in every attempt. -/
theorem C21_inside_memory [Build] (hsa : SuffixArrayInRange lib.suffixArray)
    (h : DevicePatch lib c memory seg minShift fr to patch) (f : Flash) (hf : Fresh memory fr f)
    (f' : Flash) (steps : Bool) (hatt : if steps then Attempts patch f f' else f' = f) (P : Power)
    (pieces : List Bytes) (hpieces : pieces.flatten = patch) (hw : WholeHeader patch pieces) :
    ∃ res s w, inPlacePieces (flashEnv P steps) patch.length (powerOn f') pieces = .ok (res, s, w) ∧
      ∀ ev ∈ w.trace, ev.Inside memory :=
  C50_inside_memory (C50_created hsa h hf) f hf f' steps hatt P pieces hpieces hw

/-- C22. A completed update stores the steps k + 1, ..., n - 1 and then 0, where k is the
step stored before it and n the number of segments moved and rebuilt; an update that
loses power a part of that. -/
theorem C22_steps [Build] (hsa : SuffixArrayInRange lib.suffixArray)
    (h : DevicePatch lib c memory seg minShift fr to patch) (hto : to ≠ []) (f : Flash) (hf : Fresh memory fr f)
    (f' : Flash) (hatt : Attempts patch f f') (P : Power)
    (pieces : List Bytes) (hpieces : pieces.flatten = patch) (hw : WholeHeader patch pieces) :
    ∃ (shift k n : Nat) (body : Bytes) (res : Int) (s : InPlace) (w : MWorld Flash),
      readHeaderInPlace patch = .ok (⟨c, memory, seg, shift, fr.length, to.length⟩, body) ∧
      n = movedSegments memory seg shift fr.length + toSegments seg to.length ∧ k < n ∧ f'.step = k ∧
      inPlacePieces (flashEnv P true) patch.length (powerOn f') pieces = .ok (res, s, w) ∧
      (0 ≤ res → stepsSet w.trace = (List.range' (k + 1) (n - 1 - k)).map Int.ofNat ++ [0]) ∧
      stepsSet w.trace <+: (List.range' (k + 1) (n - 1 - k)).map Int.ofNat ++ [0] := by
  obtain ⟨k, n, res, s, w, hk⟩ := C50_steps (C50_created hsa h hf) hto f hf f' hatt P pieces hpieces hw
  obtain ⟨body, _, _, hr, _⟩ := format_patch (C50_created hsa h hf) hf.mem hf.len
  exact ⟨_, k, n, body, res, s, w, hr, hk⟩

/-! The hypotheses are met, and the limits are real. -/

def exampleDevice : Flash := { mem := [1, 2, 3, 4, 5, 255, 254, 253, 252, 251, 250, 249] }

theorem exampleDevice_patch : DevicePatch exampleLib .none 12 2 (some 2) [1, 2, 3, 4, 5] [1, 2, 3, 9, 4, 5, 6] exampleInPlacePatch where
  created := by decide +kernel
  comp := .inl rfl
  plain := by
    have h : createInPlace exampleLib .none (12 : Nat) (2 : Nat) ((some 2).map Int.ofNat) none [1, 2, 3, 4, 5] [1, 2, 3, 9, 4, 5, 6] = .ok exampleInPlacePatch := by
      decide +kernel
    intro plain hp
    rw [h] at hp
    cases hp
    decide
  segPos := by decide
  segLe := by decide
  shift := by decide
  room := by decide
  fits := by decide
  small := by decide
  size := by decide

example : Fresh 12 [1, 2, 3, 4, 5] exampleDevice := ⟨rfl, ⟨[255, 254, 253, 252, 251, 250, 249], rfl⟩, rfl⟩

-- Also with CRLE.
example : createInPlace exampleLib .crle 12 2 (some 2) none [1, 2, 3, 4, 5] [1, 2, 3, 9, 4, 5, 6] =
    .ok [18, 12, 2, 6, 5, 7, 0, 23, 0, 2, 0, 0, 0, 66, 0, 0, 2, 3, 9, 5, 0, 0, 2, 4, 5, 4, 0, 0, 1, 6, 3] := by decide +kernel

-- The header in the first piece: six bytes.
example : WholeHeader exampleInPlacePatch [[], exampleInPlacePatch.take 6, exampleInPlacePatch.drop 6] := by
  intro h body h1 _ piece h2
  have hr : readHeaderInPlace exampleInPlacePatch = .ok (⟨.none, 12, 2, 6, 5, 7⟩, exampleInPlacePatch.drop 6) := by decide +kernel
  rw [h1] at hr
  cases hr
  have : ([[], exampleInPlacePatch.take 6, exampleInPlacePatch.drop 6] : List Bytes).find? (· ≠ []) = some (exampleInPlacePatch.take 6) := by
    decide +kernel
  rw [this] at h2
  cases h2
  decide

-- Power lost in the erase of the second segment to rebuild, then a complete update.
example :
    (inPlacePieces (flashEnv { limit := some 12, junk := fun _ _ _ => 170 } true) 29 (powerOn exampleDevice) [exampleInPlacePatch]).map
        (fun r => (r.1, r.2.2.arg, stepsSet r.2.2.trace)) =
      .ok (-1, { mem := [1, 2, 170, 170, 5, 255, 1, 2, 3, 4, 5, 255], step := 4, ops := 13 }, [1, 2, 3, 4]) ∧
    (inPlacePieces (flashEnv {} true) 29 (powerOn { mem := [1, 2, 170, 170, 5, 255, 1, 2, 3, 4, 5, 255], step := 4, ops := 13 })
        [exampleInPlacePatch.take 6, exampleInPlacePatch.drop 6]).map (fun r => (r.1, r.2.2.arg.mem, stepsSet r.2.2.trace)) =
      .ok (7, [1, 2, 3, 9, 4, 5, 6, 2, 3, 4, 5, 255], [5, 6, 0]) := by
  refine ⟨?_, ?_⟩ <;> decide +kernel

/-- C20. Why attempts that complete the update are left out: the stored step is 0 again,
so one more update starts over, on the to-data. It reports success and leaves something
else. -/
theorem C20_repeated_after_completion :
    ∃ (patch to : Bytes) (f : Flash), createInPlace exampleLib .none 16 8 (some 8) none [1, 2, 3, 4, 5, 6, 7, 8] to = .ok patch ∧
      Fresh 16 [1, 2, 3, 4, 5, 6, 7, 8] f ∧
      ∃ s w, inPlacePieces (flashEnv {} true) patch.length (powerOn f) [patch] = .ok (to.length, s, w) ∧ to <+: w.arg.mem ∧
        ∃ s' w', inPlacePieces (flashEnv {} true) patch.length (powerOn w.arg) [patch] = .ok (to.length, s', w') ∧
          ¬ to <+: w'.arg.mem := by
  refine ⟨[16, 16, 8, 8, 8, 8, 0, 7, 8, 0, 0, 0, 0, 0, 0, 1, 9, 1], [9, 2, 3, 4, 5, 6, 7, 9],
    { mem := [1, 2, 3, 4, 5, 6, 7, 8, 255, 255, 255, 255, 255, 255, 255, 255] }, by decide +kernel,
    ⟨rfl, ⟨_, rfl⟩, rfl⟩, ?_⟩
  have h1 : ∃ s w, inPlacePieces (flashEnv {} true) 18 (powerOn { mem := [1, 2, 3, 4, 5, 6, 7, 8, 255, 255, 255, 255, 255, 255, 255, 255] })
      [[16, 16, 8, 8, 8, 8, 0, 7, 8, 0, 0, 0, 0, 0, 0, 1, 9, 1]] = .ok (8, s, w) ∧
      w.arg = { mem := [9, 2, 3, 4, 5, 6, 7, 9, 1, 2, 3, 4, 5, 6, 7, 8], step := 0, ops := 7 } := ok_world (by decide +kernel)
  have h2 : ∃ s w, inPlacePieces (flashEnv {} true) 18 (powerOn { mem := [9, 2, 3, 4, 5, 6, 7, 9, 1, 2, 3, 4, 5, 6, 7, 8], step := 0, ops := 7 })
      [[16, 16, 8, 8, 8, 8, 0, 7, 8, 0, 0, 0, 0, 0, 0, 1, 9, 1]] = .ok (8, s, w) ∧
      w.arg = { mem := [17, 2, 3, 4, 5, 6, 7, 9, 9, 2, 3, 4, 5, 6, 7, 9], step := 0, ops := 7 } := ok_world (by decide +kernel)
  obtain ⟨s, w, e1, e2⟩ := h1
  obtain ⟨s', w', e3, e4⟩ := h2
  refine ⟨s, w, e1, by rw [e2]; decide, s', w', by rw [e2]; exact e3, by rw [e4]; decide⟩

/-- C19. Why a shift of at least one segment is needed: with a minimum shift of 0 creation
may choose no shift at all, and the C library then erases the from-data before it is
moved. It reports success and leaves something else, although Python applies the patch. -/
theorem C19_shift_zero :
    ∃ (patch to : Bytes), createInPlace exampleLib .none 8 4 (some 0) none [1, 2, 3, 4, 5, 6, 7, 8] to = .ok patch ∧
      applyInPlace exampleLib 40 patch [1, 2, 3, 4, 5, 6, 7, 8] = (to, .ok to.length) ∧
      ∃ s w, inPlacePieces (flashEnv {} false) patch.length (powerOn { mem := [1, 2, 3, 4, 5, 6, 7, 8] }) [patch] = .ok (to.length, s, w) ∧
        ¬ to <+: w.arg.mem := by
  refine ⟨[16, 8, 4, 0, 8, 8, 0, 4, 0, 0, 0, 0, 0, 68, 0, 0, 4, 5, 6, 7, 8, 0], [5, 6, 7, 8, 5, 6, 7, 8], by decide +kernel, by decide +kernel, ?_⟩
  have h1 : ∃ s w, inPlacePieces (flashEnv {} false) 22 (powerOn { mem := [1, 2, 3, 4, 5, 6, 7, 8] })
      [[16, 8, 4, 0, 8, 8, 0, 4, 0, 0, 0, 0, 0, 68, 0, 0, 4, 5, 6, 7, 8, 0]] = .ok (8, s, w) ∧
      w.arg = { mem := [255, 255, 255, 255, 5, 6, 7, 8], step := 0, ops := 8 } := ok_world (by decide +kernel)
  obtain ⟨s, w, e1, e2⟩ := h1
  exact ⟨s, w, e1, by rw [e2]; decide⟩

/-- C21. Only for created patches: the library does not check a patch that declares a
memory of 4 bytes and a shift of 8 bytes, and erases and writes outside the 4 bytes. -/
theorem C21_arbitrary_patch :
    ∃ (patch : Bytes) (rest : Bytes), readHeaderInPlace patch = .ok (⟨.none, 4, 2, 8, 4, 1⟩, rest) ∧
      ∃ res s w, inPlacePieces (flashEnv {} false) patch.length (powerOn { mem := List.replicate 12 0 }) [patch] = .ok (res, s, w) ∧
        MEv.write 8 [0, 0] 0 ∈ w.trace ∧ ¬ (MEv.write 8 [0, 0] 0).Inside 4 := by
  refine ⟨[16, 4, 2, 8, 4, 1, 0, 0, 1, 9, 0], [0, 0, 1, 9, 0], by decide +kernel, ?_⟩
  have h1 : ∃ (s : InPlace) (w : MWorld Flash), inPlacePieces (flashEnv {} false) 11 (powerOn { mem := List.replicate 12 0 })
      [[16, 4, 2, 8, 4, 1, 0, 0, 1, 9, 0]] = .ok (1, s, w) ∧ w.trace.contains (MEv.write 8 [0, 0] 0) = true := ok_trace (by decide +kernel)
  obtain ⟨s, w, e1, e2⟩ := h1
  exact ⟨1, s, w, e1, by simpa using e2, by simp [MEv.Inside]⟩

end Detools
