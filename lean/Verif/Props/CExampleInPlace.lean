import Verif.Proofs.CExampleInPlace
/-
C59: the in-place example, with a serial line that gives the patch in any pieces, stalls and
fails.
-/
namespace Detools

attribute [local instance] noLzma

variable {lib : Lib} {c : Compression} {memory seg : Nat} {minShift : Option Nat} {fr to patch : Bytes}

/-- C59. With power, and a serial line that gives the patch in any pieces, some of them empty
(the first with data has the header if the patch is not compressed), whatever it gives after
that: `update` returns what verify says about the memory, which starts with the to-data, and
the size of the to-data. -/
theorem C59_update [Build] (hsa : SuffixArrayInRange lib.suffixArray)
    (h : DevicePatch lib c memory seg minShift fr to patch) (f : Flash) (hf : Fresh memory fr f)
    (P : Power) (hpow : P.limit = none) (steps : Bool) (verify : Flash → Int → Int)
    (pieces : List Bytes) (hpieces : pieces.flatten = patch) (hw : WholeHeader patch pieces) (rest : List SerialRead) :
    ∃ w, exampleUpdate (flashEnv P steps) verify patch.length (powerOn f) (pieces.map .data ++ rest) =
        .ok (.returned (verify w.arg to.length) w) ∧
      to <+: w.arg.mem ∧ w.arg.mem.length = memory ∧ (to ≠ [] → steps = true → w.arg.step = 0) := by
  obtain ⟨s, w, e1, e2⟩ := C19_c_in_place_roundtrip hsa h f hf P hpow steps (pieces.filter (· ≠ []))
    (by rw [flatten_filter_ne]; exact hpieces)
    (fun a b k1 k2 piece k3 => hw a b k1 k2 piece (by rw [find_filter_ne] at k3; exact k3))
  exact ⟨w, update_of_pieces rest hpieces (by have := h.size; omega) e1
    (fun res s1 w1 k => ipProcessAll_le (flashEnv_ok P steps).1 _ _ _ _ _ _ (IPState.start _) k), e2⟩

/-- C59. After any number of runs that did not complete the update (power was lost in the
middle of anything, the serial line failed or stalled), a run with power and the whole patch
succeeds. -/
theorem C59_survives [Build] (hsa : SuffixArrayInRange lib.suffixArray)
    (h : DevicePatch lib c memory seg minShift fr to patch) (f : Flash) (hf : Fresh memory fr f) (verify : Flash → Int → Int)
    (f' : Flash) (hruns : UpdateRuns verify patch f f') (P : Power) (hpow : P.limit = none)
    (pieces : List Bytes) (hpieces : pieces.flatten = patch) (hw : WholeHeader patch pieces) (rest : List SerialRead) :
    ∃ w, exampleUpdate (flashEnv P true) verify patch.length (powerOn f') (pieces.map .data ++ rest) =
        .ok (.returned (verify w.arg to.length) w) ∧
      to <+: w.arg.mem ∧ w.arg.mem.length = memory ∧ (to ≠ [] → w.arg.step = 0) := by
  obtain ⟨s, w, e1, e2⟩ := C20_survives_interruption hsa h f hf f' (updateRuns_attempts (by have := h.size; omega) hruns) P hpow (pieces.filter (· ≠ []))
    (by rw [flatten_filter_ne]; exact hpieces)
    (fun a b k1 k2 piece k3 => hw a b k1 k2 piece (by rw [find_filter_ne] at k3; exact k3))
  exact ⟨w, update_of_pieces rest hpieces (by have := h.size; omega) e1
    (fun res s1 w1 k => ipProcessAll_le (flashEnv_ok P true).1 _ _ _ _ _ _ (IPState.start _) k), e2⟩

/-- C59. Whatever the callbacks do (they return no positive values, and do not fail with
ALREADY_DONE), whatever the serial line gives: a result that is not negative is that of verify,
and no callback failed. -/
theorem C59_verified [Build] (E : MemEnv σ) (hE : ∀ res, E.Returns res → res ≤ 0 ∧ res ≠ ALREADY_DONE) (verify : σ → Int → Int)
    (patchSize : Nat) (arg : σ) (reads : List SerialRead) {res : Int} {w : MWorld σ}
    (h : exampleUpdate E verify patchSize { arg := arg } reads = .ok (.returned res w)) (hres : 0 ≤ res) :
    ∃ n, 0 ≤ n ∧ res = verify w.arg n ∧ ∀ ev ∈ w.trace, ¬ ev.Failed := by
  unfold exampleUpdate at h
  cases hl : updateLoop E patchSize (inPlaceInit patchSize) { arg := arg } reads with
  | error u => rw [hl] at h; cases h
  | ok le =>
    rw [hl] at h
    simp only [bind, Except.bind] at h
    cases le with
    | waiting s' w' =>
      simp only [] at h
      injection h with h
      injection h
    | stopped e s' w' =>
      obtain ⟨hle, ps, rs, hcalls⟩ := updateLoop_calls (fun r hr => (hE r hr).1) reads _ _ _ _ _ _ (IPState.start patchSize) hl
      simp only [] at h
      cases hfin : inPlaceFinalize E s' w' with
      | error u =>
        rw [hfin] at h
        by_cases h0 : e = 0
        · rw [if_pos h0] at h; cases h
        · rw [if_neg h0] at h; cases h
      | ok v =>
        obtain ⟨e2, s2, w2⟩ := v
        rw [hfin] at h
        simp only [] at h
        by_cases h0 : e = 0
        · rw [if_pos h0] at h
          by_cases h5 : 0 ≤ e2
          · rw [if_pos h5] at h
            injection h with h; injection h with h1 h2
            subst h1 h2
            refine ⟨e2, h5, rfl, ?_⟩
            exact (C42_success E hE patchSize arg (ps.map .process) (asDocumented_pieces ps) hcalls hfin h5).2.2.2
          · rw [if_neg h5] at h
            injection h with h; injection h with h1 h2
            omega
        · rw [if_neg h0] at h
          injection h with h; injection h with h1 h2
          omega

/-! The hypotheses are met (`exampleDevice_patch`), and the limits are real. -/

-- The serial line fails after the shift of the memory; then it stalls, gives some of the patch
-- and fails; then a complete update. The device stores its steps.
example :
    (exampleUpdate (flashEnv {} true) (fun _ n => n + 100) 29 (powerOn exampleDevice)
        [.data (exampleInPlacePatch.take 6), .data (exampleInPlacePatch.drop 6 |>.take 9), .error 4]).map
        (fun | .waiting _ => none | .returned res w => some (res, w.arg.step, w.arg.mem)) =
      .ok (some (-5, 4, [1, 2, 255, 255, 5, 255, 1, 2, 3, 4, 5, 255])) ∧
    (exampleUpdate (flashEnv {} true) (fun _ n => n + 100) 29 (powerOn { mem := [1, 2, 255, 255, 5, 255, 1, 2, 3, 4, 5, 255], step := 4 })
        [.data (exampleInPlacePatch.take 6), .data [], .data (exampleInPlacePatch.drop 6), .error 4]).map
        (fun | .waiting _ => none | .returned res w => some (res, w.arg.step, w.arg.mem)) =
      .ok (some (107, 0, [1, 2, 3, 9, 4, 5, 6, 2, 3, 4, 5, 255])) := by
  refine ⟨?_, ?_⟩ <;> decide +kernel

/-- C59. If the serial line gives one byte more than the patch has, `left` wraps around: the
to-data is in the memory and all steps are done, but `update` does not return. It goes on
reading, and so far waits. -/
theorem C59_one_byte_more :
    (exampleUpdate (flashEnv {} true) (fun _ n => n) 29 (powerOn exampleDevice) [.data (exampleInPlacePatch ++ [0]), .data [1, 2, 3], .data []]).map
        (fun | .waiting w => some (w.arg.step, w.arg.mem) | .returned _ _ => none) =
      .ok (some (0, [1, 2, 3, 9, 4, 5, 6, 2, 3, 4, 5, 255])) := by
  decide +kernel

/-- C59. Why the header has to be in one piece: a serial line that gives one byte at a time.
The patch is not compressed. `update` returns CORRUPT_PATCH, although the to-data is in the
memory and all steps are done. Trying again, with the patch in one piece, takes the to-data for
the from-data: it succeeds and destroys the to-data. -/
theorem C59_byte_by_byte :
    ∃ (patch to : Bytes) (f : Flash), createInPlace exampleLib .none 16 8 (some 8) none [1, 2, 3, 4, 5, 6, 7, 8] to = .ok patch ∧
      Fresh 16 [1, 2, 3, 4, 5, 6, 7, 8] f ∧
      ∃ w, exampleUpdate (flashEnv {} true) (fun _ n => n) patch.length (powerOn f) (patch.map fun b => .data [b]) =
          .ok (.returned CORRUPT_PATCH w) ∧ to <+: w.arg.mem ∧
        ∃ w', exampleUpdate (flashEnv {} true) (fun _ n => n) patch.length (powerOn w.arg) [.data patch] =
          .ok (.returned to.length w') ∧ ¬ to <+: w'.arg.mem := by
  refine ⟨[16, 16, 8, 8, 8, 8, 0, 7, 8, 0, 0, 0, 0, 0, 0, 1, 9, 1], [9, 2, 3, 4, 5, 6, 7, 9],
    { mem := [1, 2, 3, 4, 5, 6, 7, 8, 255, 255, 255, 255, 255, 255, 255, 255] }, by decide +kernel,
    ⟨rfl, ⟨_, rfl⟩, rfl⟩, ?_⟩
  have h1 : (exampleUpdate (flashEnv {} true) (fun _ n => n) 18
      (powerOn { mem := [1, 2, 3, 4, 5, 6, 7, 8, 255, 255, 255, 255, 255, 255, 255, 255] })
      (([16, 16, 8, 8, 8, 8, 0, 7, 8, 0, 0, 0, 0, 0, 0, 1, 9, 1] : Bytes).map fun b => .data [b])).map
      (fun | .waiting w => (none, w.arg) | .returned res w => (some res, w.arg)) =
      .ok (some CORRUPT_PATCH, { mem := [9, 2, 3, 4, 5, 6, 7, 9, 1, 2, 3, 4, 5, 6, 7, 8], step := 0, ops := 13 }) := by decide +kernel
  have h2 : (exampleUpdate (flashEnv {} true) (fun _ n => n) 18
      (powerOn { mem := [9, 2, 3, 4, 5, 6, 7, 9, 1, 2, 3, 4, 5, 6, 7, 8], step := 0, ops := 13 })
      [.data [16, 16, 8, 8, 8, 8, 0, 7, 8, 0, 0, 0, 0, 0, 0, 1, 9, 1]]).map
      (fun | .waiting w => (none, w.arg.mem) | .returned res w => (some res, w.arg.mem)) =
      .ok (some 8, [17, 2, 3, 4, 5, 6, 7, 9, 9, 2, 3, 4, 5, 6, 7, 9]) := by decide +kernel
  have key : ∀ {α : Type} {x : C (UpdateEnd Flash)} {g : Flash → α} {r : Int} {a : α},
      x.map (fun | .waiting w => (none, g w.arg) | .returned res w => (some res, g w.arg)) = .ok (some r, a) →
      ∃ w, x = .ok (.returned r w) ∧ g w.arg = a := by
    intro α x g r a h
    cases x with
    | error e => cases h
    | ok v =>
      cases v with
      | waiting w =>
        injection h with h; injection h with h _
        cases h
      | returned res w =>
        injection h with h; injection h with h1 h2
        injection h1 with h1
        exact ⟨w, by rw [h1], h2⟩
  obtain ⟨w, e1, e2⟩ := key (g := id) h1
  obtain ⟨w', e3, e4⟩ := key (g := Flash.mem) h2
  refine ⟨w, e1, ?_, w', ?_, ?_⟩
  · have e2 : w.arg = _ := e2
    rw [e2]
    exact ⟨[1, 2, 3, 4, 5, 6, 7, 8], rfl⟩
  · have e2 : w.arg = _ := e2
    rw [e2]
    exact e3
  · rw [e4]
    decide

end Detools
