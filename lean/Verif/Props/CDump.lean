import Verif.Proofs.CDump
/-
C14: dump and restore of the sequential C API.
-/
namespace Detools

attribute [local instance] noLzma

/-- C14: what dump returns once the header has been read and nothing failed: success,
unless the patch is compressed with LZMA, whose decoder cannot be stored. -/
theorem C14_dump_result [Build] (fr : Bytes) (hfr : fr.length < 2 ^ 31) (patchSize : Nat) (calls : List Call) {rs s w}
    (hrun : runCalls (fileEnv fr) (applyPatchInit patchSize) { arg := {} } calls = .ok (rs, s, w))
    (hinit : s.state ≠ .init) (hfail : s.state ≠ .failed) :
    ∃ b t, fedBytes calls = b :: t ∧ applyPatchDump s = (if b.toNat &&& 0xf = 1 then NOT_IMPLEMENTED else 0, s) := by
  have hd : DInv s w := runCalls_induct (fileEnv fr) DInv (fun h he => once_dump fr _ rfl hfr h he)
    (fun _ _ h => h.quiet rfl rfl rfl rfl rfl) calls
    ⟨fun _ => ⟨rfl, rfl⟩, fun _ => ⟨rfl, by decide, by decide⟩, fun h => absurd rfl h, rfl⟩ hrun
  obtain ⟨b, t, hf, hb⟩ := runCalls_comp _ _ _ calls hrun hinit hfail
  refine ⟨b, t, hf, ?_⟩
  rw [← hb]
  simp only [applyPatchDump, if_neg hinit]
  have := hd.comp hinit hfail
  by_cases h1 : s.compression = 1
  · rw [if_neg (by omega), if_pos h1]
  · rw [if_pos (by omega), if_neg h1]

/-- C14: take any history of calls on an old image that fits the `int` offsets of the
API, after which the header of a patch not compressed with LZMA has been read and
nothing failed. A dump then succeeds.
Restoring it into a fresh object initialised with any size, with the old image opened
anew at its start and a new image that holds what was written until the dump,
succeeds; the restored object says that the next byte to feed is the one after those
fed before the dump, and that what was written is in place; and whatever is called
later, the restored object returns what the original object returns and leaves the same
images. The exception (what is missing): a heatshrink patch whose heatshrink header
byte was not read before the dump, if the restored object is finalized before it is
read, `C14_restored_uninit`. -/
theorem C14_dump_restore_partial [Build] (fr : Bytes) (hfr : fr.length < 2 ^ 31) (patchSize other : Nat) (calls : List Call) {rs s w}
    (hrun : runCalls (fileEnv fr) (applyPatchInit patchSize) { arg := {} } calls = .ok (rs, s, w))
    (hinit : s.state ≠ .init) (hfail : s.state ≠ .failed) (hz : ∀ b t, fedBytes calls = b :: t → b.toNat &&& 0xf ≠ 1) :
    applyPatchDump s = (0, s) ∧
    ∃ s2 w2, applyPatchRestore (fileEnv fr) (applyPatchInit other) { arg := { pos := 0, out := w.arg.out } } s = (0, s2, w2) ∧
      s2.patchOffset = (fedBytes calls).length % 2 ^ 64 ∧ s2.toOffset = w.arg.out.length % 2 ^ 64 ∧
      ∀ later, SameOutcome (runCalls (fileEnv fr) s w later) (runCallsRestored (fileEnv fr) s2 w2 later) ∨
        s.reader = some (.heatshrink none) ∧ runCallsRestored (fileEnv fr) s2 w2 later = .error .uninit := by
  have hd : DInv s w := runCalls_induct (fileEnv fr) DInv (fun h he => once_dump fr _ rfl hfr h he)
    (fun _ _ h => h.quiet rfl rfl rfl rfl rfl) calls
    ⟨fun _ => ⟨rfl, rfl⟩, fun _ => ⟨rfl, by decide, by decide⟩, fun h => absurd rfl h, rfl⟩ hrun
  have hfed := runCalls_fed (fileEnv fr) patchSize {} calls hrun
  have hc := (hd.comp hinit hfail).resolve_left (by
    obtain ⟨b, t, hf, hb⟩ := runCalls_comp _ _ _ calls hrun hinit hfail
    rw [hb]
    exact hz b t hf)
  obtain ⟨p1, p2, p3⟩ := hd.pos hfail
  refine ⟨by simp only [applyPatchDump, if_neg hinit, if_pos hc], ?_⟩
  have hseek : (fileEnv fr).fromSeek { pos := 0, out := w.arg.out } s.fromOffset = (0, { pos := 0 + s.fromOffset, out := w.arg.out }) := by
    refine if_neg ?_
    show ¬ (0 + s.fromOffset < 0)
    omega
  refine ⟨{ s with initState := .fixedHeader, size := {}, chunk := {} }, ⟨⟨0 + s.fromOffset, w.arg.out⟩, [.seek s.fromOffset 0]⟩, ?_, hfed, hd.out, ?_⟩
  · unfold applyPatchRestore
    simp only [if_neg hinit, hseek, ne_eq, not_true, if_false, if_pos hc]
    rfl
  · intro later
    refine (runCalls_rel (fileEnv fr) later ⟨.fixedHeader, {}, {}, rfl⟩ hinit ?_).imp_left RunRel.same
    show ({ pos := 0 + s.fromOffset, out := w.arg.out } : Files) = w.arg
    rw [p1, Int.zero_add]

/-- C14, any number of cycles: from any point where the header (and for heatshrink the
heatshrink header) has been read, an update that is dumped and restored any number of
times, anywhere between calls, returns the same values and leaves the same images as
the update that is never stopped, if that one does not fail. -/
theorem C14_cycles [Build] (fr : Bytes) (hfr : fr.length < 2 ^ 31) (patchSize other : Nat) (calls : List Call) (segs : List (List Call)) {rs s w rs' s' w'}
    (hrun : runCalls (fileEnv fr) (applyPatchInit patchSize) { arg := {} } calls = .ok (rs, s, w))
    (hinit : s.state ≠ .init) (hread : s.reader ≠ some (.heatshrink none))
    (hz : ∀ b t, fedBytes calls = b :: t → b.toNat &&& 0xf ≠ 1)
    (hrest : runCalls (fileEnv fr) s w segs.flatten = .ok (rs', s', w')) (hfail : s'.state ≠ .failed) :
    ∃ t v, runCycles fr other s w segs = .ok (rs', t, v) ∧ v.arg = w'.arg := by
  have hd : DInv s w := runCalls_induct (fileEnv fr) DInv (fun h he => once_dump fr _ rfl hfr h he)
    (fun _ _ h => h.quiet rfl rfl rfl rfl rfl) calls
    ⟨fun _ => ⟨rfl, rfl⟩, fun _ => ⟨rfl, by decide, by decide⟩, fun h => absurd rfl h, rfl⟩ hrun
  have hnf : s.state ≠ .failed := fun h0 => hfail (runCalls_failed _ _ h0 hrest)
  have hz' : s.compression ≠ 1 := by
    obtain ⟨b, t, hf, hb⟩ := runCalls_comp _ _ _ calls hrun hinit hnf
    rw [hb]
    exact hz b t hf
  exact runCycles_rel fr hfr other segs ⟨s.initState, s.size, s.chunk, rfl⟩ rfl hd hinit hz' hread hrest hfail

-- C14_cycles: dumped and restored between all bytes
example : ((runCalls (fileEnv [1, 2, 3]) (applyPatchInit 10) { arg := {} } [.process [0x00, 4]]).bind fun (_, s, w) =>
      ((runCycles [1, 2, 3] 0 s w [[.process [0]], [.process [0x02]], [.process [1]], [], [.process [1]], [.process [2]],
        [.process [9]], [.process [9]], [.process [0]], [.finalize]]).map fun (rs, _, w) => (rs, w.arg.out))) =
    .ok ([0, 0, 0, 0, 0, 0, 0, 0, 4], [2, 3, 9, 9]) := by decide +kernel

/-- C14, before the header has been read: nothing has been written, and restoring gives
a fresh object of the dumped patch size, whose patch offset says that the patch is to be
fed from its start. -/
theorem C14_restore_before_header [Build] (E : SeqEnv σ) (patchSize other : Nat) (arg arg2 : σ) (calls : List Call) {rs s w}
    (hrun : runCalls E (applyPatchInit patchSize) { arg := arg } calls = .ok (rs, s, w)) (hinit : s.state = .init) :
    written w.trace = [] ∧ applyPatchDump s = (0, s) ∧
    applyPatchRestore E (applyPatchInit other) { arg := arg2 } s = (0, applyPatchInit patchSize, { arg := arg2 }) := by
  have := runCalls_induct E (fun s w => SInv s ∧ (s.state = .init → w.trace = []) ∧ s.patchSize = patchSize) ?_ ?_ calls
    ⟨SInv.start patchSize, fun _ => rfl, rfl⟩ hrun
  · obtain ⟨_, h2, h3⟩ := this
    refine ⟨by rw [h2 hinit]; rfl, by simp only [applyPatchDump, if_pos hinit], ?_⟩
    simp only [applyPatchRestore, if_pos hinit, hinit, h3]
    rfl
  · rintro s w res s' w' ⟨h1, h2, h3⟩ he
    have hb := once_quiet E h2 he
    rcases once_ok E h1 w with (e | e) | ⟨out, e, ho⟩
    · rw [e] at he; cases he
    · rw [e] at he; cases he
    · rw [e] at he
      cases he
      cases ho with
      | ok _ _ _ g => exact ⟨g.inv, hb, g.psize.trans h3⟩
      | more _ _ g => exact ⟨g.inv, hb, g.psize.trans h3⟩
      | done => exact ⟨h1, hb, h3⟩
      | already => exact ⟨h1, hb, h3⟩
      | fail _ _ g => exact ⟨g.inv, hb, g.psize.trans h3⟩
      | io _ _ _ _ g => exact ⟨g.inv, hb, g.psize.trans h3⟩
  · rintro s w po buf ⟨h1, h2, h3⟩
    exact ⟨h1.setChunk, h2, h3⟩

/-- The exception of `C14_dump_restore_partial`: a heatshrink patch dumped after its
header of two bytes. Finalizing the original object reports that data is missing,
finalizing the restored object uses uninitialised memory. -/
theorem C14_restored_uninit :
    (runCalls (fileEnv []) (applyPatchInit 2) { arg := {} } [.process [0x04, 0x01], .finalize]).map (·.1) = .ok [0, NOT_ENOUGH_PATCH_DATA] ∧
    ((runCalls (fileEnv []) (applyPatchInit 2) { arg := {} } [.process [0x04, 0x01]]).bind fun (_, s, _) =>
      let (_, s2, w2) := applyPatchRestore (fileEnv []) (applyPatchInit 2) { arg := {} } s
      (runCallsRestored (fileEnv []) s2 w2 [.finalize]).map (·.1)) = .error .uninit := by
  decide +kernel

-- dump in the middle of the diff data, restore, feed the rest: the new image is complete
example : ((runCalls (fileEnv [1, 2, 3]) (applyPatchInit 10) { arg := {} } [.process [0x00, 4, 0, 0x02, 1]]).bind fun (_, s, w) =>
      let (r, s2, w2) := applyPatchRestore (fileEnv [1, 2, 3]) (applyPatchInit 0) { arg := { pos := 0, out := w.arg.out } } s
      (runCallsRestored (fileEnv [1, 2, 3]) s2 w2 [.process [1, 2, 9, 9, 0], .finalize]).map fun (rs, _, w) => (decide (s.state = .diffData), [r, s2.patchOffset, s2.toOffset], rs, w.arg.out)) =
    .ok (true, [0, 5, 1], [0, 4], [2, 3, 9, 9]) := by decide +kernel

-- a dump in the middle of the header
example : ((runCalls (fileEnv [1, 2, 3]) (applyPatchInit 10) { arg := {} } [.process [0x00, 0x84]]).map fun (rs, s, _) =>
      (rs, decide (s.state = .init), (applyPatchRestore (fileEnv [1, 2, 3]) (applyPatchInit 7) { arg := {} } s).2.1)) =
    .ok ([0], true, applyPatchInit 10) := by decide +kernel

end Detools
