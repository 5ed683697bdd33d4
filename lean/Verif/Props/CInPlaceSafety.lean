import Verif.Proofs.CInPlaceReject
import Verif.Proofs.CInPlaceCallbacks
import Verif.Proofs.CInPlaceCauses
import Verif.Props.CInPlace
/-
C26, C34, C40, C41, C42, C48: the in-place C API under every history of calls, every patch
and every behaviour of the callbacks. `E` is arbitrary: callbacks may fail at any time,
return anything, and depend on everything that happened to their argument.
-/
namespace Detools

attribute [local instance] noLzma

/-- C40: process and finalize return (no loop of the model runs out of fuel) and never
access memory outside an object, and no callback is asked to read or write more than 128
bytes, the size of the stack buffers. Three kinds of undefined behaviour remain, shown to
be reachable by `C40_uninit`, `C40_overflow` and `C40_div_zero`. -/
theorem C40_in_place_safe_partial [Build] (E : MemEnv σ) (patchSize : Nat) (arg : σ) (calls : List Call) (_hdoc : AsDocumented calls) :
    match runInPlaceCalls E (inPlaceInit patchSize) { arg := arg } calls with
    | .error u => u ≠ .timeout ∧ u ≠ .oob
    | .ok (_, _, w) => ∀ ev ∈ w.trace, ev.count ≤ 128 := by
  rcases ipRuns_safe (E := E) calls { arg := arg } (IPState.start patchSize) with ⟨u, e, h⟩ | ⟨rs, s, w, e, _, _, evs, h1, h2, _⟩
  · rw [e]
    rcases h with rfl | rfl | rfl <;> exact ⟨by decide, by decide⟩
  · rw [e]
    rw [List.append_nil] at h1
    intro ev hm
    exact h2 ev (h1 ▸ hm)

/-- A CRLE patch with an empty segment: a byte that was never written is used. -/
theorem C40_uninit : (runInPlaceCalls (flashEnv {} false) (inPlaceInit 9) (powerOn { mem := [1, 2, 3, 4] })
    [.process [0x12, 4, 2, 2, 0, 1, 1, 0, 0]]).map (·.1) = .error .uninit := by
  decide +kernel

/-- Seventeen adjustments of 2^27 - 1 overflow `from_offset`. -/
theorem C40_overflow : (runInPlaceCalls (flashEnv {} false) (inPlaceInit 109) (powerOn { mem := [1, 2, 3, 4] })
    [.process ([0x10, 4, 2, 2, 0, 1, 0] ++ (List.replicate 17 [0, 0, 0xbf, 0xff, 0xff, 0x7f]).flatten)]).map (·.1) = .error .overflow := by
  decide +kernel

/-- A segment size of 0 is a division by zero. -/
theorem C40_div_zero : (runInPlaceCalls (flashEnv {} false) (inPlaceInit 6) (powerOn { mem := [1, 2, 3, 4] })
    [.process [0x10, 4, 0, 2, 0, 1]]).map (·.1) = .error .divZero := by
  decide +kernel

/-- C41: after any history, once process has returned a negative value, whatever is called
later: no callback is made again (the trace of callbacks and the state of the user are
unchanged), process of a non-empty piece and finalize return ALREADY_FAILED. -/
theorem C41_in_place_failure_is_final [Build] (E : MemEnv σ) (patchSize : Nat) (arg : σ) (pre : List Call) (piece : Bytes) (post : List Call) (_hdoc : AsDocumented (pre ++ .process piece :: post))
    {rs s w e s1 w1}
    (hpre : runInPlaceCalls E (inPlaceInit patchSize) { arg := arg } pre = .ok (rs, s, w))
    (hp : inPlaceProcess E s w piece = .ok (e, s1, w1)) (he : e < 0) :
    ∃ s2, runInPlaceCalls E s1 w1 post = .ok (post.map afterFailure, s2, w1) := by
  rcases ipRuns_safe (E := E) pre { arg := arg } (IPState.start patchSize) with ⟨u, h, _⟩ | ⟨_, _, _, h, hs, _⟩
  · rw [h] at hpre; cases hpre
  rw [h] at hpre
  cases hpre
  have hf : s1.state = .failed := by
    by_cases hf : s.state = .failed
    · obtain ⟨_, h, h1⟩ := ip_failed_process (E := E) hf w piece
      rw [h] at hp; cases hp; exact h1
    · rcases inPlaceProcess_safe (E := E) hs w piece with ⟨u, h, _⟩ | ⟨_, h, h1, _⟩
      · rw [h] at hp; cases hp
      · rw [h] at hp
        cases hp
        cases h1 hf with
        | live _ _ _ d => rcases d with d | ⟨d, _⟩ <;> omega
        | fail a => exact a
  clear hp _hdoc
  induction post generalizing s1 with
  | nil => exact ⟨s1, rfl⟩
  | cons c cs ih =>
    cases c with
    | process p =>
      obtain ⟨s3, h3, h4⟩ := ip_failed_process (E := E) hf w1 p
      obtain ⟨s4, h5⟩ := ih h4
      refine ⟨s4, ?_⟩
      rw [runInPlaceCalls, h3]
      simp only [Bind.bind, Except.bind]
      rw [h5]; rfl
    | finalize =>
      obtain ⟨s3, h3, h4⟩ := ip_failed_finalize (E := E) hf w1
      obtain ⟨s4, h5⟩ := ih h4
      refine ⟨s4, ?_⟩
      rw [runInPlaceCalls, h3]
      simp only [Bind.bind, Except.bind]
      rw [h5]; rfl

/-- C42: a failure of a callback stops the update: in a whole history of calls only the
last callback made may have failed. (The trace is newest first.) -/
theorem C42_no_callback_after_failure [Build] (E : MemEnv σ) (patchSize : Nat) (arg : σ) (calls : List Call) (_hdoc : AsDocumented calls) {rs s w}
    (hrun : runInPlaceCalls E (inPlaceInit patchSize) { arg := arg } calls = .ok (rs, s, w)) :
    ∀ ev ∈ w.trace.tail, ¬ ev.Failed := by
  rcases ipRuns_safe (E := E) calls { arg := arg } (IPState.start patchSize) with ⟨u, h, _⟩ | ⟨_, _, _, h, hs, _, evs, h1, _, h3, _⟩
  · rw [h] at hrun; cases hrun
  · rw [h] at hrun
    cases hrun
    rw [h1, List.append_nil]
    exact h3

/-- C42: and it is reported. Process returns a negative value if a callback failed in it,
unless a callback fails with the value of ALREADY_DONE (`C42_already_done`). -/
theorem C42_process_reports [Build] (E : MemEnv σ) (hE : ¬ E.Returns ALREADY_DONE) (patchSize : Nat) (arg : σ) (pre : List Call) (piece : Bytes) (_hdoc : AsDocumented (pre ++ [.process piece]))
    {rs s w e s1 w1}
    (hpre : runInPlaceCalls E (inPlaceInit patchSize) { arg := arg } pre = .ok (rs, s, w))
    (hp : inPlaceProcess E s w piece = .ok (e, s1, w1)) :
    ∃ evs, w1.trace = evs ++ w.trace ∧ ((∃ ev ∈ evs, ev.Failed) → e < 0) := by
  rcases ipRuns_safe (E := E) pre { arg := arg } (IPState.start patchSize) with ⟨u, h, _⟩ | ⟨_, _, _, h, hs, _⟩
  · rw [h] at hpre; cases hpre
  rw [h] at hpre
  cases hpre
  by_cases hf : s.state = .failed
  · obtain ⟨_, h, h1⟩ := ip_failed_process (E := E) hf w piece
    rw [h] at hp; cases hp
    exact ⟨[], rfl, by simp⟩
  · rcases inPlaceProcess_safe (E := E) hs w piece with ⟨u, h, _⟩ | ⟨_, h, h1, _⟩
    · rw [h] at hp; cases hp
    · rw [h] at hp
      cases hp
      cases h1 hf with
      | live _ _ c _ =>
        obtain ⟨evs, k1, _, _, k4⟩ := c
        exact ⟨evs, k1, fun ⟨ev, hm, hfail⟩ => absurd hfail (k4 trivial ev hm)⟩
      | fail _ b c =>
        obtain ⟨evs, k1, _⟩ := b
        refine ⟨evs, k1, fun _ => ?_⟩
        rcases c with ⟨c, _⟩ | ⟨_, c⟩
        · exact c
        · exact absurd c hE

/-- C42: finalize returns a negative value if a callback failed at any time before or in
it. -/
theorem C42_finalize_reports [Build] (E : MemEnv σ) (hE : ¬ E.Returns ALREADY_DONE) (patchSize : Nat) (arg : σ) (pre : List Call) (_hdoc : AsDocumented (pre ++ [.finalize]))
    {rs s w e s1 w1}
    (hpre : runInPlaceCalls E (inPlaceInit patchSize) { arg := arg } pre = .ok (rs, s, w))
    (hp : inPlaceFinalize E s w = .ok (e, s1, w1)) (hfail : ∃ ev ∈ w1.trace, ev.Failed) : e < 0 := by
  rcases ipRuns_safe (E := E) pre { arg := arg } (IPState.start patchSize) with ⟨u, h, _⟩ | ⟨_, _, _, h, hs, _, hadds⟩
  · rw [h] at hpre; cases hpre
  rw [h] at hpre
  cases hpre
  by_cases hf : s.state = .failed
  · obtain ⟨_, h, h1⟩ := ip_failed_finalize (E := E) hf w
    rw [h] at hp; cases hp
    exact afNeg
  · rcases inPlaceFinalize_safe (E := E) hs w with ⟨u, h, _⟩ | ⟨_, h, h1, _⟩
    · rw [h] at hp; cases hp
    · rw [h] at hp
      cases hp
      have no : Adds w w1 True → e < 0 := by
        intro hA
        obtain ⟨evs, k1, _, _, k4⟩ := hadds.trans hA hf
        obtain ⟨ev, hm, hev⟩ := hfail
        rw [k1, List.append_nil] at hm
        exact absurd hev (k4 trivial ev hm)
      cases h1 hf with
      | live _ _ c _ => exact no c
      | done _ _ c _ => exact no c
      | fail _ b c => exact c.resolve_right hE

/-- C42: a successful update is complete: if the memory callbacks return no positive
values, finalize returns the to size only in the final state of the patch, and no
callback failed. -/
theorem C42_success [Build] (E : MemEnv σ) (hE : ∀ res, E.Returns res → res ≤ 0 ∧ res ≠ ALREADY_DONE) (patchSize : Nat) (arg : σ) (pre : List Call) (_hdoc : AsDocumented (pre ++ [.finalize]))
    {rs s w n s1 w1}
    (hpre : runInPlaceCalls E (inPlaceInit patchSize) { arg := arg } pre = .ok (rs, s, w))
    (hp : inPlaceFinalize E s w = .ok (n, s1, w1)) (hn : 0 ≤ n) :
    s1.state = .done ∧ n = s1.toSize ∧ s1.toPos = s1.toSize ∧ ∀ ev ∈ w1.trace, ¬ ev.Failed := by
  have hall : ∀ ev ∈ w1.trace, ¬ ev.Failed := by
    intro ev hm hev
    have := C42_finalize_reports E (fun h => (hE _ h).2 rfl) patchSize arg pre _hdoc hpre hp ⟨ev, hm, hev⟩
    omega
  rcases ipRuns_safe (E := E) pre { arg := arg } (IPState.start patchSize) with ⟨u, h, _⟩ | ⟨_, _, _, h, hs, _⟩
  · rw [h] at hpre; cases hpre
  rw [h] at hpre
  cases hpre
  by_cases hf : s.state = .failed
  · obtain ⟨_, h, h1⟩ := ip_failed_finalize (E := E) hf w
    rw [h] at hp; cases hp
    exact absurd hn (by decide)
  · rcases inPlaceFinalize_safe (E := E) hs w with ⟨u, h, _⟩ | ⟨_, h, h1, _⟩
    · rw [h] at hp; cases hp
    · rw [h] at hp
      cases hp
      cases h1 hf with
      | done a b _ d => exact ⟨a, d.resolve_right (by omega), b.done a, hall⟩
      | live _ _ _ d =>
        rcases d with d | ⟨d, k⟩
        · omega
        · have := (hE _ k).1; omega
      | fail _ _ c =>
        rcases c with c | c
        · omega
        · exact absurd rfl (hE _ c).2

/-- A memory that cannot be erased and says so with the value of ALREADY_DONE. -/
def eraseDone : MemEnv Unit where
  memRead _ _ n := (0, List.replicate n 0, ())
  memWrite _ _ _ := (0, ())
  memErase _ _ _ := (ALREADY_DONE, ())
  stepSet := none
  stepGet := none

/-- C42: process reports this failure as success; the next call fails. -/
theorem C42_already_done :
    ((runInPlaceCalls eraseDone (inPlaceInit 10) { arg := () } [.process [0x10, 4, 2, 2, 2, 1], .process [0], .finalize]).map
      fun (rs, _, w) => (rs, w.trace)) = .ok ([0, ALREADY_FAILED, ALREADY_FAILED], [.erase 2 2 ALREADY_DONE]) := by
  decide +kernel

-- C42: a write that fails, through a device that loses power.
example : ((runInPlaceCalls (flashEnv { limit := some 1 } false) (inPlaceInit 11) (powerOn { mem := [1, 2, 3, 4] })
    [.process [0x10, 4, 2, 2, 2, 1], .process [0, 0, 1, 9, 0], .finalize]).map
      fun (rs, _, w) => (rs, w.trace.head?)) = .ok ([-1, ALREADY_FAILED, ALREADY_FAILED], some (.write 2 [1, 2] (-1))) := by
  decide +kernel

-- C42_success: an update without a failure.
example : ((runInPlaceCalls (flashEnv {} false) (inPlaceInit 11) (powerOn { mem := [1, 2, 3, 4] })
    [.process [0x10, 4, 2, 2, 2, 1], .process [0, 0, 1, 9, 0], .finalize]).map
      fun (rs, s, w) => (rs, s.state, w.arg.mem)) = .ok ([0, 0, 1], .done, [9, 2, 1, 2]) := by
  decide +kernel

/-- C48: with memory callbacks that never return a positive value, a byte never written is
used only if the bytes given to process are an in-place CRLE patch with an empty segment,
or the read callback returns 0 without having filled the buffer. -/
theorem C48_uninit_causes [Build] (E : MemEnv σ) (hE : NeverPositive E) (patchSize : Nat) (arg : σ) (calls : List Call) (_hdoc : AsDocumented calls)
    (h : runInPlaceCalls E (inPlaceInit patchSize) { arg := arg } calls = .error .uninit) :
    EmptyCrleInPlace (fedBytes calls) ∨ ShortMemRead E := by
  rcases ipCalls_cause hE calls (IPFed.start patchSize) (.inr (.inr rfl)) h with k | ⟨f', later, s', w', k1, k2, k3⟩
  · cases k
  · rcases (k2.cause hE).1 k3 with q | q
    · exact .inr q
    · left
      have := q later
      rwa [← k1] at this

/-- C48: and a division by zero happens only for a patch with a segment size of 0 and
to-data. -/
theorem C48_div_zero_causes [Build] (E : MemEnv σ) (hE : NeverPositive E) (patchSize : Nat) (arg : σ) (calls : List Call) (_hdoc : AsDocumented calls)
    (h : runInPlaceCalls E (inPlaceInit patchSize) { arg := arg } calls = .error .divZero) :
    ZeroSegmentSize (fedBytes calls) := by
  rcases ipCalls_cause hE calls (IPFed.start patchSize) (.inr (.inr rfl)) h with k | ⟨f', later, s', w', k1, k2, k3⟩
  · cases k
  · have := (k2.cause hE).2 k3 later
    rwa [← k1] at this

/-- C48: for every other patch, and callbacks that fill the buffer when they report
success, the only undefined behaviour left is a position in the from-data that leaves
the range of `int`. -/
theorem C48_only_overflow [Build] (E : MemEnv σ) (hE : NeverPositive E) (hfill : ¬ ShortMemRead E) (patchSize : Nat) (arg : σ)
    (calls : List Call) (hdoc : AsDocumented calls) (hseg : ¬ ZeroSegmentSize (fedBytes calls)) (hcrle : ¬ EmptyCrleInPlace (fedBytes calls)) :
    runInPlaceCalls E (inPlaceInit patchSize) { arg := arg } calls = .error .overflow ∨
    ∃ rs s w, runInPlaceCalls E (inPlaceInit patchSize) { arg := arg } calls = .ok (rs, s, w) := by
  rcases ipRuns_safe (E := E) calls { arg := arg } (IPState.start patchSize) with ⟨u, e, h⟩ | ⟨rs, s, w, e, _⟩
  · rcases h with rfl | rfl | rfl
    · rcases C48_uninit_causes E hE patchSize arg calls hdoc e with h | h
      · exact absurd h hcrle
      · exact absurd h hfill
    · exact .inl e
    · exact absurd (C48_div_zero_causes E hE patchSize arg calls hdoc e) hseg
  · exact .inr ⟨rs, s, w, e⟩

/-- The callbacks of a device meet the hypotheses. -/
theorem flashEnv_ok (P : Power) (steps : Bool) : NeverPositive (flashEnv P steps) ∧ ¬ ShortMemRead (flashEnv P steps) := by
  refine ⟨?_, ?_⟩
  · rintro res (⟨a, addr, n, e⟩ | ⟨a, addr, d, e⟩ | ⟨a, addr, n, e⟩)
    · rw [← e]; simp only [flashEnv, flashRead]; repeat' split
      all_goals simp
    · rw [← e]; simp only [flashEnv, flashWrite]; repeat' split
      all_goals simp
    · rw [← e]; simp only [flashEnv, flashErase]; repeat' split
      all_goals simp
  · rintro ⟨a, addr, n, d, a', h, hl⟩
    simp only [flashEnv, flashRead] at h
    split at h
    · exact absurd (congrArg Prod.fst h) (by simp)
    · rename_i hb
      cases h
      rw [not_or] at hb
      refine hl ?_
      simp only [List.length_take, List.length_drop]
      omega

-- C48: the patches of `C40_uninit` and `C40_div_zero` are of the kinds named.
example : EmptyCrleInPlace (fedBytes [.process [0x12, 4, 2, 2, 0, 1, 1, 0, 0]]) :=
  ⟨4, 2, 2, 0, 1, _, ⟨_, _, _, _, _, _, _, _, _, _, _, rfl, by decide, by decide, by decide, rfl, rfl, rfl, rfl, rfl⟩,
    .here (rest := [0]) (.inr rfl) rfl⟩
example : ZeroSegmentSize (fedBytes [.process [0x10, 4, 0, 2, 0, 1]]) :=
  ⟨0, 4, 2, 0, 1, _, ⟨_, _, _, _, _, _, _, _, _, _, _, rfl, by decide, by decide, by decide, rfl, rfl, rfl, rfl, rfl⟩, by decide⟩
-- And the patch of the update above is of neither.
example : ¬ ZeroSegmentSize [0x10, 4, 2, 2, 2, 1, 0, 0, 1, 9, 0] ∧ ¬ EmptyCrleInPlace [0x10, 4, 2, 2, 2, 1, 0, 0, 1, 9, 0] := by
  refine ⟨?_, ?_⟩
  · rintro ⟨c, m, sh, fr, to, body, ⟨b, t0, t1, t2, t3, t4, n0, n1, n2, n3, n4, h1, _, _, _, h2, h3, _⟩, _⟩
    cases h1
    cases h2
    cases h3
  · rintro ⟨m, sg, sh, fr, to, body, ⟨b, t0, t1, t2, t3, t4, n0, n1, n2, n3, n4, h1, _, h2, _⟩, _⟩
    cases h1
    cases h2

/-- C26. A patch whose first byte is not of type in-place, or whose compression the C
library does not have, is never applied by the in-place API: no callback is made, process
returns no positive value and finalize always fails. -/
theorem C26_in_place_rejects [Build] (E : MemEnv σ) (patchSize : Nat) (arg : σ) (calls : List Call) (_hdoc : AsDocumented calls) (b : UInt8) (t : Bytes)
    (hfed : fedBytes calls = b :: t)
    (hb : (b.toNat >>> 4) &&& 0x7 ≠ 1 ∨ ¬ BuiltIn (b.toNat &&& 0xf)) {rs s w}
    (hrun : runInPlaceCalls E (inPlaceInit patchSize) { arg := arg } calls = .ok (rs, s, w)) :
    w = { arg := arg } ∧ Rejecting calls rs := by
  refine bad_runs (b := b) hb calls _ (.inr ⟨?_, .inr ⟨t, hfed⟩⟩) hrun
  rcases IPState.start patchSize with h | h
  · cases h
  · exact ⟨h, rfl, rfl⟩

/-- C26. For a wrong type the code is BAD_PATCH_TYPE, at the first byte. -/
theorem C26_in_place_bad_type [Build] (E : MemEnv σ) (patchSize : Nat) (w : MWorld σ) (b : UInt8) (t : Bytes) (hb : (b.toNat >>> 4) &&& 0x7 ≠ 1) :
    ∃ s, inPlaceProcess E (inPlaceInit patchSize) w (b :: t) = .ok (BAD_PATCH_TYPE, s, w) := by
  have hI : IPInv { inPlaceInit patchSize with chunk := { buf := b :: t, offset := 0 } } := by
    rcases IPState.start patchSize with h | h
    · cases h
    · exact h.setChunk _
  obtain ⟨e1, _, _⟩ := Chunk.get_cons hI.chunk (b := b) (t := t) rfl
  unfold inPlaceProcess
  simp only
  have hmu := mu_fuel hI.chunk
  obtain ⟨f, hf⟩ : ∃ f, InPlace.fuel { inPlaceInit patchSize with chunk := { buf := b :: t, offset := 0 } } = f + 2 := ⟨_, (Nat.sub_add_cancel (by omega)).symm⟩
  have he : ipInit E { inPlaceInit patchSize with chunk := { buf := b :: t, offset := 0 } } w =
      ipInitFixedHeader { inPlaceInit patchSize with chunk := { buf := b :: t, offset := 0 } } w := rfl
  unfold ipInitFixedHeader at he
  rw [e1] at he
  simp only [Bind.bind, Except.bind, hb, ne_eq, not_false_iff, if_true] at he
  rw [hf, ipProcessLoop, if_pos ⟨by simp [Chunk.available, Chunk.left], by decide⟩, once_neg rfl he (by decide)]
  simp only [Bind.bind, Except.bind]
  rw [ipLoop_stop E (.inr (by decide))]
  exact ⟨_, rfl⟩

-- The in-place patch of the examples above as a sequential patch, and with another compression.
example : ((runInPlaceCalls (flashEnv {} false) (inPlaceInit 11) (powerOn { mem := [1, 2, 3, 4] })
    [.process [0x00, 4, 2, 2, 2, 1], .finalize]).map fun (rs, _, w) => (rs, w.trace)) = .ok ([BAD_PATCH_TYPE, ALREADY_FAILED], []) := by
  decide +kernel
example : ((runInPlaceCalls (flashEnv {} false) (inPlaceInit 11) (powerOn { mem := [1, 2, 3, 4] })
    [.process [0x11, 4, 2], .process [2, 2, 1], .finalize]).map fun (rs, _, w) => (rs, w.trace)) = .ok ([0, BAD_COMPRESSION, ALREADY_FAILED], []) := by
  decide +kernel

/-- C34. If every `patch_read` succeeds and no memory callback returns a positive value,
`detools_apply_patch_in_place_callbacks` returns what the low level API returns for the
pieces read, and makes the same calls of the other callbacks. -/
theorem C34_in_place_equals_incremental [Build] (E : MemEnv τ) (hE : ∀ res, E.Returns res → res ≤ 0) (read : PatchRead ρ) (patchSize : Nat)
    (a : τ) (r : ρ) (pieces : List Bytes) (hsup : Supplies read r patchSize pieces) :
    (applyPatchInPlaceCallbacks (E.with ρ) (patchReadWith τ read) patchSize (a, r)).map (fun (n, w, _) => (n, w.arg.1, w.trace)) =
    (inPlacePieces E patchSize { arg := a } pieces).map (fun (n, _, w) => (n, w.arg, w.trace)) := by
  have h := inPlaceCallbacksLoop_with hE read patchSize (patchSize + 2) 0 (inPlaceInit patchSize) { arg := a } r [] pieces
    (IPState.start patchSize) (by omega) (by omega) hsup
  unfold applyPatchInPlaceCallbacks inPlacePieces
  rw [show ({ arg := (a, r) } : MWorld (τ × ρ)) = MWorld.attach r { arg := a } from rfl]
  cases hp : inPlaceProcessAll E (inPlaceInit patchSize) { arg := a } pieces with
  | error u =>
    simp only [hp] at h
    rw [h]
    rfl
  | ok x =>
    obtain ⟨res, s, w⟩ := x
    simp only [hp] at h
    obtain ⟨r', rs', h1, h2, h3⟩ := h
    rw [h1]
    simp only [Bind.bind, Except.bind]
    by_cases hr : res = 0
    · rw [if_pos hr, if_neg (by simp [hr]), inPlaceFinalize_with]
      rcases inPlaceFinalize E s w with e | ⟨n, s', w'⟩ <;> rfl
    · rw [if_neg hr, if_pos hr]
      obtain ⟨s1, h4, _⟩ := ip_failed_finalize (E := E.with ρ) (h3 hr) (w.attach r')
      rw [h4]
      rfl

/-- The parts of 512 bytes of a created patch do not split its header. -/
theorem wholeHeader_parts [Build] {lib : Lib} (hsa : SuffixArrayInRange lib.suffixArray) {c : Compression} {memory seg : Nat} {minShift : Option Nat}
    {fr to patch : Bytes} (h : DevicePatch lib c memory seg minShift fr to patch) {f : Flash} (hf : Fresh memory fr f) :
    WholeHeader patch (parts512 patch) := by
  have hfl := hf.mem.length_le
  rw [hf.len] at hfl
  obtain ⟨hd1, hd2⟩ := h.dvd hsa hfl
  obtain ⟨shift, body, opss, hsh, q1, q2, q3, hP, hr, hb, b, hp, _⟩ := device_patch hsa h hd1 hd2 hf.mem hf.len
  intro hd body' hr' _ piece hpiece
  rw [hr] at hr'
  cases hr'
  have hne : patch ≠ [] := by rw [hp]; simp
  rw [parts512_cons hne, List.find?_cons] at hpiece
  have hdec : (decide (patch.take 512 ≠ [])) = true := by
    have : patch.take 512 ≠ [] := by
      rw [hp]; simp
    exact decide_eq_true this
  rw [hdec] at hpiece
  cases hpiece
  have hok := hP.ok
  have hlen := congrArg List.length hp
  have a1 := packSize_length_four (memory : Nat) (by have := hok.m; exact this)
  have a2 := packSize_length_four (seg : Nat) (by have := hok.s; exact this)
  have a3 := packSize_length_four (shift : Nat) (by have := hok.h; exact this)
  have a4 := packSize_length_four (fr.length : Nat) (by have := hok.f; exact this)
  have a5 := packSize_length_four (to.length : Nat) (by have := hok.t; exact this)
  simp only [List.length_cons, HV.tail, List.length_append] at hlen
  have hlen' : patch.length = (packSize (memory : Nat)).length + ((packSize (seg : Nat)).length + ((packSize (shift : Nat)).length +
    ((packSize (fr.length : Nat)).length + ((packSize (to.length : Nat)).length + body.length)))) + 1 := hlen
  rw [List.length_take]
  omega

/-- C34. The callback function on a device with a created patch supplied by a file: the
update succeeds as with the low level API. -/
theorem C34_in_place_created [Build] {lib : Lib} (hsa : SuffixArrayInRange lib.suffixArray) {c : Compression} {memory seg : Nat} {minShift : Option Nat}
    {fr to patch : Bytes} (h : DevicePatch lib c memory seg minShift fr to patch) (f : Flash) (hf : Fresh memory fr f) (hops : f.ops = 0)
    (P : Power) (hpow : P.limit = none) (steps : Bool) :
    ∃ w rs, applyPatchInPlaceCallbacks ((flashEnv P steps).with ReadFile) (patchReadWith Flash fileRead) patch.length (f, { data := patch }) =
        .ok (to.length, w, rs) ∧ to <+: w.arg.1.mem ∧ w.arg.1.mem.length = memory := by
  have hsup := supplies_file patch patch.length 0 (by omega)
  rw [List.drop_zero, Nat.sub_zero] at hsup
  have hE : ∀ res, (flashEnv P steps).Returns res → res ≤ 0 := by
    rintro res (⟨a, addr, n, e⟩ | ⟨a, addr, d, e⟩ | ⟨a, addr, n, e⟩)
    · rw [← e]; simp only [flashEnv, flashRead]; repeat' split
      all_goals simp
    · rw [← e]; simp only [flashEnv, flashWrite]; repeat' split
      all_goals simp
    · rw [← e]; simp only [flashEnv, flashErase]; repeat' split
      all_goals simp
  have he := C34_in_place_equals_incremental (flashEnv P steps) hE fileRead patch.length f _ _ hsup
  obtain ⟨s, w, h1, h2, h3, _⟩ := C19_c_in_place_roundtrip hsa h f hf P hpow steps (parts512 patch) (parts512_flatten _ _ (Nat.le_refl _)) (wholeHeader_parts hsa h hf)
  have hpo : powerOn f = { arg := f } := by unfold powerOn; rw [← hops]
  rw [hpo] at h1
  rw [h1] at he
  cases hc : applyPatchInPlaceCallbacks ((flashEnv P steps).with ReadFile) (patchReadWith Flash fileRead) patch.length (f, { data := patch }) with
  | error u => rw [hc] at he; cases he
  | ok x =>
    obtain ⟨n, w', rs⟩ := x
    rw [hc] at he
    simp only [Except.map, Except.ok.injEq, Prod.mk.injEq] at he
    obtain ⟨rfl, e2, _⟩ := he
    exact ⟨w', rs, rfl, by rw [e2]; exact h2, by rw [e2]; exact h3⟩

end Detools
