import Verif.Proofs.CSeqFailed
import Verif.Proofs.CBound
import Verif.Proofs.CSeqReject
import Verif.Proofs.CSeqCauses
/-
C10, C12, C13, C33: the sequential C API under every history of calls, every patch and
every behaviour of the callbacks. `E` is arbitrary: callbacks may fail at any time,
return anything, and depend on everything that happened to their argument.
-/
namespace Detools

attribute [local instance] noLzma

/-- C13: process and finalize return (no loop of the model runs out of fuel), never
access memory outside an object and never divide by zero, and no callback is asked to
move more than 128 bytes, the size of the stack buffers. Two kinds of undefined
behaviour remain, shown to be reachable by `C13_uninit` and `C13_overflow`. -/
theorem C13_safe_partial [Build] (E : SeqEnv σ) (patchSize : Nat) (arg : σ) (calls : List Call) (_hdoc : AsDocumented calls) :
    match runCalls E (applyPatchInit patchSize) { arg := arg } calls with
    | .error u => u ≠ .timeout ∧ u ≠ .oob ∧ u ≠ .divZero
    | .ok (_, _, w) => ∀ ev ∈ w.trace, ev.count ≤ 128 := by
  rcases runCalls_ok E calls (HS.start patchSize) (HW.start patchSize arg) with (e | e) | ⟨rs, s, w, e, _, h⟩
  · rw [e]; exact ⟨by decide, by decide, by decide⟩
  · rw [e]; exact ⟨by decide, by decide, by decide⟩
  · rw [e]; exact h.small

/-- A CRLE patch with an empty segment: `patch_reader_unpack_size` uses a byte that was
never written. -/
theorem C13_uninit : (runCalls (fileEnv []) (applyPatchInit 5) { arg := {} }
    [.process [0x02, 0x01, 0x01, 0x00, 0x00]]).map (·.1) = .error .uninit := by
  decide +kernel

/-- Seventeen adjustments of 2^27 - 1 overflow `from_offset`. -/
theorem C13_overflow : (runCalls (fileEnv []) (applyPatchInit 105) { arg := {} }
    [.process ([0x00, 0x01, 0x00] ++ (List.replicate 17 [0x00, 0x00, 0xbf, 0xff, 0xff, 0x7f]).flatten)]).map (·.1) = .error .overflow := by
  decide +kernel

/-- C47: a byte never written is used only if the bytes given to process are a CRLE patch
with an empty segment, or the read callback returns 0 without having filled the buffer. -/
theorem C47_uninit_causes [Build] (E : SeqEnv σ) (patchSize : Nat) (arg : σ) (calls : List Call) (_hdoc : AsDocumented calls)
    (h : runCalls E (applyPatchInit patchSize) { arg := arg } calls = .error .uninit) :
    EmptyCrleSegment (fedBytes calls) ∨ ShortRead E := by
  rcases runCalls_cause (E := E) (P := fun f s _ => EmptyInv f s) (fun k => k.inv) (fun k he => k.once he)
      (fun p po k ha => k.chunk ha p po) calls (f := [])
      ⟨SInv.start patchSize, ⟨rfl, rfl⟩, fun h => absurd rfl h⟩ (.inr (.inr rfl)) h with k | ⟨f', later, s', w', k1, k2, k3⟩
  · cases k
  · rcases k2.cause k3 with q | q
    · exact .inr q
    · left
      have := q later
      rwa [← k1] at this

/-- C47: with callbacks that keep a position in the range of `int`, which an image of less
than 2 GiB and a seek callback that refuses to leave it do, no signed sum overflows. -/
theorem C47_no_overflow [Build] (E : SeqEnv σ) (pos : σ → Int) (hE : HasPosition E pos) (patchSize : Nat) (arg : σ) (h0 : pos arg = 0)
    (calls : List Call) (_hdoc : AsDocumented calls) :
    runCalls E (applyPatchInit patchSize) { arg := arg } calls ≠ .error .overflow := by
  intro h
  rcases runCalls_cause (E := E) (P := fun _ s w => PosInv pos s w) (fun k => k.inv) (fun k he => k.once hE he)
      (fun p po k _ => ⟨k.inv.setChunk, k.pos⟩) calls (f := []) (w := { arg := arg })
      ⟨SInv.start patchSize, fun _ => h0.symm⟩ (.inr (.inr rfl)) h with k | ⟨f', later, s', w', k1, k2, k3⟩
  · cases k
  · exact k2.cause hE k3

/-- C47: no undefined behaviour at all, for every patch that is not a CRLE patch with an
empty segment and every sequence of calls, with callbacks that fill the buffer when they
report success and keep a position in the range of `int`. They may fail at any time. -/
theorem C47_no_ub [Build] (E : SeqEnv σ) (pos : σ → Int) (hE : HasPosition E pos) (hfill : ¬ ShortRead E) (patchSize : Nat) (arg : σ) (h0 : pos arg = 0)
    (calls : List Call) (hdoc : AsDocumented calls) (hseg : ¬ EmptyCrleSegment (fedBytes calls)) :
    ∃ rs s w, runCalls E (applyPatchInit patchSize) { arg := arg } calls = .ok (rs, s, w) ∧ ∀ ev ∈ w.trace, ev.count ≤ 128 := by
  rcases runCalls_ok E calls (HS.start patchSize) (HW.start patchSize arg) with (e | e) | ⟨rs, s, w, e, _, h⟩
  · rcases C47_uninit_causes E patchSize arg calls hdoc e with h | h
    · exact absurd h hseg
    · exact absurd h hfill
  · exact absurd e (C47_no_overflow E pos hE patchSize arg h0 calls hdoc)
  · exact ⟨rs, s, w, e, h.small⟩

/-- Callbacks on an image in memory that check their bounds. -/
def imageEnv (fr : Bytes) : SeqEnv (Fin (2 ^ 31)) where
  fromRead p n :=
    if h : p.val + n ≤ fr.length ∧ p.val + n < 2 ^ 31 then (0, (fr.drop p.val).take n, ⟨p.val + n, h.2⟩) else (FILE_READ_FAILED, [], p)
  fromSeek p off :=
    if h : 0 ≤ p.val + off ∧ p.val + off ≤ fr.length ∧ p.val + off < 2 ^ 31 then (0, ⟨(p.val + off).toNat, by omega⟩) else (FILE_SEEK_FAILED, p)
  toWrite p _ := (0, p)

/-- They meet the hypotheses of `C47_no_ub` for every image. -/
theorem imageEnv_ok (fr : Bytes) : HasPosition (imageEnv fr) (fun p => (p.val : Int)) ∧ ¬ ShortRead (imageEnv fr) := by
  refine ⟨⟨?_, ?_, ?_, fun p => ⟨by omega, by omega⟩⟩, ?_⟩
  · intro p n d p' h
    simp only [imageEnv] at h
    split at h
    · cases h; simp
    · exact absurd (congrArg Prod.fst h) (by simp [FILE_READ_FAILED, FILE_SEEK_FAILED])
  · intro p off p' h
    simp only [imageEnv] at h
    split at h
    · cases h; simp only; omega
    · exact absurd (congrArg Prod.fst h) (by simp [FILE_READ_FAILED, FILE_SEEK_FAILED])
  · intro p d p' h
    simp only [imageEnv] at h
    cases h
    rfl
  · rintro ⟨p, n, d, p', h, hl⟩
    simp only [imageEnv] at h
    split at h
    · cases h
      refine hl ?_
      simp only [List.length_take, List.length_drop]
      omega
    · exact absurd (congrArg Prod.fst h) (by simp [FILE_READ_FAILED, FILE_SEEK_FAILED])

-- The patch of `C13_overflow`: the first adjustment is refused.
example : (runCalls (imageEnv [1, 2, 3]) (applyPatchInit 105) { arg := ⟨0, by decide⟩ }
    [.process ([0x00, 0x01, 0x00] ++ (List.replicate 17 [0x00, 0x00, 0xbf, 0xff, 0xff, 0x7f]).flatten)]).map (·.1) = .ok [IO_FAILED] := by
  decide +kernel

-- A CRLE patch without empty segments.
example : ¬ EmptyCrleSegment [0x02, 0x03, 0x00, 0x07, 0x00, 0x03, 0x01, 0x01, 0x01, 0x00, 0x00] := by
  rintro ⟨b, t, v, len, body, h1, h2, h3, h4⟩
  cases h1
  have e1 : unpackSizeWithLength [0x03, 0x00, 0x07, 0x00, 0x03, 0x01, 0x01, 0x01, 0x00, 0x00] =
      .ok (3, 1, [0x00, 0x07, 0x00, 0x03, 0x01, 0x01, 0x01, 0x00, 0x00]) := by decide +kernel
  have e2 : crleUnpackSize 0 0 [0x07, 0x00, 0x03, 0x01, 0x01, 0x01, 0x00, 0x00] = some (7, [0x00, 0x03, 0x01, 0x01, 0x01, 0x00, 0x00]) := by
    decide +kernel
  rw [e1] at h3
  cases h3
  cases h4 with
  | here _ h => rw [e2] at h; cases h
  | scattered h h' =>
    rw [e2] at h
    cases h
    cases h' with | lit h' => ?_
    cases h' with | lit h' => ?_
    cases h' with | lit h' => ?_
    cases h' with | lit h' => ?_
    cases h' with | lit h' => ?_
    cases h' with | lit h' => ?_
    cases h' with | lit h' => ?_
    cases h'

-- And that of `C13_uninit`.
example : EmptyCrleSegment [0x02, 0x01, 0x01, 0x00, 0x00] :=
  ⟨_, _, 1, 1, [0x01, 0x00, 0x00], rfl, by decide, by decide +kernel, .here (.inr rfl) (rest := [0]) (by decide +kernel)⟩

/-- C10: when finalize succeeds after any history, the value returned is the magnitude
of the size in the header of the bytes fed (as the Python decoder reads it), and
exactly that many bytes were passed to to_write (modulo the range of `size_t`). -/
theorem C10_success_size [Build] (E : SeqEnv σ) (patchSize : Nat) (arg : σ) (calls : List Call) (_hdoc : AsDocumented (calls ++ [.finalize])) {rs s w n s' w'}
    (hrun : runCalls E (applyPatchInit patchSize) { arg := arg } calls = .ok (rs, s, w))
    (hfin : applyPatchFinalize E s w = .ok (n, s', w')) (hn : 0 ≤ n) :
    ((written w'.trace).length < 2 ^ 64 → ((written w'.trace).length : Int) = n) ∧
    (∃ b t v k tail, fedBytes calls = b :: t ∧ unpackSizeWithLength t = .ok (v, k, tail) ∧ n = v.natAbs) := by
  rcases runCalls_ok E calls (HS.start patchSize) (HW.start patchSize arg) with (e | e) | ⟨rs', s1, w1, e, h1, h2⟩
  · rw [e] at hrun; cases hrun
  · rw [e] at hrun; cases hrun
  · rw [e] at hrun
    cases hrun
    rw [List.nil_append] at h1
    have hs := finalize_hs E h1 hfin
    rcases finalize_ok E h1.inv w with (e | e) | ⟨res, s2, w2, e, g1, g2, g3⟩
    · rw [e] at hfin; cases hfin
    · rw [e] at hfin; cases hfin
    · rw [e] at hfin
      cases hfin
      have hw := h2.of_counted g2
      cases g1 with
      | ok evs k1 k2 k3 k4 =>
        have hd := g2.inv.done k3
        constructor
        · intro hlt
          have := hw.off
          rw [hd] at this
          unfold sz at this
          rw [Nat.mod_eq_of_lt hlt] at this
          omega
        · obtain ⟨b, t, a, t', _, q1, q2⟩ := (HT.body (by rw [k3]; decide) (by rw [k3]; decide)).1 hs.ht
          obtain ⟨v, k, q3, q4, q5⟩ := hdrRun_value q2
          exact ⟨b, t, v, k, t', q1, q3, by rw [← q5]⟩
      | fail _ _ _ k => omega
      | io => exact absurd hn (by decide)

/-- `detools_apply_patch_get_to_offset` is the number of bytes written so far, at any
time. -/
theorem C10_to_offset [Build] (E : SeqEnv σ) (patchSize : Nat) (arg : σ) (calls : List Call) (_hdoc : AsDocumented calls) {rs s w}
    (hrun : runCalls E (applyPatchInit patchSize) { arg := arg } calls = .ok (rs, s, w)) :
    s.toOffset = (written w.trace).length % 2 ^ 64 := by
  rcases runCalls_ok E calls (HS.start patchSize) (HW.start patchSize arg) with (e | e) | ⟨rs', s1, w1, e, h1, h2⟩
  · rw [e] at hrun; cases hrun
  · rw [e] at hrun; cases hrun
  · rw [e] at hrun
    cases hrun
    exact h2.off

/-- C11: at any time between calls, no more bytes than the to size in the header have
been passed to to_write, unless the diff or extra size being worked on was negative
(then `chunk_size`, what is left of its `size_t` conversion, is at least 2^63). What is
missing: with a negative size the claim is false, `C11_negative_size`. -/
theorem C11_never_beyond_partial [Build] (E : SeqEnv σ) (patchSize : Nat) (arg : σ) (calls : List Call) (_hdoc : AsDocumented calls) {rs s w}
    (hrun : runCalls E (applyPatchInit patchSize) { arg := arg } calls = .ok (rs, s, w))
    (hlt : (written w.trace).length < 2 ^ 62) (hpos : s.chunkSize < 2 ^ 63) :
    (written w.trace).length ≤ s.toSize := by
  have := runCalls_induct E (fun s w => SInv s ∧ s.toOffset = sz (written w.trace).length ∧ BInv s w) ?_ ?_ calls
    ⟨SInv.start patchSize, rfl, ⟨fun _ => ⟨rfl, rfl⟩, by simp [applyPatchInit], fun _ => .inl (by simp [applyPatchInit])⟩⟩ hrun
  · obtain ⟨_, h2, h3⟩ := this
    rcases h3.bound hlt with h | h
    · rw [h2] at h
      unfold sz at h
      rw [Nat.mod_eq_of_lt (by omega)] at h
      omega
    · omega
  · rintro s w res s' w' ⟨h1, h2, h3⟩ he
    have hb := once_bound E h1 h2 h3 he
    rcases once_ok E h1 w with (e | e) | ⟨out, e, ho⟩
    · rw [e] at he; cases he
    · rw [e] at he; cases he
    · rw [e] at he
      cases he
      cases ho with
      | ok _ _ _ g => exact ⟨g.inv, g.counted.off h2, hb⟩
      | more _ _ g => exact ⟨g.inv, g.counted.off h2, hb⟩
      | done => exact ⟨h1, h2, hb⟩
      | already => exact ⟨h1, h2, hb⟩
      | fail _ _ g => exact ⟨g.inv, g.counted.off h2, hb⟩
      | io _ _ _ _ g => exact ⟨g.inv, g.counted.off h2, hb⟩
  · rintro s w po buf ⟨h1, h2, h3⟩
    exact ⟨h1.setChunk, h2, h3.quiet rfl (fun h => h) rfl rfl rfl⟩

/-- A patch with to size 1 whose extra size is -1: three bytes too many are written. -/
theorem C11_negative_size : ((runCalls (fileEnv [0]) (applyPatchInit 1000) { arg := {} }
    [.process [0x00, 0x01, 0x00, 0x01, 5, 0x41, 1, 2, 3]]).map fun (rs, s, w) => (rs, s.toSize, written w.trace)) =
    .ok ([0], 1, [5, 1, 2, 3]) := by decide +kernel

-- C11: in the middle of a record, within the limits
example : ((runCalls (fileEnv [1, 2, 3]) (applyPatchInit 10) { arg := {} }
    [.process [0x00, 4, 0, 0x02, 1]]).map fun (_, s, w) => (s.chunkSize, s.toSize, written w.trace)) =
    .ok (1, 4, [2]) := by decide +kernel

/-- C12: after any history, once process has returned a negative value, whatever is
called later: no callback is made again (the trace of callbacks and the state of the
user are unchanged), process of a non-empty piece and finalize return ALREADY_FAILED. -/
theorem C12_failure_is_final [Build] (E : SeqEnv σ) (patchSize : Nat) (arg : σ) (pre : List Call) (piece : Bytes) (post : List Call) (_hdoc : AsDocumented (pre ++ .process piece :: post))
    {rs s w e s1 w1}
    (hpre : runCalls E (applyPatchInit patchSize) { arg := arg } pre = .ok (rs, s, w))
    (hp : applyPatchProcess E s w piece = .ok (e, s1, w1)) (he : e < 0) :
    ∃ s2, runCalls E s1 w1 post = .ok (post.map afterFailure, s2, w1) := by
  rcases runCalls_ok E pre (HS.start patchSize) (HW.start patchSize arg) with (h | h) | ⟨rs', s', w', h, h1, h2⟩
  · rw [h] at hpre; cases hpre
  · rw [h] at hpre; cases hpre
  · rw [h] at hpre
    cases hpre
    rcases process_ok E h1.inv w piece with (h | h) | ⟨res, s2, w2, h, g1, g2, g3⟩
    · rw [h] at hp; cases hp
    · rw [h] at hp; cases hp
    · rw [h] at hp
      cases hp
      refine failed_calls E post g2.inv ?_
      cases g1 with
      | ok => omega
      | fail _ _ _ _ _ k => exact k
      | io _ _ _ _ _ k => exact k

/-- C33: a call of process returns IO_FAILED exactly if a callback made during that
call failed, and then the object is in the failed state. -/
theorem C33_process_io [Build] (E : SeqEnv σ) (patchSize : Nat) (arg : σ) (pre : List Call) (piece : Bytes) (_hdoc : AsDocumented (pre ++ [.process piece])) {rs s w e s1 w1}
    (hpre : runCalls E (applyPatchInit patchSize) { arg := arg } pre = .ok (rs, s, w))
    (hp : applyPatchProcess E s w piece = .ok (e, s1, w1)) :
    ∃ evs, w1.trace = evs ++ w.trace ∧ ((∃ ev ∈ evs, ev.res ≠ 0) ↔ e = IO_FAILED) ∧
      ((∃ ev ∈ evs, ev.res ≠ 0) → s1.state = .failed) := by
  rcases runCalls_ok E pre (HS.start patchSize) (HW.start patchSize arg) with (h | h) | ⟨rs', s', w', h, h1, h2⟩
  · rw [h] at hpre; cases hpre
  · rw [h] at hpre; cases hpre
  · rw [h] at hpre
    cases hpre
    rcases process_ok E h1.inv w piece with (h | h) | ⟨res, s2, w2, h, g1, g2, g3⟩
    · rw [h] at hp; cases hp
    · rw [h] at hp; cases hp
    · rw [h] at hp
      cases hp
      have no : ∀ {evs : List Ev}, (∀ ev ∈ evs, ev.res = 0) → ¬ ∃ ev ∈ evs, ev.res ≠ 0 :=
        fun h ⟨ev, hm, hne⟩ => hne (h ev hm)
      cases g1 with
      | ok evs k1 k2 => exact ⟨evs, k1, ⟨fun h => absurd h (no k2), fun h => absurd h (by decide)⟩, fun h => absurd h (no k2)⟩
      | fail evs k1 k2 k3 k4 k5 => exact ⟨evs, k1, ⟨fun h => absurd h (no k2), fun h => absurd h k4⟩, fun _ => k5⟩
      | io ev evs k1 k2 k3 k4 => exact ⟨_, k1, ⟨fun _ => rfl, fun _ => ⟨ev, by simp, k2⟩⟩, fun _ => k4⟩

/-- C33 for finalize. -/
theorem C33_finalize_io [Build] (E : SeqEnv σ) (patchSize : Nat) (arg : σ) (pre : List Call) (_hdoc : AsDocumented (pre ++ [.finalize])) {rs s w e s1 w1}
    (hpre : runCalls E (applyPatchInit patchSize) { arg := arg } pre = .ok (rs, s, w))
    (hp : applyPatchFinalize E s w = .ok (e, s1, w1)) :
    ∃ evs, w1.trace = evs ++ w.trace ∧ ((∃ ev ∈ evs, ev.res ≠ 0) ↔ e = IO_FAILED) ∧
      ((∃ ev ∈ evs, ev.res ≠ 0) → s1.state = .failed) := by
  rcases runCalls_ok E pre (HS.start patchSize) (HW.start patchSize arg) with (h | h) | ⟨rs', s', w', h, h1, h2⟩
  · rw [h] at hpre; cases hpre
  · rw [h] at hpre; cases hpre
  · rw [h] at hpre
    cases hpre
    rcases finalize_ok E h1.inv w with (h | h) | ⟨res, s2, w2, h, g1, g2, g3⟩
    · rw [h] at hp; cases hp
    · rw [h] at hp; cases hp
    · rw [h] at hp
      cases hp
      have no : ∀ {evs : List Ev}, (∀ ev ∈ evs, ev.res = 0) → ¬ ∃ ev ∈ evs, ev.res ≠ 0 :=
        fun h ⟨ev, hm, hne⟩ => hne (h ev hm)
      cases g1 with
      | ok evs k1 k2 => exact ⟨evs, k1, ⟨fun h => absurd h (no k2), fun h => by have := h; unfold IO_FAILED at this; omega⟩, fun h => absurd h (no k2)⟩
      | fail evs k1 k2 k3 k4 => exact ⟨evs, k1, ⟨fun h => absurd h (no k2), fun h => absurd h k4⟩, fun h => absurd h (no k2)⟩
      | io ev evs k1 k2 k3 k4 => exact ⟨_, k1, ⟨fun _ => rfl, fun _ => ⟨ev, by simp, k2⟩⟩, fun _ => k4⟩

/-! Non-vacuity: a patch in two pieces, an old image too short to be read from, and
what the calls return. -/

-- success: the header says 4 and four bytes are written
example : ((runCalls (fileEnv [1, 2, 3]) (applyPatchInit 10) { arg := {} }
    [.process [0x00, 4, 0, 0x02, 1], .process [1, 2, 9, 9, 0], .finalize]).map fun (rs, _, w) => (rs, written w.trace)) =
    .ok ([0, 0, 4], [2, 3, 9, 9]) := by decide +kernel
-- an I/O error, then ALREADY_FAILED from a non-empty piece and finalize, 0 from an empty piece
example : ((runCalls (fileEnv [1]) (applyPatchInit 10) { arg := {} }
    [.process [0x00, 4, 0, 0x02, 1], .process [1, 2, 9, 9, 0], .process [1], .process [], .finalize]).map fun (rs, _, w) => (rs, written w.trace)) =
    .ok ([0, IO_FAILED, ALREADY_FAILED, 0, ALREADY_FAILED], [2]) := by decide +kernel

/-- C26. A patch whose first byte is not of type sequential, or whose compression the C
library does not have, is never applied by the sequential API: no callback is made,
process returns no positive value and finalize always fails. -/
theorem C26_c_rejects [Build] (E : SeqEnv σ) (patchSize : Nat) (arg : σ) (calls : List Call) (_hdoc : AsDocumented calls) (b : UInt8) (t : Bytes)
    (hfed : fedBytes calls = b :: t)
    (hb : (b.toNat >>> 4) &&& 0x7 ≠ 0 ∨ ¬ BuiltIn (b.toNat &&& 0xf)) {rs s w}
    (hrun : runCalls E (applyPatchInit patchSize) { arg := arg } calls = .ok (rs, s, w)) :
    w = { arg := arg } ∧ Rejecting calls rs :=
  sbad_runs (b := b) hb calls _ (.inr ⟨⟨rfl, rfl⟩, .inr ⟨t, hfed⟩⟩) hrun

/-- C26. For a wrong type the code is BAD_PATCH_TYPE, at the first byte. -/
theorem C26_c_bad_type [Build] (E : SeqEnv σ) (patchSize : Nat) (w : World σ) (b : UInt8) (t : Bytes) (hb : (b.toNat >>> 4) &&& 0x7 ≠ 0) :
    ∃ s, applyPatchProcess E (applyPatchInit patchSize) w (b :: t) = .ok (BAD_PATCH_TYPE, s, w) := by
  obtain ⟨e1, _, _⟩ := Chunk.get_cons (c := { buf := b :: t, offset := 0 }) (Nat.zero_le _) (b := b) (t := t) rfl
  unfold applyPatchProcess
  simp only
  obtain ⟨f, hf⟩ : ∃ f, ApplyPatch.fuel { applyPatchInit patchSize with patchOffset := sz ((applyPatchInit patchSize).patchOffset + (b :: t).length), chunk := { buf := b :: t, offset := 0 } } = f + 2 := by
    unfold ApplyPatch.fuel
    exact ⟨_, (Nat.sub_add_cancel (by omega)).symm⟩
  have he : processInit { applyPatchInit patchSize with patchOffset := sz ((applyPatchInit patchSize).patchOffset + (b :: t).length), chunk := { buf := b :: t, offset := 0 } } w =
      processInitFixedHeader { applyPatchInit patchSize with patchOffset := sz ((applyPatchInit patchSize).patchOffset + (b :: t).length), chunk := { buf := b :: t, offset := 0 } } w := rfl
  unfold processInitFixedHeader at he
  rw [e1] at he
  simp only [Bind.bind, Except.bind, hb, ne_eq, not_false_iff, if_true] at he
  rw [hf, processLoop, if_pos ⟨by simp [Chunk.available, Chunk.left], by decide⟩, sonce_neg rfl he (by decide)]
  simp only [Bind.bind, Except.bind]
  rw [processLoop_stop E (.inr (by decide))]
  exact ⟨_, rfl⟩

-- The patch of the examples above as an in-place patch, and with another compression.
example : ((runCalls (fileEnv [1, 2, 3]) (applyPatchInit 10) { arg := {} }
    [.process [0x10, 4, 0, 0x02, 1], .process [1, 2, 9, 9, 0], .finalize]).map fun (rs, _, w) => (rs, w.trace)) =
    .ok ([BAD_PATCH_TYPE, ALREADY_FAILED, ALREADY_FAILED], []) := by decide +kernel
example : ((runCalls (fileEnv [1, 2, 3]) (applyPatchInit 10) { arg := {} }
    [.process [0x05], .process [], .process [4, 0, 0x02, 1], .finalize]).map fun (rs, _, w) => (rs, w.trace)) =
    .ok ([0, 0, BAD_COMPRESSION, ALREADY_FAILED], []) := by decide +kernel

end Detools
