import Verif.Proofs.CInPlaceEarly
import Verif.Props.PyInPlace
/-
C50: in-place updates with the C library, for patches of the format of
Spec/DeviceFormat.lean, whoever made them.
-/
namespace Detools

attribute [local instance] noLzma

variable {c : Compression} {memory seg shift : Nat} {fr to patch : Bytes}

/-- What one attempt does from a device between attempts. -/
theorem attempt_run [Build] (h : DeviceFormat c memory seg shift fr to patch)
    {f0 : Flash} (hf0 : Fresh memory fr f0) :
    ∃ (V : HV) (opss : List (List Op)), (∃ body, readHeaderInPlace patch = .ok (⟨c, memory, seg, shift, fr.length, to.length⟩, body)) ∧
      IPPatch (geoOf memory seg shift fr to f0.mem) V opss ∧ V.total = patch.length ∧
      Between (geoOf memory seg shift fr to f0.mem) f0 ∧
      (0 < to.length → 0 < (geoOf memory seg shift fr to f0.mem).n ∧ Ready (geoOf memory seg shift fr to f0.mem) 0 f0.mem) ∧
      (∀ P steps k0 w, IPStart (geoOf memory seg shift fr to f0.mem) P steps k0 w →
        IPRest (geoOf memory seg shift fr to f0.mem) P steps k0 V (inPlaceInit patch.length) w patch) ∧
      (∀ pieces later, pieces.flatten ++ later = patch → WholeHeader patch pieces → FirstHas V pieces later) := by
  obtain ⟨body, opss, hP, hr, hb, b, hp⟩ := format_patch h hf0.mem hf0.len
  have hn : 0 < to.length → 0 < (geoOf memory seg shift fr to f0.mem).n ∧ Ready (geoOf memory seg shift fr to f0.mem) 0 f0.mem := by
    intro hpos
    refine ⟨?_, ready_start h.segPos h.room hf0.len⟩
    have := (segments_count to.length seg h.segPos hpos).1
    unfold Geo.n Geo.nT
    show 0 < _ + (to.length + seg - 1) / seg
    omega
  refine ⟨_, opss, ⟨body, hr⟩, hP, rfl, ?_, hn, ?_, ?_⟩
  · exact ⟨hf0.len, fun hpos => ⟨0, (hn hpos).1, (hn hpos).2, by rw [hf0.step]; rfl⟩⟩
  · intro P steps k0 w hst
    exact rest_init hP.ok hst ⟨b, hp⟩
  · intro pieces later hp1 hp2
    exact firstHas hr hb hp1 hp2 rfl rfl rfl


theorem attempt_between [Build] {V : HV} {opss : List (List Op)} {mem : Bytes}
    (hP : IPPatch (geoOf memory seg shift fr to mem) V opss) (ht : V.total = patch.length)
    (hst : ∀ P steps k0 w, IPStart (geoOf memory seg shift fr to mem) P steps k0 w →
        IPRest (geoOf memory seg shift fr to mem) P steps k0 V (inPlaceInit patch.length) w patch)
    (hfh : ∀ pieces later, pieces.flatten ++ later = patch → WholeHeader patch pieces → FirstHas V pieces later)
    {f f' : Flash} (hb : Between (geoOf memory seg shift fr to mem) f) (ha : Attempt patch f f') :
    Between (geoOf memory seg shift fr to mem) f' := by
  cases ha with
  | cut P pieces later res s w h1 h2 h3 h4 =>
    obtain ⟨k0, _, hs⟩ := hb.start P
    obtain ⟨e, s', w', e1, e2⟩ := pieces_ip hP later pieces _ _ (by rw [h1]; exact hst _ _ _ _ hs) (fun _ => hfh _ _ h1 h2)
    rw [h3] at e1
    cases e1
    rcases e2 with ⟨_, e2⟩ | ⟨_, e2⟩
    · exact between_dead e2 h4
    · rcases e2.running with ⟨o, e2⟩ | e2
      · exact between_live e2
      · exact between_finished e2 h4
  | full P pieces res s w h1 h2 h3 h4 =>
    obtain ⟨k0, _, hs⟩ := hb.start P
    have h1' : pieces.flatten ++ [] = patch := by rw [List.append_nil]; exact h1
    obtain ⟨e, s', w', e1, e2⟩ := run_ip hP (pieces := pieces) (by rw [h1, ht]; exact hst _ _ _ _ hs) (hfh _ _ h1' h2)
    rw [ht, h3] at e1
    cases e1
    rcases e2 with ⟨_, e2⟩ | ⟨_, e2⟩
    · exact between_dead e2 h4
    · exact between_finished e2 h4
  | early P pieces later res res' s s2 w w2 h1 h2 h3 h5 h4 =>
    obtain ⟨k0, _, hs⟩ := hb.start P
    obtain ⟨e, s', w', e1, e2⟩ := pieces_ip hP later pieces _ _ (by rw [h1]; exact hst _ _ _ _ hs) (fun _ => hfh _ _ h1 h2)
    rw [h3] at e1
    cases e1
    rcases e2 with ⟨he, e2⟩ | ⟨_, e2⟩
    · obtain ⟨_, e3⟩ := finalize_failed_world (E := flashEnv P true) (w := w) (processAll_negative _ h3 he)
      rw [h5] at e3
      cases e3
      exact between_dead e2 h4
    · obtain ⟨_, _, _, e3, e4⟩ := finalize_early hP e2
      rw [h5] at e3
      cases e3
      rcases e4 with ⟨_, e4⟩ | ⟨_, o, e4⟩ | ⟨_, e4⟩
      · exact between_dead e4 h4
      · exact between_live e4
      · exact between_finished e4 h4

theorem attempts_between [Build] {V : HV} {opss : List (List Op)} {mem : Bytes}
    (hP : IPPatch (geoOf memory seg shift fr to mem) V opss) (ht : V.total = patch.length)
    (hst : ∀ P steps k0 w, IPStart (geoOf memory seg shift fr to mem) P steps k0 w →
        IPRest (geoOf memory seg shift fr to mem) P steps k0 V (inPlaceInit patch.length) w patch)
    (hfh : ∀ pieces later, pieces.flatten ++ later = patch → WholeHeader patch pieces → FirstHas V pieces later)
    {f f' : Flash} (hb : Between (geoOf memory seg shift fr to mem) f) (ha : Attempts patch f f') :
    Between (geoOf memory seg shift fr to mem) f' := by
  induction ha with
  | none => exact hb
  | one _ h2 ih => exact attempt_between hP ht hst hfh ih h2

theorem ok_world {x : C (IPRes Flash)} {n : Int} {f : Flash} (h : x.map (fun r => (r.1, r.2.2.arg)) = .ok (n, f)) :
    ∃ s w, x = .ok (n, s, w) ∧ w.arg = f := by
  cases x with
  | error e => cases h
  | ok r =>
    obtain ⟨a, s, w⟩ := r
    cases h
    exact ⟨s, w, rfl, rfl⟩

theorem ok_mem {x : C (IPRes Flash)} {n : Int} {m : Bytes} (h : x.map (fun r => (r.1, r.2.2.arg.mem)) = .ok (n, m)) :
    ∃ s w, x = .ok (n, s, w) ∧ w.arg.mem = m := by
  cases x with
  | error e => cases h
  | ok r =>
    obtain ⟨a, s, w⟩ := r
    cases h
    exact ⟨s, w, rfl, rfl⟩

theorem ok_trace {x : C (IPRes Flash)} {n : Int} {p : List MEv → Bool} (h : x.map (fun r => (r.1, p r.2.2.trace)) = .ok (n, true)) :
    ∃ s w, x = .ok (n, s, w) ∧ p w.trace = true := by
  cases x with
  | error e => cases h
  | ok r =>
    obtain ⟨a, s, w⟩ := r
    simp only [Except.map, Except.ok.injEq, Prod.mk.injEq] at h
    exact ⟨s, w, by rw [h.1], h.2⟩

theorem lost_none {P : Power} (h : P.limit = none) (f : Flash) : P.lost f = false := by
  unfold Power.lost; rw [h]

/-- C50. A device without step callbacks (or with them), with power: the update returns
the size of the to-data and leaves it at the start of the memory, for every way to
divide the patch, whatever erasing leaves in the memory. -/
theorem C50_roundtrip [Build] (h : DeviceFormat c memory seg shift fr to patch) (f : Flash) (hf : Fresh memory fr f)
    (P : Power) (hpow : P.limit = none) (steps : Bool)
    (pieces : List Bytes) (hpieces : pieces.flatten = patch) (hw : WholeHeader patch pieces) :
    ∃ s w, inPlacePieces (flashEnv P steps) patch.length (powerOn f) pieces = .ok (to.length, s, w) ∧
      to <+: w.arg.mem ∧ w.arg.mem.length = memory ∧ (to ≠ [] → steps = true → w.arg.step = 0) := by
  obtain ⟨V, opss, _, hP, ht, hb, hn, hst, hfh⟩ := attempt_run h hf
  have hstart : ∃ k0, IPStart (geoOf memory seg shift fr to f.mem) P steps k0 (powerOn f) := by
    cases steps
    · exact ⟨0, Between.startNoSteps hf.len (fun hp => ⟨(hn hp).2, (hn hp).1⟩) P⟩
    · obtain ⟨k0, _, h⟩ := hb.start P
      exact ⟨k0, h⟩
  obtain ⟨k0, hs⟩ := hstart
  obtain ⟨e, s, w, e1, e2⟩ := run_ip hP (pieces := pieces) (by rw [hpieces, ht]; exact hst _ _ _ _ hs)
    (hfh _ _ (by rw [List.append_nil]; exact hpieces) hw)
  rw [ht] at e1
  rcases e2 with ⟨_, e2⟩ | ⟨rfl, e2⟩
  · have := e2.lost
    rw [lost_none hpow] at this
    cases this
  · exact ⟨s, w, e1, e2.mem, e2.len, fun hne hs => e2.step hs (List.length_pos_iff.2 hne)⟩

/-- C50. After any number of attempts, each of which may lose power at any moment (in
the middle of a write, erase or step set, which then leave anything) or stop at any
point of the patch, and none of which completed the update, an update with power
succeeds. -/
theorem C50_survives_interruption [Build] (h : DeviceFormat c memory seg shift fr to patch) (f : Flash) (hf : Fresh memory fr f)
    (f' : Flash) (hatt : Attempts patch f f') (P : Power) (hpow : P.limit = none)
    (pieces : List Bytes) (hpieces : pieces.flatten = patch) (hw : WholeHeader patch pieces) :
    ∃ s w, inPlacePieces (flashEnv P true) patch.length (powerOn f') pieces = .ok (to.length, s, w) ∧
      to <+: w.arg.mem ∧ w.arg.mem.length = memory ∧ (to ≠ [] → w.arg.step = 0) := by
  obtain ⟨V, opss, _, hP, ht, hb, hn, hst, hfh⟩ := attempt_run h hf
  obtain ⟨k0, _, hs⟩ := (attempts_between hP ht hst hfh hb hatt).start P
  obtain ⟨e, s, w, e1, e2⟩ := run_ip hP (pieces := pieces) (by rw [hpieces, ht]; exact hst _ _ _ _ hs)
    (hfh _ _ (by rw [List.append_nil]; exact hpieces) hw)
  rw [ht] at e1
  rcases e2 with ⟨_, e2⟩ | ⟨rfl, e2⟩
  · have := e2.lost
    rw [lost_none hpow] at this
    cases this
  · exact ⟨s, w, e1, e2.mem, e2.len, fun hne => e2.step rfl (List.length_pos_iff.2 hne)⟩

/-- C50. An attempt of which any call fails lost power: nothing else makes it fail. And
an attempt that passes 0 to `step_set` has put the to-data in the memory. -/
theorem C50_attempt [Build] (h : DeviceFormat c memory seg shift fr to patch) (f : Flash) (hf : Fresh memory fr f)
    (f' : Flash) (hatt : Attempts patch f f') (P : Power)
    (pieces : List Bytes) (hpieces : pieces.flatten = patch) (hw : WholeHeader patch pieces) :
    ∃ res s w, inPlacePieces (flashEnv P true) patch.length (powerOn f') pieces = .ok (res, s, w) ∧
      (res = to.length ∨ res < 0 ∧ P.lost w.arg = true) ∧ (res = to.length ∨ 0 ∈ stepsSet w.trace → to <+: w.arg.mem) := by
  obtain ⟨V, opss, _, hP, ht, hb, hn, hst, hfh⟩ := attempt_run h hf
  obtain ⟨k0, hk0, hs⟩ := (attempts_between hP ht hst hfh hb hatt).start P
  obtain ⟨e, s, w, e1, e2⟩ := run_ip hP (pieces := pieces) (by rw [hpieces, ht]; exact hst _ _ _ _ hs)
    (hfh _ _ (by rw [List.append_nil]; exact hpieces) hw)
  rw [ht] at e1
  refine ⟨e, s, w, e1, ?_⟩
  rcases e2 with ⟨hneg, e2⟩ | ⟨rfl, e2⟩
  · refine ⟨.inr ⟨hneg, e2.lost⟩, ?_⟩
    rintro (hr | hc)
    · omega
    · exact e2.fin hc
  · exact ⟨.inl rfl, fun _ => e2.mem⟩

/-- C50. Every callback stays inside the memory, in every attempt. -/
theorem C50_inside_memory [Build] (h : DeviceFormat c memory seg shift fr to patch) (f : Flash) (hf : Fresh memory fr f)
    (f' : Flash) (steps : Bool) (hatt : if steps then Attempts patch f f' else f' = f) (P : Power)
    (pieces : List Bytes) (hpieces : pieces.flatten = patch) (hw : WholeHeader patch pieces) :
    ∃ res s w, inPlacePieces (flashEnv P steps) patch.length (powerOn f') pieces = .ok (res, s, w) ∧
      ∀ ev ∈ w.trace, ev.Inside memory := by
  obtain ⟨V, opss, _, hP, ht, hb, hn, hst, hfh⟩ := attempt_run h hf
  have hstart : ∃ k0, IPStart (geoOf memory seg shift fr to f.mem) P steps k0 (powerOn f') := by
    cases steps
    · rw [if_neg (by decide)] at hatt
      subst hatt
      exact ⟨0, Between.startNoSteps hf.len (fun hp => ⟨(hn hp).2, (hn hp).1⟩) P⟩
    · rw [if_pos rfl] at hatt
      obtain ⟨k0, _, h⟩ := (attempts_between hP ht hst hfh hb hatt).start P
      exact ⟨k0, h⟩
  obtain ⟨k0, hs⟩ := hstart
  obtain ⟨e, s, w, e1, e2⟩ := run_ip hP (pieces := pieces) (by rw [hpieces, ht]; exact hst _ _ _ _ hs)
    (hfh _ _ (by rw [List.append_nil]; exact hpieces) hw)
  rw [ht] at e1
  refine ⟨e, s, w, e1, ?_⟩
  rcases e2 with ⟨_, e2⟩ | ⟨rfl, e2⟩
  · exact e2.inside
  · exact e2.trace.inside

/-- C50. A completed update stores the steps k + 1, ..., n - 1 and then 0, where k is the
step stored before it and n the number of segments moved and rebuilt; an update that
loses power a part of that. -/
theorem C50_steps [Build] (h : DeviceFormat c memory seg shift fr to patch) (hto : to ≠ []) (f : Flash) (hf : Fresh memory fr f)
    (f' : Flash) (hatt : Attempts patch f f') (P : Power)
    (pieces : List Bytes) (hpieces : pieces.flatten = patch) (hw : WholeHeader patch pieces) :
    ∃ (k n : Nat) (res : Int) (s : InPlace) (w : MWorld Flash),
      n = movedSegments memory seg shift fr.length + toSegments seg to.length ∧ k < n ∧ f'.step = k ∧
      inPlacePieces (flashEnv P true) patch.length (powerOn f') pieces = .ok (res, s, w) ∧
      (0 ≤ res → stepsSet w.trace = (List.range' (k + 1) (n - 1 - k)).map Int.ofNat ++ [0]) ∧
      stepsSet w.trace <+: (List.range' (k + 1) (n - 1 - k)).map Int.ofNat ++ [0] := by
  obtain ⟨V, opss, _, hP, ht, hb, hn, hst, hfh⟩ := attempt_run h hf
  obtain ⟨k0, hk0, hs⟩ := (attempts_between hP ht hst hfh hb hatt).start P
  obtain ⟨e, s, w, e1, e2⟩ := run_ip hP (pieces := pieces) (by rw [hpieces, ht]; exact hst _ _ _ _ hs)
    (hfh _ _ (by rw [List.append_nil]; exact hpieces) hw)
  rw [ht] at e1
  have hpos := List.length_pos_iff.2 hto
  obtain ⟨q1, q2⟩ := hk0 hpos
  refine ⟨k0, _, e, s, w, rfl, q2, q1, e1, ?_⟩
  rcases e2 with ⟨hneg, e2⟩ | ⟨rfl, e2⟩
  · refine ⟨fun h => by omega, ?_⟩
    have := e2.sets
    rw [if_pos rfl] at this
    exact this
  · have := e2.trace.sets
    rw [if_pos ⟨rfl, hpos⟩] at this
    exact ⟨fun _ => this, by rw [this]; exact List.prefix_refl _⟩



/-- C50. Two devices with the same from-data, any history of attempts, any division of the
patch, any power and any leftovers of erasing: a completed update of either leaves the same
to-data. -/
theorem C50_same_result [Build] (h : DeviceFormat c memory seg shift fr to patch) (f g : Flash) (hf : Fresh memory fr f) (hg : Fresh memory fr g)
    (f' g' : Flash) (hattf : Attempts patch f f') (hattg : Attempts patch g g') (P Q : Power)
    (pieces pieces' : List Bytes) (hpieces : pieces.flatten = patch) (hw : WholeHeader patch pieces)
    (hpieces' : pieces'.flatten = patch) (hw' : WholeHeader patch pieces') :
    ∃ res s w res' s' w', inPlacePieces (flashEnv P true) patch.length (powerOn f') pieces = .ok (res, s, w) ∧
      inPlacePieces (flashEnv Q true) patch.length (powerOn g') pieces' = .ok (res', s', w') ∧
      (0 ≤ res → 0 ≤ res' → res = res' ∧ w.arg.mem.take to.length = w'.arg.mem.take to.length) := by
  obtain ⟨res, s, w, e1, e2, e3⟩ := C50_attempt h f hf f' hattf P pieces hpieces hw
  obtain ⟨res', s', w', d1, d2, d3⟩ := C50_attempt h g hg g' hattg Q pieces' hpieces' hw'
  refine ⟨res, s, w, res', s', w', e1, d1, fun hr hr' => ?_⟩
  have hres : res = to.length := by rcases e2 with e2 | e2 <;> omega
  have hres' : res' = to.length := by rcases d2 with d2 | d2 <;> omega
  refine ⟨by omega, ?_⟩
  rw [← List.prefix_iff_eq_take.1 (e3 (.inl hres)), ← List.prefix_iff_eq_take.1 (d3 (.inl hres'))]

/-! A patch that creation does not make: the memory and the shift are not multiples of the
segment size, and the second segment has no diff. -/

def handmadePatch : Bytes := [16, 11, 2, 3, 5, 3, 0, 2, 0, 0, 0, 66, 0, 0, 1, 9, 0]

theorem handmade_format : DeviceFormat .none 11 2 3 [1, 2, 3, 4, 5] [1, 2, 9] handmadePatch where
  format := by
    refine ⟨[0, 2, 0, 0, 0, 66, 0, 0, 1, 9, 0], [[⟨[0, 0], [], -2⟩], [⟨[], [9], 0⟩]], by decide +kernel, ?_, ?_, by decide, ?_⟩
    · rw [show encodeSegments [[⟨[0, 0], [], -2⟩], [⟨[], [9], 0⟩]] = [0, 2, 0, 0, 0, 66, 0, 0, 1, 9, 0] by decide +kernel]
      exact .none
    · exact ⟨by decide, ⟨by decide, by decide, by decide, by decide, by decide, [], by decide, rfl⟩, by decide,
        ⟨by decide, by decide, by decide, by decide, by decide, [], by decide, rfl⟩, trivial⟩
    · simp
  segPos := by decide
  segLe := by decide
  room := by decide
  fits := by decide
  small := by decide
  size := by decide

-- The same records, as a CRLE stream with a repeated segment creation would not use.
example : DeviceFormat .crle 11 2 3 [1, 2, 3, 4, 5] [1, 2, 9]
    [18, 11, 2, 3, 5, 3, 0, 2, 0, 2, 1, 3, 0, 0, 1, 66, 1, 2, 0, 0, 3, 1, 9, 0] where
  format := by
    refine ⟨[0, 2, 0, 2, 1, 3, 0, 0, 1, 66, 1, 2, 0, 0, 3, 1, 9, 0], [[⟨[0, 0], [], -2⟩], [⟨[], [9], 0⟩]], by decide +kernel, ?_, ?_, by decide, ?_⟩
    · rw [show encodeSegments [[⟨[0, 0], [], -2⟩], [⟨[], [9], 0⟩]] = [0, 2] ++ (List.replicate 3 0 ++ ([66] ++ (List.replicate 2 0 ++ [1, 9, 0]))) by decide +kernel]
      refine .crle ?_ ?_
      · refine .scattered (n := 2) rfl (by decide) (.lit (.lit ?_))
        refine .repeated (n := 3) (b := 0) rfl (by decide) ?_
        refine .scattered (n := 1) rfl (by decide) (.lit ?_)
        refine .repeated (n := 2) (b := 0) rfl (by decide) ?_
        exact .scattered (n := 3) rfl (by decide) (.lit (.lit (.lit .done)))
      · refine .scattered (n := 2) rfl (by decide) (.lit (.lit ?_))
        refine .repeated (n := 3) (b := 0) rfl (by decide) ?_
        refine .scattered (n := 1) rfl (by decide) (.lit ?_)
        refine .repeated (n := 2) (b := 0) rfl (by decide) ?_
        exact .scattered (n := 3) rfl (by decide) (.lit (.lit (.lit .done)))
    · exact ⟨by decide, ⟨by decide, by decide, by decide, by decide, by decide, [], by decide, rfl⟩, by decide,
        ⟨by decide, by decide, by decide, by decide, by decide, [], by decide, rfl⟩, trivial⟩
    · simp
  segPos := by decide
  segLe := by decide
  room := by decide
  fits := by decide
  small := by decide
  size := by decide

example : Fresh 11 [1, 2, 3, 4, 5] { mem := [1, 2, 3, 4, 5, 0, 0, 0, 0, 0, 0] } := ⟨rfl, ⟨_, rfl⟩, rfl⟩

example : (inPlacePieces (flashEnv {} false) handmadePatch.length (powerOn { mem := [1, 2, 3, 4, 5, 0, 0, 0, 0, 0, 0] }) [handmadePatch]).map
    (fun r => (r.1, r.2.2.arg.mem)) = .ok (3, [1, 2, 9, 1, 2, 3, 4, 5, 0, 0, 0]) := by decide +kernel

/-- C50. Why the records of a segment may only use what the segment does not overwrite: here
the second record of the segment reads what the segment has written so far. All ways to
apply the patch report success, and leave three different results: given to the C library
at once, given to it in single bytes after the first twelve, and applied by Python. -/
theorem C50_reads_what_it_wrote :
    ∃ (patch : Bytes) (mem : Bytes), readHeaderInPlace patch = .ok (⟨.none, 8, 4, 4, 4, 4⟩, patch.drop 6) ∧
      (∃ s w, inPlacePieces (flashEnv {} false) patch.length (powerOn { mem }) [patch] = .ok (4, s, w) ∧
        w.arg.mem = [7, 8, 0, 0, 1, 2, 3, 4]) ∧
      (∃ s w, inPlacePieces (flashEnv {} false) patch.length (powerOn { mem }) (patch.take 12 :: (patch.drop 12).map ([·])) = .ok (4, s, w) ∧
        w.arg.mem = [7, 8, 9, 10, 1, 2, 3, 4]) ∧
      applyInPlace exampleLib 40 patch mem = ([7, 8, 3, 4, 1, 2, 3, 4], .ok 4) := by
  refine ⟨[16, 8, 4, 4, 4, 4, 0, 0, 1, 7, 0x44, 3, 1, 1, 1, 0, 0], [1, 2, 3, 4, 0, 0, 0, 0], by decide +kernel, ?_, ?_, by decide +kernel⟩
  · exact ok_mem (by decide +kernel)
  · exact ok_mem (by decide +kernel)

end Detools
