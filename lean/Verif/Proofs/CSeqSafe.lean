import Verif.Proofs.CSafe
/-
One step of the sequential C API, for every patch and every behaviour of the
callbacks.
-/
namespace Detools

variable [Build]

def ApplyPatch.wk (s : ApplyPatch) : Nat :=
  2 ^ 32 * s.chunk.rest.length + (match s.reader with | none => 0 | some r => r.backlog)

def SeqPhase.weight : SeqPhase → Nat
  | .diffData => 1
  | .extraData => 1
  | _ => 0

def ApplyPatch.mu (s : ApplyPatch) : Nat := 3 * s.wk + s.state.weight

structure SInv (s : ApplyPatch) : Prop where
  size : s.size.Inv
  off : s.toOffset < 2 ^ 64
  toSz : s.toSize < 2 ^ 27
  done : s.state = .done → s.toOffset = s.toSize
  init : s.state = .init → s.toOffset = 0
  live : s.state ≠ .failed → s.chunk.Inv ∧ s.readerSize.Inv ∧
    (s.state ≠ .init → ∃ r, s.reader = some r ∧ r.Safe)

/-- The bytes passed to `to_write` in some events. -/
def evBytes (evs : List Ev) : Nat := (evs.map (·.data.length)).sum

omit [Build] in
theorem written_append (evs tr : List Ev) : (written (evs ++ tr)).length = evBytes evs + (written tr).length := by
  simp only [written, List.reverse_append, List.flatMap_append, List.length_append, List.length_flatMap, evBytes,
    List.map_reverse, List.sum_reverse]
  omega

/-- What every step guarantees, apart from its kind of result. -/
structure StepOk (s : ApplyPatch) (w : World σ) (s' : ApplyPatch) (w' : World σ) (evs : List Ev) : Prop where
  inv : SInv s'
  trace : w'.trace = evs ++ w.trace
  off : s'.toOffset = sz (s.toOffset + evBytes evs)
  small : ∀ ev ∈ evs, ev.count ≤ 128
  toSz : s.state ≠ .init → s'.toSize = s.toSize
  psize : s'.patchSize = s.patchSize
  poff : s'.patchOffset = s.patchOffset

/-- The result of a `switch`, before a failure is recorded. -/
inductive SwitchOk (s : ApplyPatch) (w : World σ) : SeqRes σ → Prop
  | ok {s' w'} (evs) : StepOk s w s' w' evs → (∀ ev ∈ evs, ev.res = 0) → s'.mu < s.mu → s'.state ≠ .failed →
      s'.state ≠ .init ∨ s.state = .init →
      SwitchOk s w (0, s', w')
  | more {s'} : StepOk s w s' w [] → s'.chunk.rest = [] → s'.state = s.state → s'.state ≠ .failed → SwitchOk s w (1, s', w)
  | fail {s' e} : StepOk s w { s' with state := .failed } w [] → e < 0 → e ≠ ALREADY_DONE → e ≠ IO_FAILED →
      SwitchOk s w (e, s', w)
  | io {s' w'} (ev evs) : StepOk s w { s' with state := .failed } w' (ev :: evs) → ev.res ≠ 0 → (∀ ev ∈ evs, ev.res = 0) →
      SwitchOk s w (IO_FAILED, s', w')

theorem SInv.toFailed {s : ApplyPatch} (h1 : s.size.Inv) (h2 : s.toOffset < 2 ^ 64) (h3 : s.toSize < 2 ^ 27) :
    SInv { s with state := .failed } :=
  ⟨h1, h2, h3, by simp, by simp, by simp⟩

omit [Build] in
theorem sz_self {n : Nat} (h : n < 2 ^ 64) : sz (n + 0) = n := Nat.mod_eq_of_lt h

theorem StepOk.quiet {s s' : ApplyPatch} {w : World σ} (h : SInv s) (hi : SInv s') (ho : s'.toOffset = s.toOffset)
    (ht : s.state ≠ .init → s'.toSize = s.toSize) (hp : s'.patchSize = s.patchSize) (hq : s'.patchOffset = s.patchOffset) :
    StepOk s w s' w [] :=
  ⟨hi, rfl, by rw [ho]; exact (sz_self h.off).symm, by simp, ht, hp, hq⟩

theorem StepOk.quietFail {s s' : ApplyPatch} {w : World σ} (h : SInv s) (h1 : s'.size.Inv) (h3 : s'.toSize < 2 ^ 27)
    (ho : s'.toOffset = s.toOffset)
    (ht : s.state ≠ .init → s'.toSize = s.toSize) (hp : s'.patchSize = s.patchSize) (hq : s'.patchOffset = s.patchOffset) :
    StepOk s w { s' with state := .failed } w [] :=
  .quiet h (SInv.toFailed h1 (by rw [ho]; exact h.off) h3) ho ht hp hq

theorem init_switch {s : ApplyPatch} (h : SInv s) (hs : s.state = .init) (w : World σ) :
    ∃ out, processInit s w = .ok out ∧ SwitchOk s w out := by
  obtain ⟨hc, hrs, -⟩ := h.live (by rw [hs]; decide)
  unfold processInit
  cases hi : s.initState with
  | fixedHeader =>
    simp only [processInitFixedHeader]
    cases hr : s.chunk.rest with
    | nil =>
      rw [s.chunk.get_nil hc hr]
      exact ⟨_, rfl, .fail (.quietFail h h.size h.toSz rfl (fun _ => rfl) rfl rfl) (by decide) (by decide) (by decide)⟩
    | cons b t =>
      obtain ⟨e1, e2, e3⟩ := s.chunk.get_cons hc hr
      rw [e1]
      simp only [Bind.bind, Except.bind]
      have hl : s.chunk.rest.length = t.length + 1 := by rw [hr]; rfl
      split
      · exact ⟨_, rfl, .fail (.quietFail h h.size h.toSz rfl (fun _ => rfl) rfl rfl) (by decide) (by decide) (by decide)⟩
      · refine ⟨_, rfl, .ok [] (.quiet h ?_ rfl (fun _ => rfl) rfl rfl) (by simp) ?_ ?_ (.inr hs)⟩
        · refine ⟨?_, h.off, h.toSz, ?_, h.init, ?_⟩
          · intro h; cases h
          · exact h.done
          · intro _
            exact ⟨e3, hrs, fun hn => absurd hs hn⟩
        · simp only [ApplyPatch.mu, ApplyPatch.wk]
          have : ({ s.chunk with offset := s.chunk.offset + 1 } : Chunk).rest.length = t.length := by rw [e2]
          rw [this]
          omega
        · rw [hs]; decide
  | toSize =>
    simp only [processInitToSize]
    obtain ⟨⟨v, c', acc'⟩, e1, e2⟩ := headerSize_safe (s.chunk.left + 1) s.chunk s.size hc h.size
      (by rw [s.chunk.left_eq hc]; omega)
    rw [e1]
    simp only [Bind.bind, Except.bind]
    match v, e2 with
    | .more, ⟨g1, g2, g3⟩ =>
      refine ⟨_, rfl, .more (.quiet h ?_ rfl (fun _ => rfl) rfl rfl) g3 rfl (by simp [hs])⟩
      exact ⟨g2, h.off, h.toSz, h.done, h.init, fun _ => ⟨g1, hrs, fun hn => absurd hs hn⟩⟩
    | .fail e, ⟨g1, g2, g3⟩ =>
      subst g1
      exact ⟨_, rfl, .fail (.quietFail h g3 h.toSz rfl (fun _ => rfl) rfl rfl) (by decide) (by decide) (by decide)⟩
    | .value v, ⟨g1, g2, g3, g4, g5⟩ =>
      simp only
      cases hin : CReader.init (szOfInt ((s.patchSize : Int) - c'.offset)) s.compression with
      | none => exact ⟨_, rfl, .fail (.quietFail h g2 h.toSz rfl (fun _ => rfl) rfl rfl) (by decide) (by decide) (by decide)⟩
      | some r =>
        have hr := init_reader_safe hin
        have hv : szOfInt v = v.toNat := by unfold szOfInt; omega
        simp only [hv]
        rw [if_neg (by omega)]
        have hmu : ∀ st : SeqPhase, st.weight = 0 → ApplyPatch.mu { s with chunk := c', size := acc', readerSize := { s.readerSize with state := .first }, reader := some r, toSize := v.toNat, state := st } < s.mu := by
          intro st hst
          simp only [ApplyPatch.mu, ApplyPatch.wk, hr.2, hst]
          omega
        split
        · refine ⟨_, rfl, .ok [] (.quiet h ?_ rfl (fun hn => absurd hs hn) rfl rfl) (by simp) (hmu _ rfl) (by simp) (.inr hs)⟩
          refine ⟨g2, h.off, by show v.toNat < _; omega, by simp, by simp, fun _ => ⟨g1, ?_, fun _ => ⟨r, rfl, hr.1⟩⟩⟩
          intro h; cases h
        · refine ⟨_, rfl, .ok [] (.quiet h ?_ rfl (fun hn => absurd hs hn) rfl rfl) (by simp) (hmu _ rfl) (by simp) (.inr hs)⟩
          refine ⟨g2, h.off, by show v.toNat < _; omega, fun _ => ?_, by simp, fun _ => ⟨g1, ?_, fun _ => ⟨r, rfl, hr.1⟩⟩⟩
          · show s.toOffset = v.toNat
            rw [h.init hs]; omega
          · intro h; cases h

/-- Reading a size: failure, no input, or a value. -/
inductive UnpackOut (s : ApplyPatch) : SizeRes × ApplyPatch → Prop
  | value {v r c a} : -2 ^ 27 < v → v < 2 ^ 27 → r.Safe → c.Inv → a.Inv →
      ({ s with reader := some r, chunk := c, readerSize := a } : ApplyPatch).wk < s.wk →
      UnpackOut s (.value v, { s with reader := some r, chunk := c, readerSize := a })
  | more {r c a} : r.Safe → c.Inv → a.Inv → c.rest = [] →
      UnpackOut s (.more, { s with reader := some r, chunk := c, readerSize := a })
  | fail {e r c a} : ReadErr e → UnpackOut s (.fail e, { s with reader := some r, chunk := c, readerSize := a })

theorem unpackSize_safe {s : ApplyPatch} (h : SInv s) (h1 : s.state ≠ .failed) (h2 : s.state ≠ .init) :
    s.unpackSize = .error .uninit ∨ ∃ out, s.unpackSize = .ok out ∧ UnpackOut s out := by
  obtain ⟨hc, hrs, hr⟩ := h.live h1
  obtain ⟨r, e1, e2⟩ := hr h2
  simp only [ApplyPatch.unpackSize, e1]
  rcases patchReaderUnpackSize_safe e2 hc hrs with h | ⟨⟨v, r', c', a'⟩, q1, q2⟩
  · left
    rw [h]; rfl
  · right
    rw [q1]
    refine ⟨_, rfl, ?_⟩
    match v, q2 with
    | .value v, ⟨g1, g2, g3, g4, g5, g6⟩ =>
      refine .value g4 g5 g1 g2 g3 ?_
      simp only [ApplyPatch.wk, e1]
      simpa only [work] using g6
    | .more, ⟨g1, g2, g3, g4, g5⟩ => exact .more g1 g2 g3 g4
    | .fail e, ⟨g1, g2⟩ => exact .fail g1

/-- A new state inside the body of a patch. -/
theorem SInv.body {s : ApplyPatch} (h : SInv s) {st : SeqPhase} {r : CReader} {c : Chunk} {a : SizeAcc} {cs : Nat} {fo : Int}
    (h1 : r.Safe) (h2 : c.Inv) (h3 : a.Inv) (h4 : st = .done → s.toOffset = s.toSize) (h5 : st ≠ .init) :
    SInv { s with state := st, reader := some r, chunk := c, readerSize := a, chunkSize := cs, fromOffset := fo } :=
  ⟨h.size, h.off, h.toSz, h4, fun h => absurd h h5, fun _ => ⟨h2, h3, fun _ => ⟨r, rfl, h1⟩⟩⟩

theorem SInv.body' {s : ApplyPatch} (h : SInv s) (hn : s.state ≠ .init) {r : CReader} {c : Chunk} {a : SizeAcc}
    (h1 : r.Safe) (h2 : c.Inv) (h3 : a.Inv) :
    SInv { s with reader := some r, chunk := c, readerSize := a } :=
  ⟨h.size, h.off, h.toSz, h.done, h.init, fun _ => ⟨h2, h3, fun _ => ⟨r, rfl, h1⟩⟩⟩

theorem dfpatch_switch {s : ApplyPatch} (h : SInv s) (hs : s.state = .dfpatchSize) (w : World σ) :
    processDfpatchSize s w = .error .uninit ∨ ∃ out, processDfpatchSize s w = .ok out ∧ SwitchOk s w out := by
  have h1 : s.state ≠ .failed := by rw [hs]; decide
  have h2 : s.state ≠ .init := by rw [hs]; decide
  unfold processDfpatchSize
  rcases unpackSize_safe h h1 h2 with e | ⟨out, e, ho⟩
  · left; rw [e]; rfl
  · right
    rw [e]
    simp only [Bind.bind, Except.bind]
    cases ho with
    | fail he =>
      exact ⟨_, rfl, .fail (.quietFail h h.size h.toSz rfl (fun _ => rfl) rfl rfl) he.neg.1 he.neg.2.1 he.neg.2.2⟩
    | more g1 g2 g3 g4 =>
      exact ⟨_, rfl, .more (.quiet h (h.body' h2 g1 g2 g3) rfl (fun _ => rfl) rfl rfl) g4 rfl h1⟩
    | value g1 g2 g3 g4 g5 g6 =>
      simp only
      split
      · exact ⟨_, rfl, .fail (.quietFail h h.size h.toSz rfl (fun _ => rfl) rfl rfl) (by decide) (by decide) (by decide)⟩
      · refine ⟨_, rfl, .ok [] (.quiet h (h.body g3 g4 g5 (by simp) (by simp)) rfl (fun _ => rfl) rfl rfl) (by simp) ?_ (by simp) (.inl (by simp))⟩
        simp only [ApplyPatch.mu, SeqPhase.weight]
        simp only [ApplyPatch.wk] at g6 ⊢
        omega

theorem size_switch {s : ApplyPatch} (h : SInv s) (h1 : s.state ≠ .failed) (h2 : s.state ≠ .init) {next : SeqPhase}
    (hw : next.weight = 1) (hn1 : next ≠ .failed) (hn2 : next ≠ .init) (hn3 : next ≠ .done) (w : World σ) :
    processSize s w next = .error .uninit ∨ ∃ out, processSize s w next = .ok out ∧ SwitchOk s w out := by
  unfold processSize
  rcases unpackSize_safe h h1 h2 with e | ⟨out, e, ho⟩
  · left; rw [e]; rfl
  · right
    rw [e]
    simp only [Bind.bind, Except.bind]
    cases ho with
    | fail he =>
      exact ⟨_, rfl, .fail (.quietFail h h.size h.toSz rfl (fun _ => rfl) rfl rfl) he.neg.1 he.neg.2.1 he.neg.2.2⟩
    | more g1 g2 g3 g4 =>
      exact ⟨_, rfl, .more (.quiet h (h.body' h2 g1 g2 g3) rfl (fun _ => rfl) rfl rfl) g4 rfl h1⟩
    | value g1 g2 g3 g4 g5 g6 =>
      simp only
      split
      · exact ⟨_, rfl, .fail (.quietFail h h.size h.toSz rfl (fun _ => rfl) rfl rfl) (by decide) (by decide) (by decide)⟩
      · refine ⟨_, rfl, .ok [] (.quiet h (h.body g3 g4 g5 (fun h => absurd h hn3) hn2) rfl (fun _ => rfl) rfl rfl) (by simp) ?_ hn1 (.inl hn2)⟩
        simp only [ApplyPatch.mu, hw]
        simp only [ApplyPatch.wk] at g6 ⊢
        omega

theorem adjustment_switch (E : SeqEnv σ) {s : ApplyPatch} (h : SInv s) (hs : s.state = .adjustment) (w : World σ) :
    (processAdjustment E s w = .error .uninit ∨ processAdjustment E s w = .error .overflow) ∨
      ∃ out, processAdjustment E s w = .ok out ∧ SwitchOk s w out := by
  have h1 : s.state ≠ .failed := by rw [hs]; decide
  have h2 : s.state ≠ .init := by rw [hs]; decide
  unfold processAdjustment
  rcases unpackSize_safe h h1 h2 with e | ⟨out, e, ho⟩
  · left; left; rw [e]; rfl
  · rw [e]
    simp only [Bind.bind, Except.bind]
    cases ho with
    | fail he =>
      exact .inr ⟨_, rfl, .fail (.quietFail h h.size h.toSz rfl (fun _ => rfl) rfl rfl) he.neg.1 he.neg.2.1 he.neg.2.2⟩
    | more g1 g2 g3 g4 =>
      exact .inr ⟨_, rfl, .more (.quiet h (h.body' h2 g1 g2 g3) rfl (fun _ => rfl) rfl rfl) g4 rfl h1⟩
    | @value v r c a g1 g2 g3 g4 g5 g6 =>
      simp only
      by_cases hres : (E.fromSeek w.arg v).1 = 0
      · simp only [hres, ne_eq, not_true, if_false]
        split
        · exact .inl (.inr rfl)
        · right
          split
          · rename_i hto
            refine ⟨_, rfl, .ok [.seek v 0] ⟨h.body g3 g4 g5 (fun _ => hto) (by simp), rfl, (sz_self h.off).symm, ?_, fun _ => rfl, rfl, rfl⟩ ?_ ?_ (by simp) (.inl (by simp))⟩
            · simp [Ev.count]
            · simp [Ev.res]
            · simp only [ApplyPatch.mu, SeqPhase.weight]
              simp only [ApplyPatch.wk] at g6 ⊢
              omega
          · refine ⟨_, rfl, .ok [.seek v 0] ⟨h.body g3 g4 g5 (by simp) (by simp), rfl, (sz_self h.off).symm, ?_, fun _ => rfl, rfl, rfl⟩ ?_ ?_ (by simp) (.inl (by simp))⟩
            · simp [Ev.count]
            · simp [Ev.res]
            · simp only [ApplyPatch.mu, SeqPhase.weight]
              simp only [ApplyPatch.wk] at g6 ⊢
              omega
      · simp only [hres, ne_eq, not_false_iff, if_true]
        right
        refine ⟨_, rfl, .io (.seek v (E.fromSeek w.arg v).1) [] ⟨SInv.toFailed h.size h.off h.toSz, rfl, (sz_self h.off).symm, ?_, fun _ => rfl, rfl, rfl⟩ hres (by simp)⟩
        simp [Ev.count]

omit [Build] in
theorem evBytes_cons (ev : Ev) (evs) : evBytes (ev :: evs) = ev.data.length + evBytes evs := by
  simp [evBytes]

theorem write_switch (E : SeqEnv σ) {s s1 : ApplyPatch} (h : SInv s) (h2 : s.state ≠ .init) (h3 : s.state ≠ .done)
    (hf : s.state ≠ .failed)
    {r : CReader} {c : Chunk} {fo : Int}
    (hs1 : s1 = { s with reader := some r, chunk := c, fromOffset := fo }) (hr : r.Safe) (hc : c.Inv)
    (hwk : s1.wk < s.wk) {w w1 : World σ}
    {evs : List Ev} (htr : w1.trace = evs ++ w.trace) (hev0 : evBytes evs = 0) (hevr : ∀ ev ∈ evs, ev.res = 0)
    (hevc : ∀ ev ∈ evs, ev.count ≤ 128) {to : Bytes} (hto : to.length ≤ 128) :
    ∃ out, processWrite E s1 w1 to = .ok out ∧ SwitchOk s w out := by
  subst hs1
  obtain ⟨-, hrs, -⟩ := h.live hf
  simp only [processWrite]
  have hlt : sz (s.toOffset + to.length) < 2 ^ 64 := Nat.mod_lt _ (by omega)
  have htrace : ∀ res, Ev.write to res :: w1.trace = (Ev.write to res :: evs) ++ w.trace := by
    intro res; rw [htr]; rfl
  have hoff : ∀ res, sz (s.toOffset + to.length) = sz (s.toOffset + evBytes (Ev.write to res :: evs)) := by
    intro res; rw [evBytes_cons, hev0]; rfl
  have hcnt : ∀ res, ∀ ev ∈ (Ev.write to res :: evs), ev.count ≤ 128 := by
    intro res ev hm
    cases hm with
    | head => exact hto
    | tail _ hm => exact hevc ev hm
  by_cases hres : (E.toWrite w1.arg to).1 = 0
  · simp only [hres, ne_eq, not_true, if_false]
    refine ⟨_, rfl, .ok (Ev.write to 0 :: evs) ⟨?_, htrace 0, hoff 0, hcnt 0, fun _ => rfl, rfl, rfl⟩ ?_ ?_ hf (.inl h2)⟩
    · exact ⟨h.size, hlt, h.toSz, fun hd => absurd hd h3, fun hi => absurd hi h2, fun _ => ⟨hc, hrs, fun _ => ⟨r, rfl, hr⟩⟩⟩
    · intro ev hm
      cases hm with
      | head => rfl
      | tail _ hm => exact hevr ev hm
    · simp only [ApplyPatch.mu]
      simp only [ApplyPatch.wk] at hwk ⊢
      omega
  · simp only [hres, ne_eq, not_false_iff, if_true]
    refine ⟨_, rfl, .io (Ev.write to (E.toWrite w1.arg to).1) evs ⟨?_, htrace _, hoff _, hcnt _, fun _ => rfl, rfl, rfl⟩ hres hevr⟩
    exact SInv.toFailed h.size hlt h.toSz

theorem data_switch (E : SeqEnv σ) {s : ApplyPatch} (h : SInv s) (hw : s.state.weight = 1) {next : SeqPhase}
    (hn0 : next.weight = 0) (hn1 : next ≠ .failed) (hn2 : next ≠ .init) (hn3 : next ≠ .done) (diff : Bool) (w : World σ) :
    processData E s w next diff = .error .uninit ∨
      ∃ out, processData E s w next diff = .ok out ∧ SwitchOk s w out := by
  have h1 : s.state ≠ .failed := by intro h; rw [h] at hw; cases hw
  have h2 : s.state ≠ .init := by intro h; rw [h] at hw; cases hw
  have h3 : s.state ≠ .done := by intro h; rw [h] at hw; cases hw
  obtain ⟨hc, hrs, hr⟩ := h.live h1
  obtain ⟨r, hr1, hr2⟩ := hr h2
  unfold processData
  by_cases hz : min dataCap s.chunkSize = 0
  · right
    simp only [hz, if_true]
    refine ⟨_, rfl, .ok [] (.quiet h ?_ rfl (fun _ => rfl) rfl rfl) (by simp) ?_ hn1 (.inl hn2)⟩
    · exact ⟨h.size, h.off, h.toSz, fun hd => absurd hd hn3, fun hi => absurd hi hn2, fun _ => ⟨hc, hrs, fun _ => ⟨r, hr1, hr2⟩⟩⟩
    · simp only [ApplyPatch.mu, hn0, hw, ApplyPatch.wk]
      omega
  · simp only [hz, if_false, hr1]
    obtain ⟨⟨d, r', c'⟩, e1, e2⟩ := dec_safe hr2 hc (cap := dataCap) (size := min dataCap s.chunkSize) (by omega)
      (Nat.min_le_left ..) (by decide)
    rw [e1]
    simp only [Bind.bind, Except.bind]
    match d, e2 with
    | .fail e, ⟨g1, g2⟩ =>
      exact .inr ⟨_, rfl, .fail (.quietFail h h.size h.toSz rfl (fun _ => rfl) rfl rfl) g1.neg.1 g1.neg.2.1 g1.neg.2.2⟩
    | .more, ⟨g1, g2, g3, g4⟩ =>
      exact .inr ⟨_, rfl, .more (.quiet h (h.body' h2 g1 g2 hrs) rfl (fun _ => rfl) rfl rfl) g3 rfl h1⟩
    | .ok to, ⟨g1, g2, g3, g4⟩ =>
      have hto : to.length ≤ 128 := Nat.le_trans g3 (Nat.min_le_left ..)
      have hwk : ∀ fo, ({ s with reader := some r', chunk := c', fromOffset := fo } : ApplyPatch).wk < s.wk := by
        intro fo
        simp only [ApplyPatch.wk, hr1]
        simpa only [work] using g4
      simp only
      cases diff with
      | false =>
        right
        simp only [Bool.false_eq_true, if_false]
        exact write_switch E h h2 h3 h1 rfl g1 g2 (hwk s.fromOffset) (evs := []) rfl rfl (by simp) (by simp) hto
      | true =>
        simp only [if_true]
        by_cases hres : (E.fromRead w.arg to.length).1 = 0
        · simp only [hres, ne_eq, not_true, if_false]
          by_cases hlen : (E.fromRead w.arg to.length).2.1.length = to.length
          · simp only [hlen, not_true, if_false]
            right
            refine write_switch E h h2 h3 h1 rfl g1 g2 (hwk _) (evs := [.read to.length 0]) rfl rfl ?_ ?_ ?_
            · simp [Ev.res]
            · simpa [Ev.count] using hto
            · simp only [sumBytes, List.length_zipWith]
              omega
          · left
            simp only [hlen, not_false_iff, if_true]
        · simp only [hres, ne_eq, not_false_iff, if_true]
          right
          refine ⟨_, rfl, .io (.read to.length (E.fromRead w.arg to.length).1) [] ⟨SInv.toFailed h.size h.off h.toSz, rfl, (sz_self h.off).symm, ?_, fun _ => rfl, rfl, rfl⟩ hres (by simp)⟩
          simpa [Ev.count] using hto

/-- The result of a step. -/
inductive OnceOk (s : ApplyPatch) (w : World σ) : SeqRes σ → Prop
  | ok {s' w'} (evs) : s.state ≠ .done → s.state ≠ .failed → StepOk s w s' w' evs → (∀ ev ∈ evs, ev.res = 0) → s'.mu < s.mu →
      s'.state ≠ .failed → OnceOk s w (0, s', w')
  | more {s'} : s.state ≠ .done → s.state ≠ .failed → StepOk s w s' w [] → s'.chunk.rest = [] → s'.state = s.state →
      OnceOk s w (1, s', w)
  | done : s.state = .done → OnceOk s w (ALREADY_DONE, s, w)
  | already : s.state = .failed → OnceOk s w (ALREADY_FAILED, s, w)
  | fail {s' e} : s.state ≠ .done → s.state ≠ .failed → StepOk s w s' w [] → e < 0 → e ≠ ALREADY_DONE → e ≠ IO_FAILED →
      s'.state = .failed → OnceOk s w (e, s', w)
  | io {s' w'} (ev evs) : s.state ≠ .done → s.state ≠ .failed → StepOk s w s' w' (ev :: evs) → ev.res ≠ 0 → (∀ ev ∈ evs, ev.res = 0) →
      s'.state = .failed → OnceOk s w (IO_FAILED, s', w')

theorem switch_ok (E : SeqEnv σ) {s : ApplyPatch} (h : SInv s) (w : World σ) (h1 : s.state ≠ .done) (h2 : s.state ≠ .failed) :
    (processSwitch E s w = .error .uninit ∨ processSwitch E s w = .error .overflow) ∨
      ∃ out, processSwitch E s w = .ok out ∧ SwitchOk s w out := by
  unfold processSwitch
  cases hs : s.state with
  | init => exact .inr (init_switch h hs w)
  | dfpatchSize => exact (dfpatch_switch h hs w).imp .inl id
  | diffSize =>
    exact (size_switch h h2 (by rw [hs]; decide) rfl (by decide) (by decide) (by decide) w).imp .inl id
  | extraSize =>
    exact (size_switch h h2 (by rw [hs]; decide) rfl (by decide) (by decide) (by decide) w).imp .inl id
  | diffData =>
    exact (data_switch E h (by rw [hs]; rfl) rfl (by decide) (by decide) (by decide) true w).imp .inl id
  | extraData =>
    exact (data_switch E h (by rw [hs]; rfl) rfl (by decide) (by decide) (by decide) false w).imp .inl id
  | adjustment => exact adjustment_switch E h hs w
  | done => exact absurd hs h1
  | failed => exact absurd hs h2

theorem once_ok (E : SeqEnv σ) {s : ApplyPatch} (h : SInv s) (w : World σ) :
    (processOnce E s w = .error .uninit ∨ processOnce E s w = .error .overflow) ∨
      ∃ out, processOnce E s w = .ok out ∧ OnceOk s w out := by
  unfold processOnce
  by_cases h1 : s.state = .done
  · simp only [h1, if_true]
    exact .inr ⟨_, rfl, .done h1⟩
  · simp only [h1, if_false]
    by_cases h2 : s.state = .failed
    · right
      refine ⟨(ALREADY_FAILED, s, w), ?_, .already h2⟩
      simp only [processSwitch, h2, Bind.bind, Except.bind]
      rw [if_pos (by decide)]
      have : ({ s with state := .failed } : ApplyPatch) = s := by rw [← h2]
      rw [this]
    · rcases switch_ok E h w h1 h2 with (e | e) | ⟨out, e, ho⟩
      · left; left; rw [e]; rfl
      · left; right; rw [e]; rfl
      · right
        rw [e]
        simp only [Bind.bind, Except.bind]
        cases ho with
        | ok evs g1 g2 g3 g4 g5 =>
          exact ⟨_, if_neg (show ¬ (0 : Int) < 0 by decide), .ok evs h1 h2 g1 g2 g3 g4⟩
        | more g1 g2 g3 g4 =>
          exact ⟨_, if_neg (show ¬ (1 : Int) < 0 by decide), .more h1 h2 g1 g2 g3⟩
        | fail g1 g2 g3 g4 =>
          exact ⟨_, if_pos g2, .fail h1 h2 g1 g2 g3 g4 rfl⟩
        | io ev evs g1 g2 g3 =>
          exact ⟨_, if_pos (show IO_FAILED < 0 by decide), .io ev evs h1 h2 g1 g2 g3 rfl⟩

end Detools
