import Verif.Proofs.CSeqHist
/-
How much is written, for any callbacks: never more than the to size, unless a negative
size is in progress.
-/
namespace Detools

variable [Build]

/-- Either the bytes still to come fit, or the size read last was negative (and its
`size_t` conversion is being counted down). -/
structure BInv (s : ApplyPatch) (w : World σ) : Prop where
  start : s.state = .init → s.chunkSize = 0 ∧ s.toSize = 0
  lt : s.chunkSize < 2 ^ 64
  bound : (written w.trace).length < 2 ^ 62 →
    s.toOffset + s.chunkSize ≤ s.toSize ∨ 2 ^ 64 ≤ s.chunkSize + 2 ^ 31 + (written w.trace).length

omit [Build] in
theorem BInv.quiet {s s' : ApplyPatch} {w w' : World σ} (h : BInv s w) (hw : written w'.trace = written w.trace)
    (h0 : s'.state = .init → s.state = .init) (h1 : s'.chunkSize = s.chunkSize)
    (h2 : s'.toOffset = s.toOffset) (h3 : s'.toSize = s.toSize) : BInv s' w' := by
  refine ⟨fun hi => ?_, by rw [h1]; exact h.lt, ?_⟩
  · rw [h1, h3]; exact h.start (h0 hi)
  · rw [h1, h2, h3, hw]; exact h.bound

omit [Build] in
theorem written_seek (off res : Int) (tr : List Ev) : written (.seek off res :: tr) = written tr := by
  simp [written, Ev.data]

omit [Build] in
theorem written_read (n : Nat) (res : Int) (tr : List Ev) : written (.read n res :: tr) = written tr := by
  simp [written, Ev.data]

omit [Build] in
theorem written_write_length (d : Bytes) (res : Int) (tr : List Ev) : (written (.write d res :: tr)).length = (written tr).length + d.length := by
  simp [written, Ev.data]

omit [Build] in
theorem BInv.fail {s : ApplyPatch} {w : World σ} (h : BInv s w) : BInv { s with state := .failed } w :=
  ⟨(fun h => by cases h), h.lt, h.bound⟩

theorem init_bound {s : ApplyPatch} {w : World σ} (h : SInv s) (hb : BInv s w) (hs : s.state = .init) {res s' w'}
    (he : processInit s w = .ok (res, s', w')) : BInv s' w' := by
  obtain ⟨b1, b2⟩ := hb.start hs
  have ho := h.init hs
  unfold processInit at he
  cases hi : s.initState with
  | fixedHeader =>
    simp only [hi, processInitFixedHeader, Bind.bind, Except.bind] at he
    split at he
    · cases he
    · split at he
      · cases he; exact hb
      · split at he
        · cases he; exact hb.quiet rfl (fun _ => hs) rfl rfl rfl
        · cases he; exact hb.quiet rfl (fun _ => hs) rfl rfl rfl
  | toSize =>
    simp only [hi, processInitToSize, Bind.bind, Except.bind] at he
    split at he
    · cases he
    · split at he
      · cases he; exact hb.quiet rfl (fun _ => hs) rfl rfl rfl
      · cases he; exact hb.quiet rfl (fun _ => hs) rfl rfl rfl
      · split at he
        · cases he; exact hb.quiet rfl (fun _ => hs) rfl rfl rfl
        · split at he
          · cases he; exact hb.quiet rfl (fun _ => hs) rfl rfl rfl
          · split at he
            · cases he
              exact ⟨(fun h => by cases h), hb.lt, fun _ => .inl (by simp only [ho, b1]; omega)⟩
            · cases he
              exact ⟨(fun h => by cases h), hb.lt, fun _ => .inl (by simp only [ho, b1]; omega)⟩

theorem unpack_frame {s : ApplyPatch} {v : SizeRes} {s' : ApplyPatch} (h : s.unpackSize = .ok (v, s')) :
    s'.chunkSize = s.chunkSize ∧ s'.toOffset = s.toOffset ∧ s'.toSize = s.toSize ∧ s'.state = s.state := by
  unfold ApplyPatch.unpackSize at h
  split at h
  · cases h
  · simp only [Bind.bind, Except.bind] at h
    split at h
    · cases h
    · cases h; exact ⟨rfl, rfl, rfl, rfl⟩

theorem size_bound {s : ApplyPatch} {w : World σ} (h : SInv s) (hoff : s.toOffset = sz (written w.trace).length) (hb : BInv s w) (hs1 : s.state ≠ .init)
    (hs2 : s.state ≠ .failed) {next : SeqPhase} (hn : next ≠ .init) {res s' w'}
    (he : processSize s w next = .ok (res, s', w')) : BInv s' w' := by
  unfold processSize at he
  rcases unpackSize_safe h hs2 hs1 with e | ⟨⟨v, s1⟩, e, ho⟩
  · rw [e] at he; cases he
  · obtain ⟨f1, f2, f3, f4⟩ := unpack_frame e
    rw [e] at he
    simp only [Bind.bind, Except.bind] at he
    cases ho with
    | fail _ => cases he; exact hb.quiet rfl (fun h => h) rfl rfl rfl
    | more => cases he; exact hb.quiet rfl (fun h => h) rfl rfl rfl
    | @value v r c a g1 g2 =>
      simp only at he
      split at he
      · cases he; exact hb.quiet rfl (fun h => h) rfl rfl rfl
      · rename_i hbig
        cases he
        refine ⟨fun h => absurd h hn, by simp only [szOfInt]; omega, fun hlt => ?_⟩
        simp only [sizeTooBig, decide_eq_true_eq] at hbig
        have h1 : s.toOffset = (written w.trace).length := by rw [hoff]; unfold sz; exact Nat.mod_eq_of_lt (by omega)
        have h3 := h.toSz
        simp only
        unfold szOfInt sz at *
        by_cases hv : 0 ≤ v
        · left; omega
        · right; omega

theorem adjustment_bound (E : SeqEnv σ) {s : ApplyPatch} {w : World σ} (hb : BInv s w) (hs : s.state = .adjustment) {res s' w'}
    (he : processAdjustment E s w = .ok (res, s', w')) : BInv s' w' := by
  unfold processAdjustment at he
  simp only [Bind.bind, Except.bind] at he
  split at he
  · cases he
  · rename_i o e
    have hb1 : ∀ {w1 : World σ} {s1 : ApplyPatch}, written w1.trace = written w.trace → s1.state ≠ .init → s1.chunkSize = s.chunkSize →
        s1.toOffset = s.toOffset → s1.toSize = s.toSize → BInv s1 w1 := by
      intro w1 s1 k0 k1 k2 k3 k4
      exact hb.quiet k0 (fun h => absurd h k1) k2 k3 k4
    split at he
    · obtain ⟨f1, f2, f3, f4⟩ := unpack_frame e
      cases he; exact hb1 rfl (by rw [f4, hs]; decide) f1 f2 f3
    · obtain ⟨f1, f2, f3, f4⟩ := unpack_frame e
      cases he; exact hb1 rfl (by rw [f4, hs]; decide) f1 f2 f3
    · obtain ⟨f1, f2, f3, f4⟩ := unpack_frame e
      split at he
      · cases he; exact hb1 (written_seek ..) (by rw [f4, hs]; decide) f1 f2 f3
      · split at he
        · cases he
        · split at he
          · cases he; exact hb1 (written_seek ..) (by simp) f1 f2 f3
          · cases he; exact hb1 (written_seek ..) (by simp) f1 f2 f3

omit [Build] in
theorem write_bound (E : SeqEnv σ) {s : ApplyPatch} {w : World σ} (hoff : s.toOffset = sz (written w.trace).length)
    (hb : BInv s w) (hs : s.state ≠ .init) {to : Bytes} (hto : to.length ≤ s.chunkSize) (hcap : to.length ≤ 128) {res s' w'}
    (he : processWrite E s w to = .ok (res, s', w')) : BInv s' w' := by
  have key : ∀ r a, BInv { s with toOffset := sz (s.toOffset + to.length), chunkSize := szOfInt ((s.chunkSize : Int) - to.length) }
      ({ arg := a, trace := .write to r :: w.trace } : World σ) := by
    intro r a
    refine ⟨fun h => absurd h hs, by simp only [szOfInt]; omega, ?_⟩
    have hclt := hb.lt
    simp only [written_write_length]
    intro hlt
    have h1 : s.toOffset = (written w.trace).length := by rw [hoff]; unfold sz; exact Nat.mod_eq_of_lt (by omega)
    have := hb.bound (by omega)
    unfold sz szOfInt
    rcases this with h | h
    · left; omega
    · right; omega
  unfold processWrite at he
  simp only at he
  split at he
  · cases he; exact key _ _
  · cases he; exact key _ _

theorem data_bound (E : SeqEnv σ) {s : ApplyPatch} {w : World σ} (h : SInv s) (hoff : s.toOffset = sz (written w.trace).length)
    (hb : BInv s w) (hs1 : s.state ≠ .init) (hs2 : s.state ≠ .failed) {next : SeqPhase} (hn : next ≠ .init) {diff res s' w'}
    (he : processData E s w next diff = .ok (res, s', w')) : BInv s' w' := by
  obtain ⟨hc, hrs, hr⟩ := h.live hs2
  obtain ⟨r, hr1, hr2⟩ := hr hs1
  unfold processData at he
  by_cases hz : min dataCap s.chunkSize = 0
  · simp only [hz, if_true] at he
    cases he
    exact hb.quiet rfl (fun h => absurd h hn) rfl rfl rfl
  · simp only [hz, if_false, hr1] at he
    obtain ⟨⟨d, r', c'⟩, e1, e2⟩ := dec_safe hr2 hc (cap := dataCap) (size := min dataCap s.chunkSize) (by omega)
      (Nat.min_le_left ..) (by decide)
    rw [e1] at he
    simp only [Bind.bind, Except.bind] at he
    match d, e2, he with
    | .fail e, _, he => cases he; exact hb.quiet rfl (fun h => absurd h hs1) rfl rfl rfl
    | .more, _, he => cases he; exact hb.quiet rfl (fun h => absurd h hs1) rfl rfl rfl
    | .ok to, ⟨_, _, g3, _⟩, he =>
      have h1 : to.length ≤ s.chunkSize := Nat.le_trans g3 (Nat.min_le_right ..)
      have h2 : to.length ≤ 128 := Nat.le_trans g3 (Nat.min_le_left ..)
      cases diff with
      | false =>
        simp only [Bool.false_eq_true, if_false] at he
        exact write_bound E (s := { s with reader := some r', chunk := c' }) hoff (hb.quiet rfl (fun h => absurd h hs1) rfl rfl rfl) hs1 h1 h2 he
      | true =>
        simp only [if_true] at he
        split at he
        · cases he; exact hb.quiet (written_read ..) (fun h => absurd h hs1) rfl rfl rfl
        · split at he
          · cases he
          · have hl : (sumBytes to (E.fromRead w.arg to.length).2.1).length ≤ to.length := by
              simp only [sumBytes, List.length_zipWith]; omega
            refine write_bound E (s := { s with reader := some r', chunk := c', fromOffset := _ })
              (w := { arg := _, trace := .read to.length _ :: w.trace }) ?_ (hb.quiet (written_read ..) (fun h => absurd h hs1) rfl rfl rfl) hs1 ?_ ?_ he
            · rw [written_read]; exact hoff
            · exact Nat.le_trans hl h1
            · exact Nat.le_trans hl h2

theorem once_bound (E : SeqEnv σ) {s : ApplyPatch} {w : World σ} (h : SInv s) (hoff : s.toOffset = sz (written w.trace).length)
    (hb : BInv s w) {res s' w'} (he : processOnce E s w = .ok (res, s', w')) : BInv s' w' := by
  unfold processOnce at he
  split at he
  · cases he; exact hb
  · cases hsw : processSwitch E s w with
    | error u => rw [hsw] at he; cases he
    | ok v =>
      obtain ⟨r1, s1, w1⟩ := v
      have hb1 : BInv s1 w1 := by
        unfold processSwitch at hsw
        cases hs : s.state with
        | init => rw [hs] at hsw; exact init_bound h hb hs hsw
        | dfpatchSize =>
          rw [hs] at hsw
          simp only [processDfpatchSize, Bind.bind, Except.bind] at hsw
          split at hsw
          · cases hsw
          · rename_i e
            split at hsw
            · obtain ⟨f1, f2, f3, f4⟩ := unpack_frame e
              cases hsw; exact hb.quiet rfl (fun h => by rw [f4, hs] at h; cases h) f1 f2 f3
            · obtain ⟨f1, f2, f3, f4⟩ := unpack_frame e
              cases hsw; exact hb.quiet rfl (fun h => by rw [f4, hs] at h; cases h) f1 f2 f3
            · obtain ⟨f1, f2, f3, f4⟩ := unpack_frame e
              split at hsw
              · cases hsw; exact hb.quiet rfl (fun h => by rw [f4, hs] at h; cases h) f1 f2 f3
              · cases hsw; exact hb.quiet rfl (fun h => by cases h) f1 f2 f3
        | diffSize => rw [hs] at hsw; exact size_bound h hoff hb (by rw [hs]; decide) (by rw [hs]; decide) (by decide) hsw
        | extraSize => rw [hs] at hsw; exact size_bound h hoff hb (by rw [hs]; decide) (by rw [hs]; decide) (by decide) hsw
        | diffData => rw [hs] at hsw; exact data_bound E h hoff hb (by rw [hs]; decide) (by rw [hs]; decide) (by decide) hsw
        | extraData => rw [hs] at hsw; exact data_bound E h hoff hb (by rw [hs]; decide) (by rw [hs]; decide) (by decide) hsw
        | adjustment => rw [hs] at hsw; exact adjustment_bound E hb hs hsw
        | done => rw [hs] at hsw; cases hsw; exact hb
        | failed => rw [hs] at hsw; cases hsw; exact hb
      rw [hsw] at he
      simp only [Bind.bind, Except.bind] at he
      split at he
      · cases he; exact hb1.fail
      · cases he; exact hb1

/-- An invariant of steps and of handing over data is one of histories of calls. -/
theorem runCalls_inductF (E : SeqEnv σ) (P : Bytes → ApplyPatch → World σ → Prop)
    (hstep : ∀ {f s w res s' w'}, P f s w → processOnce E s w = .ok (res, s', w') → P f s' w')
    (hproc : ∀ {f s w} (p : Bytes), P f s w → P (f ++ p) { s with patchOffset := sz (s.patchOffset + p.length), chunk := { buf := p, offset := 0 } } w)
    (hfinz : ∀ {f s w}, P f s w → P f { s with chunk := { buf := [], offset := 0 } } w) :
    ∀ (calls : List Call) {f s w rs s' w'}, P f s w → runCalls E s w calls = .ok (rs, s', w') → P (f ++ fedBytes calls) s' w' := by
  have hloop : ∀ {g : Bytes} (fuel : Nat) (res : Int) (s : ApplyPatch) (w : World σ) {out}, P g s w → processLoop E fuel res s w = .ok out → P g out.2.1 out.2.2 := by
    intro g fuel
    induction fuel with
    | zero => intro _ _ _ _ _ h; cases h
    | succ fuel ih =>
      intro res s w out hp he
      unfold processLoop at he
      split at he
      · cases ho : processOnce E s w with
        | error u => rw [ho] at he; cases he
        | ok o =>
          obtain ⟨r1, s1, w1⟩ := o
          rw [ho] at he
          exact ih r1 s1 w1 (hstep hp ho) he
      · cases he; exact hp
  have hfin : ∀ {g : Bytes} (fuel : Nat) (s : ApplyPatch) (w : World σ) {out}, P g s w → finalizeLoop E fuel s w = .ok out → P g out.2.1 out.2.2 := by
    intro g fuel
    induction fuel with
    | zero => intro _ _ _ _ h; cases h
    | succ fuel ih =>
      intro s w out hp he
      unfold finalizeLoop at he
      cases ho : processOnce E s w with
      | error u => rw [ho] at he; cases he
      | ok o =>
        obtain ⟨r1, s1, w1⟩ := o
        rw [ho] at he
        simp only [Bind.bind, Except.bind] at he
        split at he
        · exact ih s1 w1 (hstep hp ho) he
        · cases he; exact hstep hp ho
  intro calls
  induction calls with
  | nil => intro f s w rs s' w' hp he; cases he; simpa [fedBytes] using hp
  | cons c cs ih =>
    intro f s w rs s' w' hp he
    cases c with
    | process p =>
      simp only [runCalls, applyPatchProcess, Bind.bind, Except.bind] at he
      have h1 := hproc p hp
      generalize ({ s with patchOffset := sz (s.patchOffset + p.length), chunk := { buf := p, offset := 0 } } : ApplyPatch) = s0 at *
      generalize s0.fuel = n at *
      cases hl : processLoop E n 0 s0 w with
      | error u => rw [hl] at he; cases he
      | ok o =>
        have h2 := hloop n 0 s0 w h1 hl
        obtain ⟨r1, s1, w1⟩ := o
        rw [hl] at he
        simp only at he
        split at he
        · rename_i h; split at h <;> cases h
        · rename_i v h
          have : v.2 = (s1, w1) := by split at h <;> cases h <;> rfl
          obtain ⟨r2, s2, w2⟩ := v
          cases this
          simp only at he
          cases hrest : runCalls E s1 w1 cs with
          | error u => rw [hrest] at he; cases he
          | ok o2 =>
            rw [hrest] at he
            obtain ⟨_, _, _⟩ := o2
            cases he
            rw [fedBytes, ← List.append_assoc]
            exact ih h2 hrest
    | finalize =>
      simp only [runCalls, applyPatchFinalize, Bind.bind, Except.bind] at he
      have h1 := hfinz hp
      generalize ({ s with chunk := { buf := [], offset := 0 } } : ApplyPatch) = s0 at *
      generalize s0.fuel = n at *
      cases hl : finalizeLoop E n s0 w with
      | error u => rw [hl] at he; cases he
      | ok o =>
        have h2 := hfin n s0 w h1 hl
        obtain ⟨r1, s1, w1⟩ := o
        rw [hl] at he
        simp only at he
        cases hrest : runCalls E s1 w1 cs with
        | error u => rw [hrest] at he; cases he
        | ok o2 =>
          rw [hrest] at he
          obtain ⟨_, _, _⟩ := o2
          cases he
          exact ih h2 hrest

theorem runCalls_induct (E : SeqEnv σ) (P : ApplyPatch → World σ → Prop)
    (hstep : ∀ {s w res s' w'}, P s w → processOnce E s w = .ok (res, s', w') → P s' w')
    (hchunk : ∀ {s w} (po : Nat) (buf : Bytes), P s w → P { s with patchOffset := po, chunk := { buf := buf, offset := 0 } } w)
    (calls : List Call) {s w rs s' w'} : P s w → runCalls E s w calls = .ok (rs, s', w') → P s' w' :=
  runCalls_inductF E (fun _ => P) hstep (fun p h => hchunk _ p h) (fun {_ s _} h => hchunk s.patchOffset [] h) calls (f := [])

end Detools
