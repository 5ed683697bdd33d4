import Verif.Proofs.CSeqCalls
import Verif.Proofs.CInPlaceRun
import Verif.Spec.CInPlaceApi
/-
One step of the in-place C API, for every patch and every behaviour of the callbacks.
-/
namespace Detools

variable [Build]

/-- Callbacks made between two points, none of which moves more than 128 bytes; only the
last may have failed, and none if `good`. -/
def Adds (w w' : MWorld σ) (good : Prop) : Prop :=
  ∃ evs, w'.trace = evs ++ w.trace ∧ (∀ ev ∈ evs, ev.count ≤ 128) ∧ (∀ ev ∈ evs.tail, ¬ ev.Failed) ∧
    (good → ∀ ev ∈ evs, ¬ ev.Failed)

omit [Build] in
theorem Adds.refl (w : MWorld σ) (good : Prop) : Adds w w good := ⟨[], rfl, by simp, by simp, by simp⟩

omit [Build] in
theorem Adds.mono {w w' : MWorld σ} {p q : Prop} (h : Adds w w' p) (hq : q → p) : Adds w w' q := by
  obtain ⟨evs, h1, h2, h3, h4⟩ := h
  exact ⟨evs, h1, h2, h3, fun h => h4 (hq h)⟩

omit [Build] in
theorem Adds.trans {w w1 w2 : MWorld σ} {p q : Prop} (h1 : Adds w w1 p) (h2 : Adds w1 w2 q) (hp : p) : Adds w w2 q := by
  obtain ⟨e1, a1, a2, a3, a4⟩ := h1
  obtain ⟨e2, b1, b2, b3, b4⟩ := h2
  refine ⟨e2 ++ e1, by rw [b1, a1, List.append_assoc], ?_, ?_, ?_⟩
  · intro ev hm
    rcases List.mem_append.1 hm with h | h
    · exact b2 ev h
    · exact a2 ev h
  · intro ev hm
    cases e2 with
    | nil => exact a3 ev hm
    | cons x t =>
      rcases List.mem_append.1 hm with h | h
      · exact b3 ev h
      · exact a4 hp ev h
  · intro hq ev hm
    rcases List.mem_append.1 hm with h | h
    · exact b4 hq ev h
    · exact a4 hp ev h

omit [Build] in
theorem Adds.one {w : MWorld σ} {arg : σ} {ev : MEv} {good : Prop} (h1 : ev.count ≤ 128) (h2 : good → ¬ ev.Failed) :
    Adds w { arg := arg, trace := ev :: w.trace } good :=
  ⟨[ev], rfl, by simpa using h1, by simp, fun h => by simpa using h2 h⟩

/-- A return value of a helper: 0, an error of the library, or what a memory callback
returned. -/
def CodeOk (E : MemEnv σ) (res : Int) : Prop := res = 0 ∨ (res < 0 ∧ res ≠ ALREADY_DONE) ∨ E.Returns res

/-- A helper that calls callbacks. -/
def CbOk (E : MemEnv σ) (w : MWorld σ) (res : Int) (w' : MWorld σ) : Prop := Adds w w' (0 ≤ res) ∧ CodeOk E res

omit [Build] in
theorem CbOk.seq {E : MemEnv σ} {w w1 w2 : MWorld σ} {r1 r2 : Int} (h1 : CbOk E w r1 w1) (h0 : r1 = 0) (h2 : CbOk E w1 r2 w2) :
    CbOk E w r2 w2 := ⟨h1.1.trans h2.1 (by omega), h2.2⟩

variable (E : MemEnv σ)

omit [Build] in
theorem CbOk.quiet (w : MWorld σ) : CbOk E w 0 w := ⟨.refl w _, .inl rfl⟩

omit [Build] in
theorem callStepSet_ok (w : MWorld σ) (step : Int) :
    CbOk E w (callStepSet E w step).1 (callStepSet E w step).2 := by
  unfold callStepSet
  cases E.stepSet with
  | none => exact .quiet E w
  | some f =>
    simp only
    by_cases h : (f w.arg step).1 = 0
    · simp only [h, ne_eq, not_true, if_false]
      exact ⟨.one (by simp [MEv.count]) (by simp [MEv.Failed]), .inl rfl⟩
    · simp only [h, ne_eq, not_false_iff, if_true]
      exact ⟨.one (by simp [MEv.count]) (fun h => absurd h (by decide)), .inr (.inl ⟨by decide, by decide⟩)⟩

omit [Build] in
theorem isStepCompleted_ok (o : Int) (w : MWorld σ) :
    CbOk E w (isStepCompleted E o w).1 (isStepCompleted E o w).2.2 := by
  unfold isStepCompleted
  cases E.stepGet with
  | none => exact .quiet E w
  | some f =>
    simp only
    by_cases h : (f w.arg).1 = 0
    · simp only [h, ne_eq, not_true, if_false]
      exact ⟨.one (by simp [MEv.count]) (by simp [MEv.Failed]), .inl rfl⟩
    · simp only [h, ne_eq, not_false_iff, if_true]
      exact ⟨.one (by simp [MEv.count]) (fun h => absurd h (by decide)), .inr (.inl ⟨by decide, by decide⟩)⟩

omit [Build] in
theorem nextStep_ok (s : InPlace) (w : MWorld σ) : ∃ res k w', nextStep E s w = (res, { s with ongoingStep := k }, w') ∧ CbOk E w res w' := by
  unfold nextStep
  cases E.stepSet with
  | none => exact ⟨_, _, _, rfl, .quiet E w⟩
  | some f =>
    simp only
    have h1 := isStepCompleted_ok E s.ongoingStep w
    by_cases h : (isStepCompleted E s.ongoingStep w).1 = 0
    · simp only [h, ne_eq, not_true, if_false]
      split
      · refine ⟨_, _, _, rfl, ?_⟩
        rw [h] at h1; exact h1
      · exact ⟨_, _, _, rfl, h1.seq h (callStepSet_ok E _ _)⟩
    · simp only [h, ne_eq, not_false_iff, if_true]
      exact ⟨_, s.ongoingStep, _, rfl, h1⟩

omit [Build] in
theorem ipRead_ok (o : Int) (w : MWorld σ) (addr : Nat) {n : Nat} (hn : n ≤ 128) :
    ipRead E o w addr n = .error .uninit ∨
    ∃ res d w', ipRead E o w addr n = .ok (res, d, w') ∧ CbOk E w res w' ∧ (res = 0 → d.length = n) := by
  have h1 := isStepCompleted_ok E o w
  unfold ipRead
  generalize isStepCompleted E o w = y at h1 ⊢
  obtain ⟨r, b, w1⟩ := y
  simp only at h1
  by_cases h : r = 0
  · subst h
    cases b with
    | true => exact .inr ⟨_, _, _, rfl, h1, fun _ => by simp⟩
    | false =>
      rcases hx : E.memRead w1.arg addr n with ⟨res, d, arg⟩
      simp only [hx, ne_eq, not_true, if_false, Bool.false_eq_true]
      by_cases h2 : res = 0
      · subst h2
        simp only [not_true, if_false]
        by_cases h3 : d.length = n
        · right
          simp only [h3, not_true, if_false]
          exact ⟨_, _, _, rfl, h1.seq rfl ⟨.one (by simpa [MEv.count] using hn) (by simp [MEv.Failed]), .inl rfl⟩, fun _ => h3⟩
        · left
          simp only [h3, not_false_iff, if_true]
      · right
        simp only [h2, not_false_iff, if_true]
        exact ⟨_, _, _, rfl, h1.seq rfl ⟨.one (by simpa [MEv.count] using hn) (by simp only [MEv.Failed]; omega),
          .inr (.inr (.inl ⟨_, _, _, by rw [hx]⟩))⟩, fun h => absurd h h2⟩
  · right
    simp only [h, ne_eq, not_false_iff, if_true]
    exact ⟨_, _, _, rfl, h1, fun h' => absurd h' h⟩

omit [Build] in
theorem ipWrite_ok (o : Int) (w : MWorld σ) (addr : Nat) {d : Bytes} (hd : d.length ≤ 128) :
    CbOk E w (ipWrite E o w addr d).1 (ipWrite E o w addr d).2 := by
  unfold ipWrite
  simp only
  have h1 := isStepCompleted_ok E o w
  by_cases h : (isStepCompleted E o w).1 = 0
  · simp only [h, ne_eq, not_true, if_false]
    split
    · rw [h] at h1; exact h1
    · refine h1.seq h ⟨.one (by simpa [MEv.count] using hd) (by simp only [MEv.Failed]; omega), ?_⟩
      exact .inr (.inr (.inr (.inl ⟨_, _, _, rfl⟩)))
  · simp only [h, ne_eq, not_false_iff, if_true]
    exact h1

omit [Build] in
theorem ipErase_ok (o : Int) (w : MWorld σ) (addr n : Nat) :
    CbOk E w (ipErase E o w addr n).1 (ipErase E o w addr n).2 := by
  unfold ipErase
  simp only
  have h1 := isStepCompleted_ok E o w
  by_cases h : (isStepCompleted E o w).1 = 0
  · simp only [h, ne_eq, not_true, if_false]
    split
    · rw [h] at h1; exact h1
    · refine h1.seq h ⟨.one (by simp [MEv.count]) (by simp only [MEv.Failed]; omega), ?_⟩
      exact .inr (.inr (.inr (.inr ⟨_, _, _, rfl⟩)))
  · simp only [h, ne_eq, not_false_iff, if_true]
    exact h1

omit [Build] in
theorem copyLoop_ok (o : Int) (seg ra wa : Nat) : ∀ (fuel off : Nat) (w : MWorld σ), off ≤ seg → seg < fuel + off →
    copyLoop E o seg ra wa fuel off w = .error .uninit ∨
    ∃ res w', copyLoop E o seg ra wa fuel off w = .ok (res, w') ∧ CbOk E w res w' := by
  intro fuel
  induction fuel with
  | zero =>
    intro off w h0 h
    omega
  | succ fuel ih =>
    intro off w h0 h
    unfold copyLoop
    by_cases ho : off < seg
    · simp only [ho, if_true]
      rcases ipRead_ok E o w (sz (ra + off)) (n := min shiftCap (seg - off)) (Nat.min_le_left ..) with e | ⟨res, d, w1, e, h1, h2⟩
      · left; rw [e]; rfl
      · rw [e]
        simp only [Bind.bind, Except.bind]
        by_cases hr : res = 0
        · subst hr
          simp only [ne_eq, not_true, if_false]
          have hd := h2 rfl
          have h3 := ipWrite_ok E o w1 (sz (wa + off)) (d := d) (by rw [hd]; exact Nat.min_le_left ..)
          by_cases hw : (ipWrite E o w1 (sz (wa + off)) d).1 = 0
          · simp only [hw, not_true, if_false]
            have : 0 < min shiftCap (seg - off) := by unfold shiftCap; omega
            rcases ih (off + min shiftCap (seg - off)) (ipWrite E o w1 (sz (wa + off)) d).2 (by omega) (by omega) with e | ⟨res, w2, e, h4⟩
            · exact .inl e
            · exact .inr ⟨_, _, e, (h1.seq rfl h3).seq hw h4⟩
          · simp only [hw, not_false_iff, if_true]
            exact .inr ⟨_, _, rfl, h1.seq rfl h3⟩
        · simp only [hr, ne_eq, not_false_iff, if_true]
          exact .inr ⟨_, _, rfl, h1⟩
    · simp only [ho, if_false]
      exact .inr ⟨_, _, rfl, .quiet E w⟩

omit [Build] in
theorem shiftOne_safe (s : InPlace) (w : MWorld σ) (ra wa : Nat) :
    shiftOne E s w ra wa = .error .uninit ∨
    ∃ res k w', shiftOne E s w ra wa = .ok (res, { s with ongoingStep := k }, w') ∧ CbOk E w res w' := by
  unfold shiftOne
  have h1 := ipErase_ok E s.ongoingStep w wa s.segmentSize
  simp only
  by_cases he : (ipErase E s.ongoingStep w wa s.segmentSize).1 = 0
  · simp only [he, ne_eq, not_true, if_false]
    rcases copyLoop_ok E s.ongoingStep s.segmentSize ra wa (s.segmentSize + 1) 0 (ipErase E s.ongoingStep w wa s.segmentSize).2
      (by omega) (by omega) with e | ⟨res, w2, e, h2⟩
    · left; rw [e]; rfl
    · right
      rw [e]
      simp only [Bind.bind, Except.bind]
      by_cases hr : res = 0
      · subst hr
        simp only [not_true, if_false]
        obtain ⟨res, k, w3, e3, h3⟩ := nextStep_ok E s w2
        rw [e3]
        exact ⟨_, _, _, rfl, (h1.seq he h2).seq rfl h3⟩
      · simp only [hr, not_false_iff, if_true]
        exact ⟨_, s.ongoingStep, _, rfl, h1.seq he h2⟩
  · simp only [he, ne_eq, not_false_iff, if_true]
    exact .inr ⟨_, s.ongoingStep, _, rfl, h1⟩

omit [Build] in
theorem shiftLoop_safe : ∀ (n : Nat) (s : InPlace) (w : MWorld σ) (ra wa : Nat),
    shiftLoop E n s w ra wa = .error .uninit ∨
    ∃ res k w', shiftLoop E n s w ra wa = .ok (res, { s with ongoingStep := k }, w') ∧ CbOk E w res w' := by
  intro n
  induction n with
  | zero => intro s w ra wa; exact .inr ⟨0, s.ongoingStep, w, rfl, .quiet E w⟩
  | succ n ih =>
    intro s w ra wa
    unfold shiftLoop
    rcases shiftOne_safe E s w ra wa with e | ⟨res, k, w1, e, h1⟩
    · left; rw [e]; rfl
    · rw [e]
      simp only [Bind.bind, Except.bind]
      by_cases hr : res = 0
      · subst hr
        simp only [ne_eq, not_true, if_false]
        rcases ih { s with ongoingStep := k } w1 (szOfInt ((ra : Int) - s.segmentSize)) (szOfInt ((wa : Int) - s.segmentSize)) with e | ⟨res, k', w2, e, h2⟩
        · exact .inl e
        · exact .inr ⟨_, _, _, e, h1.seq rfl h2⟩
      · simp only [hr, ne_eq, not_false_iff, if_true]
        exact .inr ⟨_, _, _, rfl, h1⟩

omit [Build] in
theorem inPlaceShiftMemory_safe (s : InPlace) (w : MWorld σ) (m f : Nat) :
    (inPlaceShiftMemory E s w m f = .error .uninit ∨ inPlaceShiftMemory E s w m f = .error .divZero) ∨
    ∃ res k w', inPlaceShiftMemory E s w m f = .ok (res, { s with ongoingStep := k }, w') ∧ CbOk E w res w' := by
  unfold inPlaceShiftMemory
  split
  · exact .inl (.inr rfl)
  · exact (shiftLoop_safe E _ _ _ _ _).imp .inl id

/-! ### One step -/

def InPlace.wk (s : InPlace) : Nat :=
  2 ^ 32 * s.chunk.rest.length + (match s.reader with | none => 0 | some r => r.backlog)

theorem InPlace.mu_eq (s : InPlace) : s.mu = 3 * s.wk + s.state.weight := by
  unfold InPlace.mu InPlace.wk
  cases s.state <;> rfl

structure IPInv (s : InPlace) : Prop where
  size : s.size.Inv
  chunk : s.chunk.Inv
  rsize : s.readerSize.Inv
  toSz : s.toSize < 2 ^ 27
  done : s.state = .done → s.toPos = s.toSize
  reader : s.state ≠ .init → ∃ r, s.reader = some r ∧ r.Safe

/-- The result of a `switch`, before a failure is recorded. -/
inductive IPSwitchOk (s : InPlace) (w : MWorld σ) : IPRes σ → Prop
  | ok {res s' w'} : 0 ≤ res → CodeOk E res → IPInv s' → Adds w w' True → s'.mu < s.mu → s'.state ≠ .failed →
      IPSwitchOk s w (res, s', w')
  | more {s'} : IPInv s' → s'.chunk.rest = [] → s'.state = s.state → IPSwitchOk s w (1, s', w)
  | fail {e s' w'} : e < 0 → CodeOk E e → Adds w w' False → IPSwitchOk s w (e, s', w')

variable {E}

theorem IPSwitchOk.err {s s' : InPlace} {w : MWorld σ} {e : Int} (h1 : e < 0) (h2 : e ≠ ALREADY_DONE) :
    IPSwitchOk E s w (e, s', w) := .fail h1 (.inr (.inl ⟨h1, h2⟩)) (.refl w _)

theorem IPSwitchOk.cb {s s' : InPlace} {w w' : MWorld σ} {res : Int} (h : CbOk E w res w')
    (h1 : 0 ≤ res → IPInv s' ∧ s'.mu < s.mu ∧ s'.state ≠ .failed) : IPSwitchOk E s w (res, s', w') := by
  by_cases hr : 0 ≤ res
  · obtain ⟨a, b, c⟩ := h1 hr
    exact .ok hr h.2 a (h.1.mono fun _ => hr) b c
  · exact .fail (by omega) h.2 (h.1.mono fun h => h.elim)

theorem IPInv.headerSize {s : InPlace} (h : IPInv s) (hs : s.state = .init) :
    ∃ v c acc, s.headerSize = .ok (v, { s with chunk := c, size := acc }) ∧
      match v with
      | .value v => IPInv { s with chunk := c, size := acc } ∧ 0 ≤ v ∧ v < 2 ^ 27 ∧ c.rest.length < s.chunk.rest.length
      | .more => IPInv { s with chunk := c, size := acc } ∧ c.rest = []
      | .fail e => e < 0 ∧ e ≠ ALREADY_DONE := by
  obtain ⟨⟨v, c', acc'⟩, e1, e2⟩ := headerSize_safe (s.chunk.left + 1) s.chunk s.size h.chunk h.size
    (by rw [s.chunk.left_eq h.chunk]; omega)
  unfold InPlace.headerSize
  rw [e1]
  refine ⟨v, c', acc', rfl, ?_⟩
  have hn : ¬ s.state ≠ .init := by simp [hs]
  match v, e2 with
  | .value v, ⟨g1, g2, g3, g4, g5⟩ => exact ⟨⟨g2, g1, h.rsize, h.toSz, h.done, fun h => absurd h hn⟩, g3, g4, g5⟩
  | .more, ⟨g1, g2, g3⟩ => exact ⟨⟨g2, g1, h.rsize, h.toSz, h.done, fun h => absurd h hn⟩, g3⟩
  | .fail e, ⟨g1, _⟩ => subst g1; exact ⟨by decide, by decide⟩

theorem ipInitSize_ok {s : InPlace} (h : IPInv s) (hs : s.state = .init) (w : MWorld σ) (next : IPInit) (set : InPlace → Nat → InPlace)
    (hset : ∀ s v, ∃ a b c d, set s v = { s with memorySize := a, segmentSize := b, shiftSize := c, fromSize := d }) :
    ∃ out, ipInitSize s w next set = .ok out ∧ IPSwitchOk E s w out := by
  unfold ipInitSize
  obtain ⟨v, c, acc, e, g⟩ := h.headerSize hs
  rw [e]
  match v, g with
  | .more, ⟨g1, g2⟩ => exact ⟨_, rfl, .more g1 g2 rfl⟩
  | .fail e, ⟨g1, g2⟩ => exact ⟨_, rfl, .err g1 g2⟩
  | .value v, ⟨g1, _, _, g4⟩ =>
    obtain ⟨k1, k2, k3, k4, ek⟩ := hset { s with chunk := c, size := acc } (szOfInt v)
    refine ⟨_, rfl, .ok (Int.le_refl 0) (.inl rfl) ?_ (.refl w _) ?_ ?_⟩
    · rw [ek]
      exact ⟨(fun h => by cases h), g1.chunk, g1.rsize, g1.toSz, g1.done, g1.reader⟩
    · rw [ek, InPlace.mu_eq, InPlace.mu_eq]
      simp only [InPlace.wk]
      omega
    · rw [ek]; simp [hs]

theorem ipInitToSize_ok {s : InPlace} (h : IPInv s) (hs : s.state = .init) (w : MWorld σ) :
    (ipInitToSize E s w = .error .uninit ∨ ipInitToSize E s w = .error .divZero) ∨
    ∃ out, ipInitToSize E s w = .ok out ∧ IPSwitchOk E s w out := by
  unfold ipInitToSize
  obtain ⟨v, c, acc, e, g⟩ := h.headerSize hs
  rw [e]
  match v, g with
  | .more, ⟨g1, g2⟩ => exact .inr ⟨_, rfl, .more g1 g2 rfl⟩
  | .fail e, ⟨g1, g2⟩ => exact .inr ⟨_, rfl, .err g1 g2⟩
  | .value v, ⟨g1, g2, g3, g4⟩ =>
    simp only [Bind.bind, Except.bind]
    cases hin : CReader.init (szOfInt ((s.patchSize : Int) - c.offset)) s.compression with
    | none => exact .inr ⟨_, rfl, .err (by decide) (by decide)⟩
    | some r =>
      obtain ⟨hr1, hr2⟩ := init_reader_safe hin
      simp only
      rw [if_neg (by omega)]
      have hv : szOfInt v = v.toNat := by unfold szOfInt; omega
      simp only [hv]
      by_cases hp : v > 0
      · simp only [hp, if_true]
        generalize hs1 : ({ s with chunk := c, size := acc, readerSize := { s.readerSize with state := .first }, reader := some r, toPos := 0, toSize := v.toNat, segment := { s.segment with index := 0 } } : InPlace) = s1
        have hst : s1.state = .init := by rw [← hs1]; exact hs
        have hI : ∀ k st, st ≠ .done → IPInv { s1 with ongoingStep := k, state := st } := by
          intro k st hd
          subst hs1
          refine ⟨g1.size, g1.chunk, (fun h => by cases h), ?_, fun h => absurd h hd, fun _ => ⟨r, rfl, hr1⟩⟩
          show v.toNat < _
          omega
        have hM : ∀ k st, st.weight = 0 → ({ s1 with ongoingStep := k, state := st } : InPlace).mu < s.mu := by
          intro k st hw
          subst hs1
          rw [InPlace.mu_eq, InPlace.mu_eq]
          simp only [InPlace.wk, hr2, hw]
          omega
        rcases inPlaceShiftMemory_safe E s1 w s.memorySize s.fromSize with (e | e) | ⟨res, k, w1, e, hcb⟩
        · left; left; rw [e]
        · left; right; rw [e]
        · right
          rw [e]
          simp only
          by_cases hr : res = 0
          · subst hr
            simp only [ne_eq, not_true, if_false]
            refine ⟨_, rfl, .cb hcb fun _ => ?_⟩
            have a := hI k .dfpatchSize (by decide)
            have b := hM k .dfpatchSize rfl
            exact ⟨a, b, by simp⟩
          · simp only [hr, ne_eq, not_false_iff, if_true]
            refine ⟨_, rfl, .cb hcb fun _ => ?_⟩
            have a := hI k .init (by decide)
            have b := hM k .init rfl
            rw [← hst] at a b
            exact ⟨a, b, by simp [hst]⟩
      · simp only [hp, if_false]
        refine .inr ⟨_, rfl, .ok (Int.le_refl 0) (.inl rfl) ?_ (.refl w _) ?_ (by simp)⟩
        · refine ⟨g1.size, g1.chunk, (fun h => by cases h), ?_, fun _ => ?_, fun _ => ⟨r, rfl, hr1⟩⟩
          · show v.toNat < _
            omega
          · show 0 = v.toNat
            omega
        · rw [InPlace.mu_eq, InPlace.mu_eq]
          simp only [InPlace.wk, hr2, SeqPhase.weight]
          omega

theorem ipInit_ok {s : InPlace} (h : IPInv s) (hs : s.state = .init) (w : MWorld σ) :
    (ipInit E s w = .error .uninit ∨ ipInit E s w = .error .divZero) ∨ ∃ out, ipInit E s w = .ok out ∧ IPSwitchOk E s w out := by
  unfold ipInit
  cases hi : s.initState with
  | fixedHeader =>
    right
    simp only [ipInitFixedHeader]
    cases hr : s.chunk.rest with
    | nil =>
      rw [s.chunk.get_nil h.chunk hr]
      exact ⟨_, rfl, .err (by decide) (by decide)⟩
    | cons b t =>
      obtain ⟨e1, e2, e3⟩ := s.chunk.get_cons h.chunk hr
      rw [e1]
      simp only [Bind.bind, Except.bind]
      split
      · exact ⟨_, rfl, .err (by decide) (by decide)⟩
      · refine ⟨_, rfl, .ok (Int.le_refl 0) (.inl rfl) ?_ (.refl w _) ?_ (by simp [hs])⟩
        · exact ⟨(fun h => by cases h), e3, h.rsize, h.toSz, h.done, fun hn => absurd hs hn⟩
        · rw [InPlace.mu_eq, InPlace.mu_eq]
          have hl : s.chunk.rest.length = t.length + 1 := by rw [hr]; rfl
          have : ({ s.chunk with offset := s.chunk.offset + 1 } : Chunk).rest.length = t.length := by rw [e2]
          simp only [InPlace.wk]
          rw [this]
          omega
  | memorySize => exact .inr (ipInitSize_ok h hs w _ _ fun s v => ⟨_, _, _, _, rfl⟩)
  | segmentSize => exact .inr (ipInitSize_ok h hs w _ _ fun s v => ⟨_, _, _, _, rfl⟩)
  | shiftSize => exact .inr (ipInitSize_ok h hs w _ _ fun s v => ⟨_, _, _, _, rfl⟩)
  | fromSize => exact .inr (ipInitSize_ok h hs w _ _ fun s v => ⟨_, _, _, _, rfl⟩)
  | toSize => exact ipInitToSize_ok h hs w

theorem IPInv.unpackSize {s : InPlace} (h : IPInv s) (hs : s.state ≠ .init) :
    s.unpackSize = .error .uninit ∨
    ∃ v r c a, s.unpackSize = .ok (v, { s with reader := some r, chunk := c, readerSize := a }) ∧
      match v with
      | .value v => r.Safe ∧ c.Inv ∧ a.Inv ∧ -2 ^ 27 < v ∧ v < 2 ^ 27 ∧ ({ s with reader := some r, chunk := c, readerSize := a } : InPlace).wk < s.wk
      | .more => IPInv { s with reader := some r, chunk := c, readerSize := a } ∧ c.rest = []
      | .fail e => e < 0 ∧ e ≠ ALREADY_DONE := by
  obtain ⟨r, e1, e2⟩ := h.reader hs
  simp only [InPlace.unpackSize, e1]
  rcases patchReaderUnpackSize_safe e2 h.chunk h.rsize with h' | ⟨⟨v, r', c', a'⟩, q1, q2⟩
  · left
    rw [h']; rfl
  · right
    rw [q1]
    refine ⟨v, r', c', a', rfl, ?_⟩
    match v, q2 with
    | .value v, ⟨g1, g2, g3, g4, g5, g6⟩ =>
      refine ⟨g1, g2, g3, g4, g5, ?_⟩
      simp only [InPlace.wk, e1]
      simpa only [work] using g6
    | .more, ⟨g1, g2, g3, g4, g5⟩ => exact ⟨⟨h.size, g2, g3, h.toSz, h.done, fun _ => ⟨r', rfl, g1⟩⟩, g4⟩
    | .fail e, ⟨g1, g2⟩ => exact ⟨g1.neg.1, g1.neg.2.1⟩

theorem ipDfpatchSize_ok {s : InPlace} (h : IPInv s) (hs : s.state = .dfpatchSize) (w : MWorld σ) :
    ipDfpatchSize E s w = .error .uninit ∨ ∃ out, ipDfpatchSize E s w = .ok out ∧ IPSwitchOk E s w out := by
  unfold ipDfpatchSize
  rcases h.unpackSize (by rw [hs]; decide) with e | ⟨v, r, c, a, e, g⟩
  · left; rw [e]; rfl
  · right
    rw [e]
    simp only [Bind.bind, Except.bind]
    match v, g with
    | .more, ⟨g1, g2⟩ => exact ⟨_, rfl, .more g1 g2 rfl⟩
    | .fail e, ⟨g1, g2⟩ => exact ⟨_, rfl, .err g1 g2⟩
    | .value v, ⟨g1, g2, g3, g4, g5, g6⟩ =>
      simp only
      split
      · exact ⟨_, rfl, .err (by decide) (by decide)⟩
      · refine ⟨_, rfl, .cb (ipErase_ok E _ _ _ _) fun _ => ⟨?_, ?_, by simp⟩⟩
        · exact ⟨h.size, g2, g3, h.toSz, by simp, fun _ => ⟨r, rfl, g1⟩⟩
        · rw [InPlace.mu_eq, InPlace.mu_eq]
          simp only [InPlace.wk, SeqPhase.weight] at g6 ⊢
          omega

theorem ipSize_ok {s : InPlace} (h : IPInv s) (hs : s.state ≠ .init) {next : SeqPhase} (hw : next.weight = 1)
    (hn1 : next ≠ .failed) (hn2 : next ≠ .init) (hn3 : next ≠ .done) (w : MWorld σ) :
    ipSize s w next = .error .uninit ∨ ∃ out, ipSize s w next = .ok out ∧ IPSwitchOk E s w out := by
  unfold ipSize
  rcases h.unpackSize hs with e | ⟨v, r, c, a, e, g⟩
  · left; rw [e]; rfl
  · right
    rw [e]
    simp only [Bind.bind, Except.bind]
    match v, g with
    | .more, ⟨g1, g2⟩ => exact ⟨_, rfl, .more g1 g2 rfl⟩
    | .fail e, ⟨g1, g2⟩ => exact ⟨_, rfl, .err g1 g2⟩
    | .value v, ⟨g1, g2, g3, g4, g5, g6⟩ =>
      simp only
      split
      · exact ⟨_, rfl, .err (by decide) (by decide)⟩
      · refine ⟨_, rfl, .ok (Int.le_refl 0) (.inl rfl) ?_ (.refl w _) ?_ hn1⟩
        · exact ⟨h.size, g2, g3, h.toSz, fun h => absurd h hn3, fun _ => ⟨r, rfl, g1⟩⟩
        · rw [InPlace.mu_eq, InPlace.mu_eq]
          simp only [InPlace.wk, hw] at g6 ⊢
          omega

theorem ipDataWrite_ok {s0 s : InPlace} {w0 w : MWorld σ} (h : IPInv s) (h1 : s.state ≠ .done) (h2 : s.state ≠ .failed)
    (hmu : s.mu < s0.mu) (ha : Adds w0 w True) {to : Bytes} (hto : to.length ≤ 128) :
    ∃ out, ipDataWrite E s w to = .ok out ∧ IPSwitchOk E s0 w0 out := by
  unfold ipDataWrite
  have hc := ipWrite_ok E s.ongoingStep w (sz (s.segment.toPos + s.segment.toOffset)) hto
  simp only
  by_cases hw : (ipWrite E s.ongoingStep w (sz (s.segment.toPos + s.segment.toOffset)) to).1 = 0
  · simp only [hw, ne_eq, not_true, if_false]
    rw [hw] at hc
    refine ⟨_, rfl, .ok (Int.le_refl 0) (.inl rfl) ?_ (ha.trans (hc.1.mono fun _ => Int.le_refl 0) trivial) ?_ h2⟩
    · exact ⟨h.size, h.chunk, h.rsize, h.toSz, fun h => absurd h h1, h.reader⟩
    · rw [InPlace.mu_eq] at hmu ⊢
      exact hmu
  · simp only [hw, ne_eq, not_false_iff, if_true]
    exact ⟨_, rfl, .fail ioNeg (.inr (.inl ⟨by decide, by decide⟩)) (ha.trans (hc.1.mono fun h => h.elim) trivial)⟩

theorem ipData_ok {s : InPlace} (h : IPInv s) (hw : s.state.weight = 1) {next : SeqPhase} (hn0 : next.weight = 0)
    (hn1 : next ≠ .failed) (hn2 : next ≠ .init) (hn3 : next ≠ .done) (diff : Bool) (w : MWorld σ) :
    (ipData E s w next diff = .error .uninit ∨ ipData E s w next diff = .error .overflow) ∨
      ∃ out, ipData E s w next diff = .ok out ∧ IPSwitchOk E s w out := by
  have h1 : s.state ≠ .failed := by intro h; rw [h] at hw; cases hw
  have h2 : s.state ≠ .init := by intro h; rw [h] at hw; cases hw
  have h3 : s.state ≠ .done := by intro h; rw [h] at hw; cases hw
  obtain ⟨r, hr1, hr2⟩ := h.reader h2
  unfold ipData
  by_cases hz : min dataCap s.chunkSize = 0
  · right
    simp only [hz, if_true]
    refine ⟨_, rfl, .ok (Int.le_refl 0) (.inl rfl) ?_ (.refl w _) ?_ hn1⟩
    · exact ⟨h.size, h.chunk, h.rsize, h.toSz, fun hd => absurd hd hn3, fun _ => ⟨r, hr1, hr2⟩⟩
    · rw [InPlace.mu_eq, InPlace.mu_eq]
      simp only [InPlace.wk, hn0, hw]
      omega
  · simp only [hz, if_false, hr1]
    obtain ⟨⟨d, r', c'⟩, e1, e2⟩ := dec_safe hr2 h.chunk (cap := dataCap) (size := min dataCap s.chunkSize) (by omega)
      (Nat.min_le_left ..) (by decide)
    rw [e1]
    simp only [Bind.bind, Except.bind]
    match d, e2 with
    | .fail e, ⟨g1, g2⟩ => exact .inr ⟨_, rfl, .err g1.neg.1 g1.neg.2.1⟩
    | .more, ⟨g1, g2, g3, g4⟩ =>
      exact .inr ⟨_, rfl, .more ⟨h.size, g2, h.rsize, h.toSz, h.done, fun _ => ⟨r', rfl, g1⟩⟩ g3 rfl⟩
    | .ok to, ⟨g1, g2, g3, g4⟩ =>
      have hto : to.length ≤ 128 := Nat.le_trans g3 (Nat.min_le_left ..)
      have hmu : ∀ seg, ({ s with reader := some r', chunk := c', segment := seg } : InPlace).mu < s.mu := by
        intro seg
        rw [InPlace.mu_eq, InPlace.mu_eq]
        simp only [InPlace.wk, hr1]
        simp only [work] at g4
        omega
      have hI : ∀ seg, IPInv { s with reader := some r', chunk := c', segment := seg } :=
        fun seg => ⟨h.size, g2, h.rsize, h.toSz, h.done, fun _ => ⟨r', rfl, g1⟩⟩
      simp only
      cases diff with
      | false =>
        right
        simp only [Bool.false_eq_true, if_false]
        exact ipDataWrite_ok (hI s.segment) h3 h1 (hmu s.segment) (.refl w _) hto
      | true =>
        simp only [if_true]
        rcases ipRead_ok E s.ongoingStep w (szOfInt s.segment.fromOffset) hto with e | ⟨res, fr, w1, e, hc, hl⟩
        · left; left; rw [e]
        · rw [e]
          simp only
          by_cases hres : res = 0
          · subst hres
            simp only [ne_eq, not_true, if_false]
            split
            · exact .inl (.inr rfl)
            · right
              refine ipDataWrite_ok (hI _) h3 h1 (hmu _) (hc.1.mono fun _ => Int.le_refl 0) ?_
              have := hl rfl
              simp only [sumBytes, List.length_zipWith]
              omega
          · simp only [hres, ne_eq, not_false_iff, if_true]
            exact .inr ⟨_, rfl, .fail ioNeg (.inr (.inl ⟨by decide, by decide⟩)) (hc.1.mono fun h => h.elim)⟩

theorem ipAdjustment_ok {s : InPlace} (h : IPInv s) (hs : s.state = .adjustment) (w : MWorld σ) :
    (ipAdjustment E s w = .error .uninit ∨ ipAdjustment E s w = .error .overflow) ∨
      ∃ out, ipAdjustment E s w = .ok out ∧ IPSwitchOk E s w out := by
  unfold ipAdjustment
  rcases h.unpackSize (by rw [hs]; decide) with e | ⟨v, r, c, a, e, g⟩
  · left; left; rw [e]; rfl
  · rw [e]
    simp only [Bind.bind, Except.bind]
    match v, g with
    | .more, ⟨g1, g2⟩ => exact .inr ⟨_, rfl, .more g1 g2 rfl⟩
    | .fail e, ⟨g1, g2⟩ => exact .inr ⟨_, rfl, .err g1 g2⟩
    | .value v, ⟨g1, g2, g3, g4, g5, g6⟩ =>
      simp only
      by_cases hd : s.toPos = s.toSize
      · simp only [hd, if_true]
        right
        refine ⟨_, rfl, .cb (callStepSet_ok E w 0) fun _ => ⟨?_, ?_, by simp⟩⟩
        · exact ⟨h.size, g2, g3, h.toSz, fun _ => rfl, fun _ => ⟨r, rfl, g1⟩⟩
        · rw [InPlace.mu_eq, InPlace.mu_eq]
          simp only [InPlace.wk, SeqPhase.weight] at g6 ⊢
          omega
      · simp only [hd, if_false]
        split
        · right
          obtain ⟨res, k, w1, e1, hc⟩ := nextStep_ok E { s with reader := some r, chunk := c, readerSize := a } w
          rw [e1]
          refine ⟨_, rfl, .cb hc fun _ => ⟨?_, ?_, by simp⟩⟩
          · exact ⟨h.size, g2, g3, h.toSz, by simp, fun _ => ⟨r, rfl, g1⟩⟩
          · rw [InPlace.mu_eq, InPlace.mu_eq]
            simp only [InPlace.wk, SeqPhase.weight] at g6 ⊢
            omega
        · split
          · exact .inl (.inr rfl)
          · refine .inr ⟨_, rfl, .ok (Int.le_refl 0) (.inl rfl) ?_ (.refl w _) ?_ (by simp)⟩
            · exact ⟨h.size, g2, g3, h.toSz, by simp, fun _ => ⟨r, rfl, g1⟩⟩
            · rw [InPlace.mu_eq, InPlace.mu_eq]
              simp only [InPlace.wk, SeqPhase.weight] at g6 ⊢
              omega

/-- The kinds of undefined behaviour left. -/
def IPUb (u : Ub) : Prop := u = .uninit ∨ u = .overflow ∨ u = .divZero

theorem ipSwitch_ok {s : InPlace} (h : IPInv s) (w : MWorld σ) (h1 : s.state ≠ .done) (h2 : s.state ≠ .failed) :
    (∃ u, ipSwitch E s w = .error u ∧ IPUb u) ∨ ∃ out, ipSwitch E s w = .ok out ∧ IPSwitchOk E s w out := by
  have two : ∀ {a b : Ub} {x : C (IPRes σ)} {Q : Prop}, IPUb a → IPUb b → (x = .error a ∨ x = .error b) ∨ Q →
      (∃ u, x = .error u ∧ IPUb u) ∨ Q := by
    intro a b x Q ha hb h
    rcases h with (h | h) | h
    · exact .inl ⟨a, h, ha⟩
    · exact .inl ⟨b, h, hb⟩
    · exact .inr h
  have one : ∀ {x : C (IPRes σ)} {Q : Prop}, x = .error .uninit ∨ Q → (∃ u, x = .error u ∧ IPUb u) ∨ Q := by
    intro x Q h
    rcases h with h | h
    · exact .inl ⟨_, h, .inl rfl⟩
    · exact .inr h
  unfold ipSwitch
  cases hs : s.state with
  | init => exact two (.inl rfl) (.inr (.inr rfl)) (ipInit_ok h hs w)
  | dfpatchSize => exact one (ipDfpatchSize_ok h hs w)
  | diffSize => exact one (ipSize_ok h (by rw [hs]; decide) rfl (by decide) (by decide) (by decide) w)
  | extraSize => exact one (ipSize_ok h (by rw [hs]; decide) rfl (by decide) (by decide) (by decide) w)
  | diffData => exact two (.inl rfl) (.inr (.inl rfl)) (ipData_ok h (by rw [hs]; rfl) rfl (by decide) (by decide) (by decide) true w)
  | extraData => exact two (.inl rfl) (.inr (.inl rfl)) (ipData_ok h (by rw [hs]; rfl) rfl (by decide) (by decide) (by decide) false w)
  | adjustment => exact two (.inl rfl) (.inr (.inl rfl)) (ipAdjustment_ok h hs w)
  | done => exact absurd hs h1
  | failed => exact absurd hs h2

/-- The result of a step. -/
inductive IPOnceOk (E : MemEnv σ) (s : InPlace) (w : MWorld σ) : IPRes σ → Prop
  | ok {res s' w'} : s.state ≠ .done → 0 ≤ res → CodeOk E res → IPInv s' → Adds w w' True → s'.mu < s.mu → s'.state ≠ .failed →
      IPOnceOk E s w (res, s', w')
  | more {s'} : s.state ≠ .done → IPInv s' → s'.chunk.rest = [] → s'.state = s.state → IPOnceOk E s w (1, s', w)
  | done : s.state = .done → IPOnceOk E s w (ALREADY_DONE, s, w)
  | fail {e s' w'} : e < 0 → CodeOk E e → Adds w w' False → s'.state = .failed → IPOnceOk E s w (e, s', w')

theorem ipOnce_failed {s : InPlace} (h : s.state = .failed) (w : MWorld σ) : ipOnce E s w = .ok (ALREADY_FAILED, s, w) := by
  unfold ipOnce
  rw [if_neg (by rw [h]; decide)]
  simp only [ipSwitch, h, Bind.bind, Except.bind]
  rw [if_pos (by decide)]
  have : ({ s with state := .failed } : InPlace) = s := by rw [← h]
  rw [this]

theorem ipOnce_ok {s : InPlace} (h : IPInv s) (w : MWorld σ) (h2 : s.state ≠ .failed) :
    (∃ u, ipOnce E s w = .error u ∧ IPUb u) ∨ ∃ out, ipOnce E s w = .ok out ∧ IPOnceOk E s w out := by
  by_cases h1 : s.state = .done
  · right
    unfold ipOnce
    rw [if_pos h1]
    exact ⟨_, rfl, .done h1⟩
  · unfold ipOnce
    rw [if_neg h1]
    rcases ipSwitch_ok (E := E) h w h1 h2 with ⟨u, e, hu⟩ | ⟨out, e, ho⟩
    · left; rw [e]; exact ⟨u, rfl, hu⟩
    · right
      rw [e]
      simp only [Bind.bind, Except.bind]
      cases ho with
      | ok a b c d g f => exact ⟨_, if_neg (Int.not_lt.2 a), .ok h1 a b c d g f⟩
      | more a b c => exact ⟨_, if_neg (show ¬ (1 : Int) < 0 by decide), .more h1 a b c⟩
      | fail a b c => exact ⟨_, if_pos a, .fail a b c rfl⟩

end Detools
