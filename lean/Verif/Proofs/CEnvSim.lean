import Verif.Spec.CInPlaceApi
/-
Two sets of in-place callbacks of which the second does the same as the first whenever
the first succeeds: a successful update with the first is a successful update with the
second.
-/
namespace Detools

variable [Build]

/-- No callback failed. -/
def AllOk (w : MWorld σ) : Prop := ∀ ev ∈ w.trace, ¬ ev.Failed

structure EnvSim (R : σ → τ → Prop) (E1 : MemEnv σ) (E2 : MemEnv τ) : Prop where
  read : ∀ {a b addr n r d a'}, R a b → E1.memRead a addr n = (r, d, a') → 0 ≤ r → ∃ b', E2.memRead b addr n = (r, d, b') ∧ R a' b'
  write : ∀ {a b addr d r a'}, R a b → E1.memWrite a addr d = (r, a') → 0 ≤ r → ∃ b', E2.memWrite b addr d = (r, b') ∧ R a' b'
  erase : ∀ {a b addr n r a'}, R a b → E1.memErase a addr n = (r, a') → 0 ≤ r → ∃ b', E2.memErase b addr n = (r, b') ∧ R a' b'
  set : (E1.stepSet = none ∧ E2.stepSet = none) ∨ ∃ f g, E1.stepSet = some f ∧ E2.stepSet = some g ∧
    ∀ {a b step a'}, R a b → f a step = (0, a') → ∃ b', g b step = (0, b') ∧ R a' b'
  get : (E1.stepGet = none ∧ E2.stepGet = none) ∨ ∃ f g, E1.stepGet = some f ∧ E2.stepGet = some g ∧
    ∀ {a b step a'}, R a b → f a = (0, step, a') → ∃ b', g b = (0, step, b') ∧ R a' b'

/-- Related worlds. -/
def RW (R : σ → τ → Prop) (w1 : MWorld σ) (w2 : MWorld τ) : Prop := R w1.arg w2.arg ∧ w1.trace = w2.trace

omit [Build] in
theorem AllOk.cons {w : MWorld σ} {a : σ} {ev} (h : AllOk { arg := a, trace := ev :: w.trace }) :
    ¬ ev.Failed ∧ AllOk w :=
  ⟨h ev (by simp), fun e he => h e (by simp [he])⟩

/-- What holds of a computation that returns a number, from the world `w1` and a related
world. -/
structure Sim2 (R : σ → τ → Prop) (w1 : MWorld σ) (x1 : C (Int × MWorld σ)) (x2 : MWorld τ → C (Int × MWorld τ)) : Prop where
  mono : ∀ {r w1'}, x1 = .ok (r, w1') → AllOk w1' → AllOk w1
  sim : ∀ {r w1' w2}, RW R w1 w2 → x1 = .ok (r, w1') → AllOk w1' → ∃ w2', x2 w2 = .ok (r, w2') ∧ RW R w1' w2'

/-- The same for one that returns a number and something else. -/
structure Sim3 {α : Type} (R : σ → τ → Prop) (w1 : MWorld σ) (x1 : C (Int × α × MWorld σ)) (x2 : MWorld τ → C (Int × α × MWorld τ)) : Prop where
  mono : ∀ {r s w1'}, x1 = .ok (r, s, w1') → AllOk w1' → AllOk w1
  sim : ∀ {r s w1' w2}, RW R w1 w2 → x1 = .ok (r, s, w1') → AllOk w1' → ∃ w2', x2 w2 = .ok (r, s, w2') ∧ RW R w1' w2'

section
variable {R : σ → τ → Prop} {E1 : MemEnv σ} {E2 : MemEnv τ} {α β : Type}

omit [Build] in
theorem Sim2.pure {w1 : MWorld σ} (r : Int) : Sim2 R w1 (.ok (r, w1)) (fun w2 => .ok (r, w2)) where
  mono e h := by cases e; exact h
  sim hr e h := by cases e; exact ⟨_, rfl, hr⟩

omit [Build] in
theorem Sim3.pure {w1 : MWorld σ} (r : Int) (s : α) : Sim3 R w1 (.ok (r, s, w1)) (fun w2 => .ok (r, s, w2)) where
  mono e h := by cases e; exact h
  sim hr e h := by cases e; exact ⟨_, rfl, hr⟩

omit [Build] in
theorem Sim2.error {w1 : MWorld σ} {u} {x2 : MWorld τ → C (Int × MWorld τ)} : Sim2 R w1 (.error u) x2 where
  mono e := by cases e
  sim _ e := by cases e

omit [Build] in
theorem Sim3.error {w1 : MWorld σ} {u} {x2 : MWorld τ → C (Int × α × MWorld τ)} : Sim3 R w1 (.error u) x2 where
  mono e := by cases e
  sim _ e := by cases e

omit [Build] in
theorem Sim3.bind {w1 : MWorld σ} {x1 : C (Int × α × MWorld σ)} {x2 : MWorld τ → C (Int × α × MWorld τ)}
    {k1 : Int × α × MWorld σ → C (Int × β × MWorld σ)} {k2 : Int × α × MWorld τ → C (Int × β × MWorld τ)} (h : Sim3 R w1 x1 x2)
    (hk : ∀ r s w, Sim3 R w (k1 (r, s, w)) (fun w2 => k2 (r, s, w2))) : Sim3 R w1 (x1 >>= k1) (fun w2 => x2 w2 >>= k2) where
  mono := by
    intro r s w' e ho
    rcases x1 with u | ⟨r1, s1, w1'⟩
    · cases e
    · exact h.mono rfl ((hk r1 s1 w1').mono e ho)
  sim := by
    intro r s w' w2 hr e ho
    rcases x1 with u | ⟨r1, s1, w1'⟩
    · cases e
    · obtain ⟨w2', e2, hr2⟩ := h.sim hr rfl ((hk r1 s1 w1').mono e ho)
      obtain ⟨w3, e3, hr3⟩ := (hk r1 s1 w1').sim hr2 e ho
      exact ⟨w3, by simp only [e2]; exact e3, hr3⟩

omit [Build] in
theorem Sim3.bind2 {w1 : MWorld σ} {x1 : C (Int × α × MWorld σ)} {x2 : MWorld τ → C (Int × α × MWorld τ)}
    {k1 : Int × α × MWorld σ → C (Int × MWorld σ)} {k2 : Int × α × MWorld τ → C (Int × MWorld τ)} (h : Sim3 R w1 x1 x2)
    (hk : ∀ r s w, Sim2 R w (k1 (r, s, w)) (fun w2 => k2 (r, s, w2))) : Sim2 R w1 (x1 >>= k1) (fun w2 => x2 w2 >>= k2) where
  mono := by
    intro r w' e ho
    rcases x1 with u | ⟨r1, s1, w1'⟩
    · cases e
    · exact h.mono rfl ((hk r1 s1 w1').mono e ho)
  sim := by
    intro r w' w2 hr e ho
    rcases x1 with u | ⟨r1, s1, w1'⟩
    · cases e
    · obtain ⟨w2', e2, hr2⟩ := h.sim hr rfl ((hk r1 s1 w1').mono e ho)
      obtain ⟨w3, e3, hr3⟩ := (hk r1 s1 w1').sim hr2 e ho
      exact ⟨w3, by simp only [e2]; exact e3, hr3⟩

omit [Build] in
theorem Sim2.bind3 {w1 : MWorld σ} {x1 : C (Int × MWorld σ)} {x2 : MWorld τ → C (Int × MWorld τ)}
    {k1 : Int × MWorld σ → C (Int × β × MWorld σ)} {k2 : Int × MWorld τ → C (Int × β × MWorld τ)} (h : Sim2 R w1 x1 x2)
    (hk : ∀ r w, Sim3 R w (k1 (r, w)) (fun w2 => k2 (r, w2))) : Sim3 R w1 (x1 >>= k1) (fun w2 => x2 w2 >>= k2) where
  mono := by
    intro r s w' e ho
    rcases x1 with u | ⟨r1, w1'⟩
    · cases e
    · exact h.mono rfl ((hk r1 w1').mono e ho)
  sim := by
    intro r s w' w2 hr e ho
    rcases x1 with u | ⟨r1, w1'⟩
    · cases e
    · obtain ⟨w2', e2, hr2⟩ := h.sim hr rfl ((hk r1 w1').mono e ho)
      obtain ⟨w3, e3, hr3⟩ := (hk r1 w1').sim hr2 e ho
      exact ⟨w3, by simp only [e2]; exact e3, hr3⟩

omit [Build] in
theorem Sim2.bind {w1 : MWorld σ} {x1 : C (Int × MWorld σ)} {x2 : MWorld τ → C (Int × MWorld τ)}
    {k1 : Int × MWorld σ → C (Int × MWorld σ)} {k2 : Int × MWorld τ → C (Int × MWorld τ)} (h : Sim2 R w1 x1 x2)
    (hk : ∀ r w, Sim2 R w (k1 (r, w)) (fun w2 => k2 (r, w2))) : Sim2 R w1 (x1 >>= k1) (fun w2 => x2 w2 >>= k2) where
  mono := by
    intro r w' e ho
    rcases x1 with u | ⟨r1, w1'⟩
    · cases e
    · exact h.mono rfl ((hk r1 w1').mono e ho)
  sim := by
    intro r w' w2 hr e ho
    rcases x1 with u | ⟨r1, w1'⟩
    · cases e
    · obtain ⟨w2', e2, hr2⟩ := h.sim hr rfl ((hk r1 w1').mono e ho)
      obtain ⟨w3, e3, hr3⟩ := (hk r1 w1').sim hr2 e ho
      exact ⟨w3, by simp only [e2]; exact e3, hr3⟩

omit [Build] in
theorem Sim2.with3 {w1 : MWorld σ} {p1 : Int × MWorld σ} {p2 : MWorld τ → Int × MWorld τ}
    (h : Sim2 R w1 (.ok p1) (fun w2 => .ok (p2 w2))) (s : α) :
    Sim3 R w1 (.ok (p1.1, s, p1.2)) (fun w2 => .ok ((p2 w2).1, s, (p2 w2).2)) :=
  Sim2.bind3 (k1 := fun x => .ok (x.1, s, x.2)) (k2 := fun x => .ok (x.1, s, x.2)) h fun _ _ => .pure _ _

/-! The callbacks. -/

omit [Build] in
theorem sim_stepSet (hE : EnvSim R E1 E2) (w1 : MWorld σ) (step : Int) :
    Sim2 R w1 (.ok (callStepSet E1 w1 step)) (fun w2 => .ok (callStepSet E2 w2 step)) := by
  rcases hE.set with ⟨h1, h2⟩ | ⟨f, g, h1, h2, hfg⟩
  · simp only [callStepSet, h1, h2]
    exact .pure 0
  · simp only [callStepSet, h1, h2]
    constructor
    · intro r w1' e ho
      cases e
      exact ho.cons.2
    · intro r w1' w2 hr e ho
      cases e
      have h0 : (f w1.arg step).1 = 0 := Decidable.not_not.1 ho.cons.1
      obtain ⟨b', e', hr'⟩ := hfg (step := step) (a' := (f w1.arg step).2) hr.1 (by rw [← h0])
      rw [e', h0]
      exact ⟨_, rfl, hr', by rw [hr.2]⟩

omit [Build] in
theorem sim_completed (hE : EnvSim R E1 E2) (w1 : MWorld σ) (o : Int) :
    Sim3 R w1 (.ok (isStepCompleted E1 o w1)) (fun w2 => .ok (isStepCompleted E2 o w2)) := by
  rcases hE.get with ⟨h1, h2⟩ | ⟨f, g, h1, h2, hfg⟩
  · simp only [isStepCompleted, h1, h2]
    exact .pure 0 _
  · simp only [isStepCompleted, h1, h2]
    constructor
    · intro r s w1' e ho
      split at e <;> (cases e; exact ho.cons.2)
    · intro r s w1' w2 hr e ho
      have h0 : (f w1.arg).1 = 0 := by
        split at e <;> (cases e; exact Decidable.not_not.1 ho.cons.1)
      obtain ⟨b', e', hr'⟩ := hfg (step := (f w1.arg).2.1) (a' := (f w1.arg).2.2) hr.1 (by rw [← h0])
      rw [if_neg (by rw [h0]; simp)] at e
      cases e
      rw [e']
      simp only [ne_eq, not_true, if_false]
      exact ⟨_, rfl, hr', by rw [hr.2, h0]⟩

omit [Build] in
theorem sim_nextStep (hE : EnvSim R E1 E2) (s : InPlace) (w1 : MWorld σ) :
    Sim3 R w1 (.ok (nextStep E1 s w1)) (fun w2 => .ok (nextStep E2 s w2)) := by
  have key : Sim3 R w1 (.ok (let (res, completed, w) := isStepCompleted E1 s.ongoingStep w1
      if res ≠ 0 then (res, s, w)
      else if completed then (0, { s with ongoingStep := s.ongoingStep + 1 }, w)
      else
        let (res, w) := callStepSet E1 w s.ongoingStep
        (res, { s with ongoingStep := s.ongoingStep + 1 }, w)))
      (fun w2 => .ok (let (res, completed, w) := isStepCompleted E2 s.ongoingStep w2
      if res ≠ 0 then (res, s, w)
      else if completed then (0, { s with ongoingStep := s.ongoingStep + 1 }, w)
      else
        let (res, w) := callStepSet E2 w s.ongoingStep
        (res, { s with ongoingStep := s.ongoingStep + 1 }, w))) := by
    refine Sim3.bind (k1 := fun (res, completed, w) => .ok (if res ≠ 0 then (res, s, w)
      else if completed then (0, { s with ongoingStep := s.ongoingStep + 1 }, w)
      else
        let (res, w) := callStepSet E1 w s.ongoingStep
        (res, { s with ongoingStep := s.ongoingStep + 1 }, w)))
      (k2 := fun (res, completed, w) => .ok (if res ≠ 0 then (res, s, w)
      else if completed then (0, { s with ongoingStep := s.ongoingStep + 1 }, w)
      else
        let (res, w) := callStepSet E2 w s.ongoingStep
        (res, { s with ongoingStep := s.ongoingStep + 1 }, w))) (sim_completed hE w1 s.ongoingStep) ?_
    intro r c w
    simp only
    by_cases h : r ≠ 0
    · simp only [if_pos h]; exact .pure _ _
    · simp only [if_neg h]
      cases c with
      | true => exact .pure _ _
      | false =>
        refine Sim2.bind3 (k1 := fun (res, w) => .ok (res, { s with ongoingStep := s.ongoingStep + 1 }, w))
          (k2 := fun (res, w) => .ok (res, { s with ongoingStep := s.ongoingStep + 1 }, w)) (sim_stepSet hE w s.ongoingStep) ?_
        intro r w
        exact .pure _ _
  rcases hE.set with ⟨h1, h2⟩ | ⟨f, g, h1, h2, hfg⟩
  · simp only [nextStep, h1, h2]
    exact .pure _ _
  · simp only [nextStep, h1, h2]
    exact key

omit [Build] in
theorem sim_read (hE : EnvSim R E1 E2) (o : Int) (w1 : MWorld σ) (addr n : Nat) :
    Sim3 R w1 (ipRead E1 o w1 addr n) (fun w2 => ipRead E2 o w2 addr n) := by
  obtain ⟨rd1, wr1, er1, ss1, sg1⟩ := E1
  obtain ⟨rd2, wr2, er2, ss2, sg2⟩ := E2
  unfold ipRead
  refine Sim3.bind (k1 := fun (res, completed, w) => if res ≠ 0 then .ok (res, [], w)
      else if completed then .ok (0, List.replicate n 0, w)
      else
        let (res, data, arg) := rd1 w.arg addr n
        let w := { arg := arg, trace := .read addr n res :: w.trace }
        if res ≠ 0 then .ok (res, [], w)
        else if data.length ≠ n then .error .uninit
        else .ok (0, data, w))
    (k2 := fun (res, completed, w) => if res ≠ 0 then .ok (res, [], w)
      else if completed then .ok (0, List.replicate n 0, w)
      else
        let (res, data, arg) := rd2 w.arg addr n
        let w := { arg := arg, trace := .read addr n res :: w.trace }
        if res ≠ 0 then .ok (res, [], w)
        else if data.length ≠ n then .error .uninit
        else .ok (0, data, w)) (sim_completed hE w1 o) ?_
  intro r c w
  simp only
  by_cases h : r ≠ 0
  · simp only [if_pos h]; exact .pure _ _
  · simp only [if_neg h]
    cases c with
    | true => exact .pure _ _
    | false =>
      simp only [Bool.false_eq_true, if_false]
      constructor
      · intro r s w1' e ho
        split at e
        · cases e; exact ho.cons.2
        · split at e
          · cases e
          · cases e; exact ho.cons.2
      · intro r s w1' w2 hr e ho
        have h0 : 0 ≤ (rd1 w.arg addr n).1 := by
          split at e
          · cases e; exact Int.not_lt.1 ho.cons.1
          · rename_i h; rw [Decidable.not_not.1 h]; decide
        obtain ⟨b', e', hr'⟩ := hE.read (addr := addr) (n := n) (r := (rd1 w.arg addr n).1) (d := (rd1 w.arg addr n).2.1) (a' := (rd1 w.arg addr n).2.2) hr.1 rfl h0
        simp only at e'
        rw [e']
        simp only
        by_cases h1 : (rd1 w.arg addr n).1 ≠ 0
        · rw [if_pos h1] at e ⊢
          cases e
          exact ⟨_, rfl, hr', by rw [hr.2]⟩
        · rw [if_neg h1] at e ⊢
          by_cases hl : (rd1 w.arg addr n).2.1.length ≠ n
          · rw [if_pos hl] at e; cases e
          · rw [if_neg hl] at e ⊢
            cases e
            exact ⟨_, rfl, hr', by rw [hr.2]⟩

omit [Build] in
theorem sim_write (hE : EnvSim R E1 E2) (o : Int) (w1 : MWorld σ) (addr : Nat) (d : Bytes) :
    Sim2 R w1 (.ok (ipWrite E1 o w1 addr d)) (fun w2 => .ok (ipWrite E2 o w2 addr d)) := by
  obtain ⟨rd1, wr1, er1, ss1, sg1⟩ := E1
  obtain ⟨rd2, wr2, er2, ss2, sg2⟩ := E2
  unfold ipWrite
  refine Sim3.bind2 (k1 := fun (res, completed, w) => .ok (if res ≠ 0 then (res, w)
      else if completed then (0, w)
      else
        let (res, arg) := wr1 w.arg addr d
        (res, { arg := arg, trace := .write addr d res :: w.trace })))
    (k2 := fun (res, completed, w) => .ok (if res ≠ 0 then (res, w)
      else if completed then (0, w)
      else
        let (res, arg) := wr2 w.arg addr d
        (res, { arg := arg, trace := .write addr d res :: w.trace }))) (sim_completed hE w1 o) ?_
  intro r c w
  simp only
  by_cases h : r ≠ 0
  · simp only [if_pos h]; exact .pure _
  · simp only [if_neg h]
    cases c with
    | true => exact .pure _
    | false =>
      simp only [Bool.false_eq_true, if_false]
      constructor
      · intro r w1' e ho
        cases e; exact ho.cons.2
      · intro r w1' w2 hr e ho
        cases e
        have h0 : 0 ≤ (wr1 w.arg addr d).1 := Int.not_lt.1 ho.cons.1
        obtain ⟨b', e', hr'⟩ := hE.write (addr := addr) (d := d) (r := (wr1 w.arg addr d).1) (a' := (wr1 w.arg addr d).2) hr.1 rfl h0
        simp only at e'
        rw [e']
        exact ⟨_, rfl, hr', by rw [hr.2]⟩

omit [Build] in
theorem sim_erase (hE : EnvSim R E1 E2) (o : Int) (w1 : MWorld σ) (addr n : Nat) :
    Sim2 R w1 (.ok (ipErase E1 o w1 addr n)) (fun w2 => .ok (ipErase E2 o w2 addr n)) := by
  obtain ⟨rd1, wr1, er1, ss1, sg1⟩ := E1
  obtain ⟨rd2, wr2, er2, ss2, sg2⟩ := E2
  unfold ipErase
  refine Sim3.bind2 (k1 := fun (res, completed, w) => .ok (if res ≠ 0 then (res, w)
      else if completed then (0, w)
      else
        let (res, arg) := er1 w.arg addr n
        (res, { arg := arg, trace := .erase addr n res :: w.trace })))
    (k2 := fun (res, completed, w) => .ok (if res ≠ 0 then (res, w)
      else if completed then (0, w)
      else
        let (res, arg) := er2 w.arg addr n
        (res, { arg := arg, trace := .erase addr n res :: w.trace }))) (sim_completed hE w1 o) ?_
  intro r c w
  simp only
  by_cases h : r ≠ 0
  · simp only [if_pos h]; exact .pure _
  · simp only [if_neg h]
    cases c with
    | true => exact .pure _
    | false =>
      simp only [Bool.false_eq_true, if_false]
      constructor
      · intro r w1' e ho
        cases e; exact ho.cons.2
      · intro r w1' w2 hr e ho
        cases e
        have h0 : 0 ≤ (er1 w.arg addr n).1 := Int.not_lt.1 ho.cons.1
        obtain ⟨b', e', hr'⟩ := hE.erase (addr := addr) (n := n) (r := (er1 w.arg addr n).1) (a' := (er1 w.arg addr n).2) hr.1 rfl h0
        simp only at e'
        rw [e']
        exact ⟨_, rfl, hr', by rw [hr.2]⟩

/-! The steps. -/

omit [Build] in
theorem sim_copyLoop (hE : EnvSim R E1 E2) (o : Int) (seg ra wa : Nat) (fuel : Nat) : ∀ (off : Nat) (w1 : MWorld σ),
    Sim2 R w1 (copyLoop E1 o seg ra wa fuel off w1) (fun w2 => copyLoop E2 o seg ra wa fuel off w2) := by
  induction fuel with
  | zero => intro off w; exact .error
  | succ fuel ih =>
    intro off w
    unfold copyLoop
    by_cases h : off < seg
    · simp only [if_pos h]
      refine Sim3.bind2 (sim_read hE o w _ _) ?_
      intro r d w
      simp only
      by_cases h : r ≠ 0
      · simp only [if_pos h]; exact .pure _
      · simp only [if_neg h]
        refine Sim2.bind (k1 := fun (res, w) => if res ≠ 0 then .ok (res, w)
          else copyLoop E1 o seg ra wa fuel (off + min shiftCap (seg - off)) w)
          (k2 := fun (res, w) => if res ≠ 0 then .ok (res, w)
          else copyLoop E2 o seg ra wa fuel (off + min shiftCap (seg - off)) w) (sim_write hE o w _ d) ?_
        intro r w
        simp only
        by_cases h : r ≠ 0
        · simp only [if_pos h]; exact .pure _
        · simp only [if_neg h]; exact ih _ _
    · simp only [if_neg h]; exact .pure _

omit [Build] in
theorem sim_shiftOne (hE : EnvSim R E1 E2) (s : InPlace) (w1 : MWorld σ) (ra wa : Nat) :
    Sim3 R w1 (shiftOne E1 s w1 ra wa) (fun w2 => shiftOne E2 s w2 ra wa) := by
  unfold shiftOne
  refine Sim2.bind3 (k1 := fun (res, w) => if res ≠ 0 then .ok (res, s, w) else do
      let (res, w) ← copyLoop E1 s.ongoingStep s.segmentSize ra wa (s.segmentSize + 1) 0 w
      if res ≠ 0 then .ok (res, s, w) else .ok (nextStep E1 s w))
    (k2 := fun (res, w) => if res ≠ 0 then .ok (res, s, w) else do
      let (res, w) ← copyLoop E2 s.ongoingStep s.segmentSize ra wa (s.segmentSize + 1) 0 w
      if res ≠ 0 then .ok (res, s, w) else .ok (nextStep E2 s w)) (sim_erase hE _ w1 wa _) ?_
  intro r w
  simp only
  by_cases h : r ≠ 0
  · simp only [if_pos h]; exact .pure _ _
  · simp only [if_neg h]
    refine Sim2.bind3 (sim_copyLoop hE _ _ _ _ _ 0 w) ?_
    intro r w
    simp only
    by_cases h : r ≠ 0
    · simp only [if_pos h]; exact .pure _ _
    · simp only [if_neg h]; exact sim_nextStep hE s w

omit [Build] in
theorem sim_shiftLoop (hE : EnvSim R E1 E2) (n : Nat) : ∀ (s : InPlace) (w1 : MWorld σ) (ra wa : Nat),
    Sim3 R w1 (shiftLoop E1 n s w1 ra wa) (fun w2 => shiftLoop E2 n s w2 ra wa) := by
  induction n with
  | zero => intro s w ra wa; exact .pure _ _
  | succ n ih =>
    intro s w ra wa
    unfold shiftLoop
    refine Sim3.bind (sim_shiftOne hE s w ra wa) ?_
    intro r s w
    simp only
    by_cases h : r ≠ 0
    · simp only [if_pos h]; exact .pure _ _
    · simp only [if_neg h]; exact ih _ _ _ _

omit [Build] in
theorem sim_shift (hE : EnvSim R E1 E2) (s : InPlace) (w1 : MWorld σ) (m f : Nat) :
    Sim3 R w1 (inPlaceShiftMemory E1 s w1 m f) (fun w2 => inPlaceShiftMemory E2 s w2 m f) := by
  unfold inPlaceShiftMemory
  by_cases h : s.segmentSize = 0
  · simp only [if_pos h]; exact .error
  · simp only [if_neg h]; exact sim_shiftLoop hE _ _ _ _ _

theorem sim_init (hE : EnvSim R E1 E2) (s : InPlace) (w1 : MWorld σ) :
    Sim3 R w1 (ipInit E1 s w1) (fun w2 => ipInit E2 s w2) := by
  have size : ∀ next set, Sim3 R w1 (ipInitSize s w1 next set) (fun w2 => ipInitSize s w2 next set) := by
    intro next set
    unfold ipInitSize
    rcases s.headerSize with e | ⟨(_ | _ | _), s'⟩
    · exact .error
    all_goals exact .pure _ _
  unfold ipInit
  cases s.initState <;> simp only
  · unfold ipInitFixedHeader
    rcases s.chunk.get with e | (_ | ⟨b, c⟩)
    · exact .error
    · exact .pure _ _
    · simp only [Bind.bind, Except.bind]
      by_cases h : (b.toNat >>> 4) &&& 0x7 ≠ 1
      · simp only [if_pos h]; exact .pure _ _
      · simp only [if_neg h]; exact .pure _ _
  · exact size _ _
  · exact size _ _
  · exact size _ _
  · exact size _ _
  · unfold ipInitToSize
    rcases s.headerSize with e | ⟨(v | _ | e), s'⟩
    · exact .error
    rotate_left
    · exact .pure _ _
    · exact .pure _ _
    · show Sim3 R w1 (match CReader.init _ _ with | none => _ | some r => _) (fun w2 => match CReader.init _ _ with | none => _ | some r => _)
      cases CReader.init (szOfInt (s'.patchSize - s'.chunk.offset)) s'.compression with
      | none => exact .pure _ _
      | some r =>
        simp only
        by_cases h : v < 0
        · simp only [if_pos h]; exact .pure _ _
        · simp only [if_neg h]
          by_cases h : v > 0
          · simp only [if_pos h]
            refine Sim3.bind (sim_shift hE _ w1 _ _) ?_
            intro r s w
            simp only
            by_cases h : r ≠ 0
            · simp only [if_pos h]; exact .pure _ _
            · simp only [if_neg h]; exact .pure _ _
          · simp only [if_neg h]; exact .pure _ _

omit [Build] in
theorem sim_dataWrite (hE : EnvSim R E1 E2) (s : InPlace) (w1 : MWorld σ) (to : Bytes) :
    Sim3 R w1 (ipDataWrite E1 s w1 to) (fun w2 => ipDataWrite E2 s w2 to) := by
  unfold ipDataWrite
  refine Sim2.bind3 (k1 := fun (res, w) => if res ≠ 0 then .ok (IO_FAILED, s, w)
    else .ok (0, { s with
      toPos := sz (s.toPos + to.length)
      segment := { s.segment with toPos := sz (s.segment.toPos + to.length) }
      chunkSize := szOfInt ((s.chunkSize : Int) - to.length) }, w))
    (k2 := fun (res, w) => if res ≠ 0 then .ok (IO_FAILED, s, w)
    else .ok (0, { s with
      toPos := sz (s.toPos + to.length)
      segment := { s.segment with toPos := sz (s.segment.toPos + to.length) }
      chunkSize := szOfInt ((s.chunkSize : Int) - to.length) }, w)) (sim_write hE _ w1 _ to) ?_
  intro r w
  simp only
  by_cases h : r ≠ 0
  · simp only [if_pos h]; exact .pure _ _
  · simp only [if_neg h]; exact .pure _ _

theorem sim_data (hE : EnvSim R E1 E2) (s : InPlace) (w1 : MWorld σ) (next : SeqPhase) (diff : Bool) :
    Sim3 R w1 (ipData E1 s w1 next diff) (fun w2 => ipData E2 s w2 next diff) := by
  unfold ipData
  simp only
  by_cases h : min dataCap s.chunkSize = 0
  · simp only [if_pos h]; exact .pure _ _
  · simp only [if_neg h]
    rcases s.reader with _ | rd
    · exact .error
    · simp only
      rcases rd.decompress s.chunk dataCap (min dataCap s.chunkSize) with e | ⟨(to | _ | _), r', c'⟩
      · exact .error
      rotate_left
      · exact .pure _ _
      · exact .pure _ _
      · simp only [Bind.bind, Except.bind]
        cases diff with
        | false => simp only [Bool.false_eq_true, if_false]; exact sim_dataWrite hE _ _ _
        | true =>
          simp only [if_true]
          refine Sim3.bind (sim_read hE _ w1 _ _) ?_
          intro r d w
          simp only
          by_cases h : r ≠ 0
          · simp only [if_pos h]; exact .pure _ _
          · simp only [if_neg h]
            by_cases h : (2:Int) ^ 31 ≤ s.segment.fromOffset + to.length
            · simp only [if_pos h]; exact .error
            · simp only [if_neg h]; exact sim_dataWrite hE _ _ _

theorem sim_switch (hE : EnvSim R E1 E2) (s : InPlace) (w1 : MWorld σ) :
    Sim3 R w1 (ipSwitch E1 s w1) (fun w2 => ipSwitch E2 s w2) := by
  have size : ∀ next, Sim3 R w1 (ipSize s w1 next) (fun w2 => ipSize s w2 next) := by
    intro next
    unfold ipSize
    rcases s.unpackSize with e | ⟨(v | _ | _), s'⟩
    · exact .error
    rotate_left
    · exact .pure _ _
    · exact .pure _ _
    · simp only [Bind.bind, Except.bind]
      by_cases h : sizeTooBig s'.toPos s'.toSize v
      · simp only [if_pos h]; exact .pure _ _
      · simp only [if_neg h]; exact .pure _ _
  unfold ipSwitch
  cases s.state <;> simp only
  · exact sim_init hE s w1
  · unfold ipDfpatchSize
    rcases s.unpackSize with e | ⟨(v | _ | _), s'⟩
    · exact .error
    rotate_left
    · exact .pure _ _
    · exact .pure _ _
    · simp only [Bind.bind, Except.bind]
      by_cases h : v > 0
      · simp only [if_pos h]; exact .pure _ _
      · simp only [if_neg h]
        exact (sim_erase hE _ w1 _ _).with3 _
  · exact size _
  · exact sim_data hE _ _ _ _
  · exact size _
  · exact sim_data hE _ _ _ _
  · unfold ipAdjustment
    rcases s.unpackSize with e | ⟨(v | _ | _), s'⟩
    · exact .error
    rotate_left
    · exact .pure _ _
    · exact .pure _ _
    · simp only [Bind.bind, Except.bind]
      by_cases h : s'.toPos = s'.toSize
      · simp only [if_pos h]
        exact (sim_stepSet hE w1 0).with3 _
      · simp only [if_neg h]
        by_cases h : s'.segment.toPos = s'.segment.toSize
        · simp only [if_pos h]
          exact Sim3.bind (k1 := fun (res, s, w) => .ok (res, { s with state := .dfpatchSize }, w))
            (k2 := fun (res, s, w) => .ok (res, { s with state := .dfpatchSize }, w)) (sim_nextStep hE s' w1)
            (fun r s w => .pure _ _)
        · simp only [if_neg h]
          by_cases h : s'.segment.fromOffset + v < -2 ^ 31 ∨ 2 ^ 31 ≤ s'.segment.fromOffset + v
          · simp only [if_pos h]; exact .error
          · simp only [if_neg h]; exact .pure _ _
  · exact .pure _ _
  · exact .pure _ _

theorem sim_once (hE : EnvSim R E1 E2) (s : InPlace) (w1 : MWorld σ) :
    Sim3 R w1 (ipOnce E1 s w1) (fun w2 => ipOnce E2 s w2) := by
  unfold ipOnce
  by_cases h : s.state = .done
  · simp only [if_pos h]; exact .pure _ _
  · simp only [if_neg h]
    refine Sim3.bind (sim_switch hE s w1) ?_
    intro r s w
    simp only
    by_cases h : r < 0
    · simp only [if_pos h]; exact .pure _ _
    · simp only [if_neg h]; exact .pure _ _

theorem sim_processLoop (hE : EnvSim R E1 E2) (fuel : Nat) : ∀ (res : Int) (s : InPlace) (w1 : MWorld σ),
    Sim3 R w1 (ipProcessLoop E1 fuel res s w1) (fun w2 => ipProcessLoop E2 fuel res s w2) := by
  induction fuel with
  | zero => intro _ _ _; exact .error
  | succ fuel ih =>
    intro res s w
    unfold ipProcessLoop
    by_cases h : s.chunk.available = true ∧ res ≥ 0
    · simp only [if_pos h]
      exact Sim3.bind (sim_once hE s w) (fun r s w => ih r s w)
    · simp only [if_neg h]; exact .pure _ _

theorem sim_process (hE : EnvSim R E1 E2) (s : InPlace) (w1 : MWorld σ) (p : Bytes) :
    Sim3 R w1 (inPlaceProcess E1 s w1 p) (fun w2 => inPlaceProcess E2 s w2 p) := by
  unfold inPlaceProcess
  refine Sim3.bind (sim_processLoop hE _ _ _ _) ?_
  intro r s w
  simp only
  by_cases h : r = 1 ∨ r = ALREADY_DONE
  · simp only [if_pos h]; exact .pure _ _
  · simp only [if_neg h]; exact .pure _ _

theorem sim_finalizeLoop (hE : EnvSim R E1 E2) (fuel : Nat) : ∀ (s : InPlace) (w1 : MWorld σ),
    Sim3 R w1 (ipFinalizeLoop E1 fuel s w1) (fun w2 => ipFinalizeLoop E2 fuel s w2) := by
  induction fuel with
  | zero => intro _ _; exact .error
  | succ fuel ih =>
    intro s w
    unfold ipFinalizeLoop
    refine Sim3.bind (sim_once hE s w) ?_
    intro r s w
    simp only
    by_cases h : r = 0
    · simp only [if_pos h]; exact ih _ _
    · simp only [if_neg h]; exact .pure _ _

theorem sim_finalize (hE : EnvSim R E1 E2) (s : InPlace) (w1 : MWorld σ) :
    Sim3 R w1 (inPlaceFinalize E1 s w1) (fun w2 => inPlaceFinalize E2 s w2) := by
  unfold inPlaceFinalize
  refine Sim3.bind (sim_finalizeLoop hE _ _ _) ?_
  intro r s w
  exact .pure _ _

theorem sim_all (hE : EnvSim R E1 E2) : ∀ (ps : List Bytes) (s : InPlace) (w1 : MWorld σ),
    Sim3 R w1 (inPlaceProcessAll E1 s w1 ps) (fun w2 => inPlaceProcessAll E2 s w2 ps) := by
  intro ps
  induction ps with
  | nil => intro s w; exact .pure _ _
  | cons p ps ih =>
    intro s w
    unfold inPlaceProcessAll
    refine Sim3.bind (sim_process hE s w p) ?_
    intro r s w
    simp only
    by_cases h : r ≠ 0
    · simp only [if_pos h]; exact .pure _ _
    · simp only [if_neg h]; exact ih _ _

theorem sim_pieces (hE : EnvSim R E1 E2) (patchSize : Nat) (w1 : MWorld σ) (ps : List Bytes) :
    Sim3 R w1 (inPlacePieces E1 patchSize w1 ps) (fun w2 => inPlacePieces E2 patchSize w2 ps) := by
  unfold inPlacePieces
  refine Sim3.bind (sim_all hE ps _ w1) ?_
  intro r s w
  simp only
  by_cases h : r ≠ 0
  · simp only [if_pos h]; exact .pure _ _
  · simp only [if_neg h]; exact sim_finalize hE _ _

end
end Detools
