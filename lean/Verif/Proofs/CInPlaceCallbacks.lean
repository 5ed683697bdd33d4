import Verif.Spec.Callbacks
import Verif.Proofs.CInPlaceCalls
import Verif.Proofs.CCallbacks
/-
The in-place callback function makes the same calls as a user of the low level API.
-/
namespace Detools

variable [Build]

/-- Attach the part of the user's state only used by `patch_read`. -/
def MWorld.attach (r : ρ) (w : MWorld τ) : MWorld (τ × ρ) := { arg := (w.arg, r), trace := w.trace }

def attachIP (r : ρ) : IPRes τ → IPRes (τ × ρ) := fun (a, s, w) => (a, s, w.attach r)

variable (E : MemEnv τ) (r : ρ)

omit [Build] in
theorem callStepSet_with (w : MWorld τ) (step : Int) :
    callStepSet (E.with ρ) (w.attach r) step = ((callStepSet E w step).1, (callStepSet E w step).2.attach r) := by
  unfold callStepSet
  simp only [MemEnv.with]
  cases E.stepSet <;> rfl

omit [Build] in
theorem isStepCompleted_with (o : Int) (w : MWorld τ) :
    isStepCompleted (E.with ρ) o (w.attach r) =
      ((isStepCompleted E o w).1, (isStepCompleted E o w).2.1, (isStepCompleted E o w).2.2.attach r) := by
  unfold isStepCompleted
  simp only [MemEnv.with]
  cases E.stepGet with
  | none => rfl
  | some f =>
    simp only [Option.map_some]
    have e : (w.attach r).arg.1 = w.arg := rfl
    simp only [e]
    split <;> rfl

omit [Build] in
theorem nextStep_with (s : InPlace) (w : MWorld τ) : nextStep (E.with ρ) s (w.attach r) = attachIP r (nextStep E s w) := by
  unfold nextStep
  cases h : E.stepSet with
  | none =>
    have h' : (E.with ρ).stepSet = none := by simp only [MemEnv.with, h]; rfl
    rw [h']
    rfl
  | some f =>
    have h' : (E.with ρ).stepSet = some (fun g step => ((f g.1 step).1, ((f g.1 step).2, g.2))) := by simp only [MemEnv.with, h]; rfl
    rw [h']
    simp only [isStepCompleted_with, callStepSet_with]
    split
    · rfl
    · split <;> rfl

omit [Build] in
theorem ipRead_with (o : Int) (w : MWorld τ) (addr n : Nat) :
    ipRead (E.with ρ) o (w.attach r) addr n = (ipRead E o w addr n).map (fun (a, d, w) => (a, d, w.attach r)) := by
  unfold ipRead
  simp only [isStepCompleted_with]
  split
  · rfl
  · split
    · rfl
    · have e : ∀ w : MWorld τ, (E.with ρ).memRead (w.attach r).arg addr n =
          ((E.memRead w.arg addr n).1, (E.memRead w.arg addr n).2.1, ((E.memRead w.arg addr n).2.2, r)) := fun _ => rfl
      simp only [e]
      split
      · rfl
      · split <;> rfl

omit [Build] in
theorem ipWrite_with (o : Int) (w : MWorld τ) (addr : Nat) (d : Bytes) :
    ipWrite (E.with ρ) o (w.attach r) addr d = ((ipWrite E o w addr d).1, (ipWrite E o w addr d).2.attach r) := by
  unfold ipWrite
  simp only [isStepCompleted_with]
  split
  · rfl
  · split <;> rfl

omit [Build] in
theorem ipErase_with (o : Int) (w : MWorld τ) (addr n : Nat) :
    ipErase (E.with ρ) o (w.attach r) addr n = ((ipErase E o w addr n).1, (ipErase E o w addr n).2.attach r) := by
  unfold ipErase
  simp only [isStepCompleted_with]
  split
  · rfl
  · split <;> rfl

omit [Build] in
theorem copyLoop_with (o : Int) (seg ra wa : Nat) (fuel : Nat) : ∀ (off : Nat) (w : MWorld τ),
    copyLoop (E.with ρ) o seg ra wa fuel off (w.attach r) =
      (copyLoop E o seg ra wa fuel off w).map (fun (a, w) => (a, w.attach r)) := by
  induction fuel with
  | zero => intro off w; rfl
  | succ fuel ih =>
    intro off w
    unfold copyLoop
    split
    · simp only [ipRead_with]
      rcases ipRead E o w (sz (ra + off)) (min shiftCap (seg - off)) with e | ⟨a, d, w'⟩
      · rfl
      · simp only [Except.map, Bind.bind, Except.bind, ipWrite_with]
        split
        · rfl
        · split
          · rfl
          · exact ih _ _
    · rfl

omit [Build] in
theorem shiftOne_with (s : InPlace) (w : MWorld τ) (ra wa : Nat) :
    shiftOne (E.with ρ) s (w.attach r) ra wa = (shiftOne E s w ra wa).map (attachIP r) := by
  unfold shiftOne
  simp only [ipErase_with, copyLoop_with]
  split
  · rfl
  · rcases copyLoop E s.ongoingStep s.segmentSize ra wa (s.segmentSize + 1) 0 (ipErase E s.ongoingStep w wa s.segmentSize).2 with e | ⟨a, w'⟩
    · rfl
    · simp only [Except.map, Bind.bind, Except.bind, nextStep_with]
      split <;> rfl

omit [Build] in
theorem shiftLoop_with (n : Nat) : ∀ (s : InPlace) (w : MWorld τ) (ra wa : Nat),
    shiftLoop (E.with ρ) n s (w.attach r) ra wa = (shiftLoop E n s w ra wa).map (attachIP r) := by
  induction n with
  | zero => intro s w ra wa; rfl
  | succ n ih =>
    intro s w ra wa
    unfold shiftLoop
    simp only [shiftOne_with]
    rcases shiftOne E s w ra wa with e | ⟨a, s', w'⟩
    · rfl
    · simp only [Except.map, Bind.bind, Except.bind, attachIP]
      split
      · rfl
      · exact ih _ _ _ _

omit [Build] in
theorem inPlaceShiftMemory_with (s : InPlace) (w : MWorld τ) (m f : Nat) :
    inPlaceShiftMemory (E.with ρ) s (w.attach r) m f = (inPlaceShiftMemory E s w m f).map (attachIP r) := by
  unfold inPlaceShiftMemory
  split
  · rfl
  · exact shiftLoop_with E r _ _ _ _ _

theorem ipInit_with (s : InPlace) (w : MWorld τ) :
    ipInit (E.with ρ) s (w.attach r) = (ipInit E s w).map (attachIP r) := by
  have size : ∀ next set, ipInitSize s (w.attach r) next set = (ipInitSize s w next set).map (attachIP r) := by
    intro next set
    unfold ipInitSize
    rcases s.headerSize with e | ⟨(_ | _ | _), s'⟩ <;> rfl
  unfold ipInit
  cases s.initState <;> simp only [size]
  · unfold ipInitFixedHeader
    rcases s.chunk.get with e | (_ | ⟨b, c⟩)
    · rfl
    · rfl
    · simp only [Bind.bind, Except.bind]
      split <;> rfl
  · unfold ipInitToSize
    rcases s.headerSize with e | ⟨(_ | _ | _), s'⟩
    · rfl
    all_goals simp only [Bind.bind, Except.bind]
    all_goals try rfl
    split
    · rfl
    · split
      · rfl
      · split
        · rw [inPlaceShiftMemory_with]
          generalize inPlaceShiftMemory E _ w _ _ = x
          rcases x with e | ⟨a, s2, w2⟩
          · rfl
          · simp only [Except.map, attachIP]
            split <;> rfl
        · rfl

omit [Build] in
theorem ipDataWrite_with (s : InPlace) (w : MWorld τ) (to : Bytes) :
    ipDataWrite (E.with ρ) s (w.attach r) to = (ipDataWrite E s w to).map (attachIP r) := by
  unfold ipDataWrite
  simp only [ipWrite_with]
  split <;> rfl

theorem ipSwitch_with (s : InPlace) (w : MWorld τ) :
    ipSwitch (E.with ρ) s (w.attach r) = (ipSwitch E s w).map (attachIP r) := by
  have size : ∀ next, ipSize s (w.attach r) next = (ipSize s w next).map (attachIP r) := by
    intro next
    unfold ipSize
    rcases s.unpackSize with e | ⟨(_ | _ | _), s'⟩
    all_goals simp only [Bind.bind, Except.bind]
    all_goals try rfl
    split <;> rfl
  have data : ∀ next diff, ipData (E.with ρ) s (w.attach r) next diff = (ipData E s w next diff).map (attachIP r) := by
    intro next diff
    unfold ipData
    simp only
    split
    · rfl
    · rcases s.reader with _ | rd
      · rfl
      · simp only
        rcases rd.decompress s.chunk dataCap (min dataCap s.chunkSize) with e | ⟨(_ | _ | _), c, a⟩
        all_goals simp only [Bind.bind, Except.bind]
        all_goals try rfl
        cases diff with
        | false => simp only [Bool.false_eq_true, if_false]; exact ipDataWrite_with E r _ _ _
        | true =>
          simp only [if_true, ipRead_with]
          rename_i to
          generalize ipRead E s.ongoingStep w _ _ = x
          rcases x with e | ⟨b, d, w'⟩
          · rfl
          · simp only [Except.map]
            split
            · rfl
            · split
              · rfl
              · exact ipDataWrite_with E r _ _ _
  unfold ipSwitch
  cases s.state <;> simp only [size, data]
  · exact ipInit_with E r s w
  · unfold ipDfpatchSize
    rcases s.unpackSize with e | ⟨(_ | _ | _), s'⟩
    all_goals simp only [Bind.bind, Except.bind]
    all_goals try rfl
    split
    · rfl
    · simp only [ipErase_with]
      rfl
  · unfold ipAdjustment
    rcases s.unpackSize with e | ⟨(_ | _ | _), s'⟩
    all_goals simp only [Bind.bind, Except.bind]
    all_goals try rfl
    split
    · simp only [allStepsCompleted, callStepSet_with]
      rfl
    · split
      · simp only [nextStep_with]
        rfl
      · split <;> rfl
  · rfl
  · rfl

theorem ipOnce_with (s : InPlace) (w : MWorld τ) :
    ipOnce (E.with ρ) s (w.attach r) = (ipOnce E s w).map (attachIP r) := by
  unfold ipOnce
  split
  · rfl
  · rw [ipSwitch_with]
    rcases ipSwitch E s w with e | ⟨a, s', w'⟩
    · rfl
    · simp only [Except.map, attachIP, Bind.bind, Except.bind]
      split <;> rfl

theorem ipProcessLoop_with (fuel : Nat) : ∀ (res : Int) (s : InPlace) (w : MWorld τ),
    ipProcessLoop (E.with ρ) fuel res s (w.attach r) = (ipProcessLoop E fuel res s w).map (attachIP r) := by
  induction fuel with
  | zero => intro _ _ _; rfl
  | succ fuel ih =>
    intro res s w
    unfold ipProcessLoop
    split
    · rw [ipOnce_with]
      rcases ipOnce E s w with e | ⟨a, s', w'⟩
      · rfl
      · exact ih a s' w'
    · rfl

theorem inPlaceProcess_with (s : InPlace) (w : MWorld τ) (p : Bytes) :
    inPlaceProcess (E.with ρ) s (w.attach r) p = (inPlaceProcess E s w p).map (attachIP r) := by
  unfold inPlaceProcess
  simp only
  rw [ipProcessLoop_with]
  generalize ipProcessLoop E _ 0 _ w = x
  rcases x with e | ⟨a, s', w'⟩
  · rfl
  · simp only [Except.map, attachIP, Bind.bind, Except.bind]
    split <;> rfl

theorem ipFinalizeLoop_with (fuel : Nat) : ∀ (s : InPlace) (w : MWorld τ),
    ipFinalizeLoop (E.with ρ) fuel s (w.attach r) = (ipFinalizeLoop E fuel s w).map (attachIP r) := by
  induction fuel with
  | zero => intro _ _; rfl
  | succ fuel ih =>
    intro s w
    unfold ipFinalizeLoop
    rw [ipOnce_with]
    rcases ipOnce E s w with e | ⟨a, s', w'⟩
    · rfl
    · simp only [Except.map, attachIP, Bind.bind, Except.bind]
      split
      · exact ih s' w'
      · rfl

theorem inPlaceFinalize_with (s : InPlace) (w : MWorld τ) :
    inPlaceFinalize (E.with ρ) s (w.attach r) = (inPlaceFinalize E s w).map (attachIP r) := by
  unfold inPlaceFinalize
  simp only
  rw [ipFinalizeLoop_with]
  generalize ipFinalizeLoop E _ _ w = x
  rcases x with e | ⟨a, s', w'⟩ <;> rfl

theorem ip_process_failed {E : MemEnv σ} (hE : ∀ res, E.Returns res → res ≤ 0) {s : InPlace} (hs : IPState s) (w : MWorld σ) (p : Bytes) {res s' w'}
    (h : inPlaceProcess E s w p = .ok (res, s', w')) : IPState s' ∧ (res ≠ 0 → s'.state = .failed ∧ res < 0) := by
  by_cases hf : s.state = .failed
  · obtain ⟨s1, e, h1⟩ := ip_failed_process (E := E) hf w p
    rw [e] at h
    cases h
    refine ⟨.inl h1, fun _ => ⟨h1, ?_⟩⟩
    rename_i hne
    cases p with
    | nil => exact absurd rfl hne
    | cons b t => exact afNeg
  · rcases inPlaceProcess_safe (E := E) hs w p with ⟨u, e, _⟩ | ⟨out, e, h1, h2⟩
    · rw [e] at h; cases h
    · rw [e] at h
      cases h
      refine ⟨h2, fun hne => ?_⟩
      cases h1 hf with
      | live a b c d =>
        rcases d with d | ⟨d, k⟩
        · exact absurd d hne
        · have := hE _ k; omega
      | fail a b c =>
        rcases c with ⟨c, _⟩ | ⟨c, _⟩
        · exact ⟨a, c⟩
        · exact absurd c hne

theorem inPlaceCallbacksLoop_with {E : MemEnv τ} (hE : ∀ res, E.Returns res → res ≤ 0) (read : PatchRead ρ) (P : Nat) :
    ∀ (fuel off : Nat) (s : InPlace) (w : MWorld τ) (r : ρ) (rs : Reads) (ps : List Bytes),
    IPState s → off ≤ P → P - off + 2 ≤ fuel → Supplies read r (P - off) ps →
    match inPlaceProcessAll E s w ps with
    | .error u => inPlaceCallbacksLoop (E.with ρ) (patchReadWith τ read) P fuel 0 off s (w.attach r) rs = .error u
    | .ok (res, s', w') => ∃ r' rs', inPlaceCallbacksLoop (E.with ρ) (patchReadWith τ read) P fuel 0 off s (w.attach r) rs = .ok (res, s', w'.attach r', rs') ∧
        IPState s' ∧ (res ≠ 0 → s'.state = .failed) := by
  intro fuel
  induction fuel with
  | zero => intro off s w r rs ps _ _ h; omega
  | succ fuel ih =>
    intro off s w r rs ps hs hoff hfuel hsup
    generalize hn : P - off = n at hsup
    cases hsup with
    | done =>
      unfold inPlaceCallbacksLoop
      rw [if_neg (by omega)]
      exact ⟨r, rs, rfl, hs, fun h => absurd rfl h⟩
    | @part _ _ p r' ps h0 h1 h2 h3 =>
      unfold inPlaceCallbacksLoop inPlaceProcessAll
      rw [if_pos ⟨by omega, rfl⟩]
      have hcap : callbackCap = 512 := rfl
      have e1 : patchReadWith τ read (w.attach r).arg (min n 512) = (0, p, (w.arg, r')) := by
        simp only [patchReadWith, MWorld.attach, h1]
      rw [hn, hcap]
      simp only [e1, if_true]
      rw [if_neg (by rw [h2]; simp)]
      have e2 : ({ w.attach r with arg := (w.arg, r') } : MWorld (τ × ρ)) = w.attach r' := rfl
      rw [e2, inPlaceProcess_with]
      cases hp : inPlaceProcess E s w p with
      | error u => rfl
      | ok x =>
        obtain ⟨res, s1, w1⟩ := x
        obtain ⟨hi, hf⟩ := ip_process_failed hE hs w p hp
        simp only [Except.map, attachIP, Bind.bind, Except.bind]
        by_cases hr : res = 0
        · subst hr
          rw [if_neg (by simp)]
          exact ih (off + min n 512) s1 w1 r' _ ps hi (by omega) (by omega) (by rw [show P - (off + min n 512) = n - min n 512 by omega]; exact h3)
        · rw [if_pos hr]
          obtain ⟨f, rfl⟩ : ∃ f, fuel = f + 1 := ⟨fuel - 1, by omega⟩
          unfold inPlaceCallbacksLoop
          rw [if_neg (by rintro ⟨_, h⟩; exact hr h)]
          exact ⟨r', _, rfl, hi, fun _ => (hf hr).1⟩

end Detools
