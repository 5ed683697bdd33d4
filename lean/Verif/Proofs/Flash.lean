import Verif.Spec.Flash
import Verif.Proofs.MemFile
/-
The callbacks of the C in-place update on a memory that may lose power, and the
condition of the memory from which an update can be completed.
-/
namespace Detools

variable [Build]

omit [Build] in
theorem Power.bytes_length (P : Power) (op : Nat) {mem : Bytes} {addr n : Nat} (h : addr + n ≤ mem.length) :
    (P.bytes op ((mem.drop addr).take n)).length = n := by
  simp [Power.bytes]; omega

/-- The sizes of an update. `D` is the first `nS * S` bytes of the memory before the
update, `frc` the from-data that survives the shift. -/
structure Geo where
  M : Nat
  S : Nat
  H : Nat
  F : Nat
  D : Bytes
  frc : Bytes
  to : Bytes

/-- The number of segments shifted. -/
def Geo.nS (G : Geo) : Nat := (min G.F (G.M - G.H) + G.S - 1) / G.S
/-- The number of segments rebuilt. -/
def Geo.nT (G : Geo) : Nat := (G.to.length + G.S - 1) / G.S
/-- The number of steps. -/
def Geo.n (G : Geo) : Nat := G.nS + G.nT

structure Geo.Ok (G : Geo) : Prop where
  seg : 0 < G.S
  shift : G.S ≤ G.H
  fit : G.nS * G.S + G.H ≤ G.M
  len : G.D.length = G.nS * G.S
  pre : G.frc <+: G.D
  toM : G.to.length ≤ G.M
  toPos : 0 < G.to.length
  small : G.M < 2 ^ 27
  fsmall : G.F < 2 ^ 27

/-- An update with `k` completed steps can be completed from this memory. -/
structure Ready (G : Geo) (k : Nat) (m : Bytes) : Prop where
  len : m.length = G.M
  src : k < G.nS → Holds m 0 (G.D.take ((G.nS - k) * G.S))
  dst : k < G.nS → Holds m (G.H + (G.nS - k) * G.S) (G.D.drop ((G.nS - k) * G.S))
  low : G.nS ≤ k → Holds m 0 (G.to.take ((k - G.nS) * G.S))
  high : G.nS ≤ k → Holds m (max (G.S * (k - G.nS + 1)) G.H) (G.frc.drop (G.S * (k - G.nS + 1) - G.H))

/-- All steps passed to `step_set` by an update that starts with `k` steps done. -/
def stepList (k n : Nat) : List Int := (List.range' (k + 1) (n - 1 - k)).map Int.ofNat ++ [0]

structure TraceOk (M : Nat) (sets : List Int) (trace : List MEv) : Prop where
  inside : ∀ ev ∈ trace, ev.Inside M
  sets : stepsSet trace = sets

/-- The device in an update: `k0` steps were done when it started, `o` steps are done
or skipped now. -/
structure Live (G : Geo) (P : Power) (steps : Bool) (k0 o : Nat) (w : MWorld Flash) : Prop where
  alive : P.lost w.arg = false
  mem : Ready G (max k0 o) w.arg.mem
  step : steps = true → w.arg.step = (max k0 o : Nat)
  trace : TraceOk G.M (if steps then (stepList k0 G.n).take (o - k0) else []) w.trace
  first : steps = false → k0 = 0
  lt : max k0 o < G.n

/-- The update is complete. -/
structure Finished (G : Geo) (steps : Bool) (k0 : Nat) (w : MWorld Flash) : Prop where
  len : w.arg.mem.length = G.M
  mem : G.to <+: w.arg.mem
  step : steps = true → 0 < G.to.length → w.arg.step = 0
  trace : TraceOk G.M (if steps = true ∧ 0 < G.to.length then stepList k0 G.n else []) w.trace

/-- The device after the power was lost. -/
structure Dead (G : Geo) (P : Power) (steps : Bool) (k0 : Nat) (w : MWorld Flash) : Prop where
  lost : P.lost w.arg = true
  inside : ∀ ev ∈ w.trace, ev.Inside G.M
  sets : stepsSet w.trace <+: if steps then stepList k0 G.n else []
  state : steps = true → (∃ k, k < G.n ∧ k0 ≤ k ∧ Ready G k w.arg.mem ∧ w.arg.step = (k : Nat)) ∨
    (w.arg.mem.length = G.M ∧ G.to <+: w.arg.mem ∧ w.arg.step = 0 ∧ stepsSet w.trace = stepList k0 G.n)
  fin : (0 : Int) ∈ stepsSet w.trace → G.to <+: w.arg.mem

omit [Build] in
theorem stepList_length (k n : Nat) : (stepList k n).length = n - 1 - k + 1 := by
  simp [stepList]

omit [Build] in
theorem stepList_get {k n i : Nat} (h : i < n - 1 - k) : (stepList k n)[i]? = some ((k + 1 + i : Nat) : Int) := by
  unfold stepList
  rw [List.getElem?_append_left (by simpa using h)]
  simp [h]

omit [Build] in
theorem stepList_pos {k n m : Nat} (h : m ≤ n - 1 - k) : ¬ (0 : Int) ∈ (stepList k n).take m := by
  unfold stepList
  rw [List.take_append_of_le_length (by simp; omega)]
  intro h0
  have h1 := List.mem_of_mem_take h0
  simp only [List.mem_map, List.mem_range'_1] at h1
  obtain ⟨a, h1, h2⟩ := h1
  have : a = 0 := by simpa using h2
  omega

omit [Build] in
theorem stepsSet_cons (ev : MEv) (t : List MEv) : stepsSet (ev :: t) = stepsSet t ++
    (match ev with | .stepSet s _ => [s] | _ => []) := by
  unfold stepsSet
  rw [List.reverse_cons, List.filterMap_append]
  cases ev <;> rfl

omit [Build] in
theorem TraceOk.add {M : Nat} {sets : List Int} {t : List MEv} (h : TraceOk M sets t) {ev : MEv} (hi : ev.Inside M)
    (hs : ∀ s r, ev ≠ .stepSet s r) : TraceOk M sets (ev :: t) where
  inside e he := by
    rcases List.mem_cons.1 he with rfl | he
    · exact hi
    · exact h.inside e he
  sets := by
    rw [stepsSet_cons, h.sets]
    cases ev with
    | stepSet s r => exact absurd rfl (hs s r)
    | _ => simp

omit [Build] in
theorem TraceOk.set {M : Nat} {sets : List Int} {t : List MEv} (h : TraceOk M sets t) (s r : Int) :
    TraceOk M (sets ++ [s]) (.stepSet s r :: t) where
  inside e he := by
    rcases List.mem_cons.1 he with rfl | he
    · trivial
    · exact h.inside e he
  sets := by rw [stepsSet_cons, h.sets]

section
variable {G : Geo} {P : Power} {steps : Bool} {k0 o : Nat} {w : MWorld Flash}

omit [Build] in
theorem lost_succ {f f' : Flash} (h : P.lost f = false) (hl : P.limit ≠ some f.ops) (ho : f'.ops = f.ops + 1) : P.lost f' = false := by
  unfold Power.lost at *
  cases hL : P.limit with
  | none => rfl
  | some n =>
    rw [hL] at h hl
    simp only [decide_eq_false_iff_not, ne_eq, Option.some.injEq] at h hl ⊢
    omega

omit [Build] in
theorem lost_cut {f f' : Flash} (hl : P.limit = some f.ops) (ho : f'.ops = f.ops + 1) : P.lost f' = true := by
  unfold Power.lost
  rw [hl]
  simp only [decide_eq_true_eq]
  omega

omit [Build] in
/-- Asking whether a step is done. -/
theorem live_completed (h : Live G P steps k0 o w) :
    ∃ w', isStepCompleted (flashEnv P steps) (o + 1 : Nat) w = (0, decide (o < k0), w') ∧ w'.arg = w.arg ∧
      Live G P steps k0 o w' := by
  cases steps with
  | false =>
    refine ⟨w, ?_, rfl, h⟩
    have := h.first rfl
    have : decide (o < k0) = false := by simp; omega
    rw [this]
    rfl
  | true =>
    refine ⟨{ arg := w.arg, trace := .stepGet w.arg.step 0 :: w.trace }, ?_, rfl, ?_⟩
    · simp only [isStepCompleted, flashEnv, if_true, flashStepGet, h.alive]
      have hst := h.step rfl
      have : decide (((o + 1 : Nat) : Int) ≤ w.arg.step) = decide (o < k0) := by
        rw [hst]
        congr 1
        apply propext
        omega
      simp only [this, ne_eq, not_true, if_false, Bool.false_eq_true]
    · exact ⟨h.alive, h.mem, h.step, h.trace.add trivial (by simp), h.first, h.lt⟩

omit [Build] in
/-- A live device with another memory. -/
theorem Live.withMem (h : Live G P steps k0 o w) {w' : MWorld Flash} (ha : P.lost w'.arg = false) (hm : Ready G (max k0 o) w'.arg.mem)
    (hs : w'.arg.step = w.arg.step) (ht : TraceOk G.M (if steps then (stepList k0 G.n).take (o - k0) else []) w'.trace) :
    Live G P steps k0 o w' :=
  ⟨ha, hm, fun h' => by rw [hs, h.step h'], ht, h.first, h.lt⟩

omit [Build] in
theorem Live.dead (h : Live G P steps k0 o w) {w' : MWorld Flash} (ha : P.lost w'.arg = true) (hm : Ready G (max k0 o) w'.arg.mem)
    (hs : w'.arg.step = w.arg.step) (ht : TraceOk G.M (if steps then (stepList k0 G.n).take (o - k0) else []) w'.trace) :
    Dead G P steps k0 w' where
  lost := ha
  inside := ht.inside
  sets := by
    rw [ht.sets]
    cases steps with
    | false => exact List.prefix_rfl
    | true => exact List.take_prefix _ _
  state h' := .inl ⟨max k0 o, h.lt, by omega, hm, by rw [hs, h.step h']⟩
  fin h0 := by
    rw [ht.sets] at h0
    cases steps with
    | false => cases h0
    | true => exact absurd h0 (stepList_pos (by have := h.lt; omega))

omit [Build] in
theorem live_erase (h : Live G P steps k0 o w) (ho : k0 ≤ o) {addr n : Nat} (hin : addr + n ≤ G.M)
    (hsafe : ∀ d : Bytes, d.length = n → Ready G o (fileWrite w.arg.mem addr d)) :
    ∃ w', (ipErase (flashEnv P steps) (o + 1 : Nat) w addr n = (0, w') ∧ Live G P steps k0 o w' ∧
        ∃ d : Bytes, d.length = n ∧ w'.arg.mem = fileWrite w.arg.mem addr d) ∨
      (ipErase (flashEnv P steps) (o + 1 : Nat) w addr n = (-1, w') ∧ Dead G P steps k0 w') := by
  obtain ⟨w1, e1, a1, h1⟩ := live_completed h
  have hmax : max k0 o = o := by omega
  have hd : decide (o < k0) = false := by simp; omega
  have hlen := h1.mem.len
  unfold ipErase
  rw [e1, hd]
  simp only [ne_eq, not_true, if_false, Bool.false_eq_true]
  have hlost := h1.alive
  have hE : flashErase P w1.arg addr n = (if P.limit = some w1.arg.ops then -1 else 0,
      { w1.arg with mem := fileWrite w1.arg.mem addr (P.bytes w1.arg.ops ((w1.arg.mem.drop addr).take n)), ops := w1.arg.ops + 1 }) := by
    unfold flashErase
    rw [if_neg (by rw [hlost, hlen]; simp; omega)]
  have hrec : Ready G (max k0 o) (fileWrite w1.arg.mem addr (P.bytes w1.arg.ops ((w1.arg.mem.drop addr).take n))) := by
    rw [hmax, a1]; exact hsafe _ (P.bytes_length _ (by rw [a1] at hlen; omega))
  show ∃ w', ((let (res, arg) := flashErase P w1.arg addr n; (res, ({ arg := arg, trace := .erase addr n res :: w1.trace } : MWorld Flash))) = (0, w') ∧ _) ∨ _
  simp only [flashEnv, hE]
  by_cases hl : P.limit = some w1.arg.ops
  · simp only [hl, if_true]
    refine ⟨_, .inr ⟨rfl, h1.dead (lost_cut hl rfl) hrec rfl ?_⟩⟩
    exact h1.trace.add hin (by simp)
  · simp only [hl, if_false]
    refine ⟨_, .inl ⟨rfl, h1.withMem (lost_succ hlost hl rfl) hrec rfl (h1.trace.add hin (by simp)), ?_⟩⟩
    exact ⟨_, P.bytes_length _ (by rw [hlen]; exact hin), by rw [← a1]⟩

omit [Build] in
theorem live_write (h : Live G P steps k0 o w) (ho : k0 ≤ o) {addr : Nat} {data : Bytes} (hin : addr + data.length ≤ G.M)
    (hsafe : ∀ d : Bytes, d.length = data.length → Ready G o (fileWrite w.arg.mem addr d)) :
    ∃ w', (ipWrite (flashEnv P steps) (o + 1 : Nat) w addr data = (0, w') ∧ Live G P steps k0 o w' ∧
        w'.arg.mem = fileWrite w.arg.mem addr data) ∨
      (ipWrite (flashEnv P steps) (o + 1 : Nat) w addr data = (-1, w') ∧ Dead G P steps k0 w') := by
  obtain ⟨w1, e1, a1, h1⟩ := live_completed h
  have hmax : max k0 o = o := by omega
  have hd : decide (o < k0) = false := by simp; omega
  have hlen := h1.mem.len
  unfold ipWrite
  rw [e1, hd]
  simp only [ne_eq, not_true, if_false, Bool.false_eq_true]
  have hlost := h1.alive
  have hE : flashWrite P w1.arg addr data = if P.limit = some w1.arg.ops then
      (-1, { w1.arg with mem := fileWrite w1.arg.mem addr (P.bytes w1.arg.ops ((w1.arg.mem.drop addr).take data.length)), ops := w1.arg.ops + 1 })
      else (0, { w1.arg with mem := fileWrite w1.arg.mem addr data, ops := w1.arg.ops + 1 }) := by
    unfold flashWrite
    rw [if_neg (by rw [hlost, hlen]; simp; omega)]
  simp only [flashEnv, hE]
  by_cases hl : P.limit = some w1.arg.ops
  · simp only [hl, if_true]
    refine ⟨_, .inr ⟨rfl, h1.dead (lost_cut hl rfl) ?_ rfl ?_⟩⟩
    · rw [hmax, a1]; exact hsafe _ (P.bytes_length _ (by rw [a1] at hlen; omega))
    · exact h1.trace.add hin (by simp)
  · simp only [hl, if_false]
    refine ⟨_, .inl ⟨rfl, h1.withMem (lost_succ hlost hl rfl) ?_ rfl (h1.trace.add hin (by simp)), by rw [← a1]⟩⟩
    rw [hmax, a1]; exact hsafe _ rfl

omit [Build] in
theorem live_read (h : Live G P steps k0 o w) (ho : k0 ≤ o) {addr n : Nat} (hin : addr + n ≤ G.M) :
    ∃ w', ipRead (flashEnv P steps) (o + 1 : Nat) w addr n = .ok (0, (w.arg.mem.drop addr).take n, w') ∧
      Live G P steps k0 o w' ∧ w'.arg = w.arg := by
  obtain ⟨w1, e1, a1, h1⟩ := live_completed h
  have hd : decide (o < k0) = false := by simp; omega
  have hlen := h1.mem.len
  have hlost := h1.alive
  unfold ipRead
  rw [e1, hd]
  simp only [ne_eq, not_true, if_false, Bool.false_eq_true]
  have hE : flashRead P w1.arg addr n = (0, (w1.arg.mem.drop addr).take n, w1.arg) := by
    unfold flashRead
    rw [if_neg (by rw [hlost, hlen]; simp; omega)]
  have hl : ((w1.arg.mem.drop addr).take n).length = n := by simp; omega
  simp only [flashEnv, hE, hl, not_true, if_false]
  refine ⟨{ arg := w1.arg, trace := .read addr n 0 :: w1.trace }, by rw [a1], h1.withMem hlost h1.mem rfl (h1.trace.add hin (by simp)), a1⟩

omit [Build] in
theorem skip_erase (h : Live G P steps k0 o w) (ho : o < k0) (addr n : Nat) :
    ∃ w', ipErase (flashEnv P steps) (o + 1 : Nat) w addr n = (0, w') ∧ Live G P steps k0 o w' ∧ w'.arg = w.arg := by
  obtain ⟨w1, e1, a1, h1⟩ := live_completed h
  refine ⟨w1, ?_, h1, a1⟩
  unfold ipErase
  rw [e1, decide_eq_true ho]
  simp

omit [Build] in
theorem skip_write (h : Live G P steps k0 o w) (ho : o < k0) (addr : Nat) (data : Bytes) :
    ∃ w', ipWrite (flashEnv P steps) (o + 1 : Nat) w addr data = (0, w') ∧ Live G P steps k0 o w' ∧ w'.arg = w.arg := by
  obtain ⟨w1, e1, a1, h1⟩ := live_completed h
  refine ⟨w1, ?_, h1, a1⟩
  unfold ipWrite
  rw [e1, decide_eq_true ho]
  simp

omit [Build] in
theorem skip_read (h : Live G P steps k0 o w) (ho : o < k0) (addr n : Nat) :
    ∃ w', ipRead (flashEnv P steps) (o + 1 : Nat) w addr n = .ok (0, List.replicate n 0, w') ∧
      Live G P steps k0 o w' ∧ w'.arg = w.arg := by
  obtain ⟨w1, e1, a1, h1⟩ := live_completed h
  refine ⟨w1, ?_, h1, a1⟩
  unfold ipRead
  rw [e1, decide_eq_true ho]
  simp

omit [Build] in
theorem stepList_take (hk : k0 ≤ o) (hn : o + 1 < G.n) :
    (stepList k0 G.n).take (o + 1 - k0) = (stepList k0 G.n).take (o - k0) ++ [((o + 1 : Nat) : Int)] := by
  rw [show o + 1 - k0 = (o - k0) + 1 by omega, List.take_add_one, stepList_get (by omega)]
  simp only [Option.toList_some]
  congr 3; omega

omit [Build] in
/-- A step is done. -/
theorem live_next {s : InPlace} (h : Live G P steps k0 o w) (hs : s.ongoingStep = (o + 1 : Nat)) (hn : o + 1 < G.n)
    (hrec : k0 ≤ o → Ready G (o + 1) w.arg.mem) :
    ∃ w', (nextStep (flashEnv P steps) s w = (0, { s with ongoingStep := (o + 2 : Nat) }, w') ∧ Live G P steps k0 (o + 1) w' ∧
        w'.arg.mem = w.arg.mem) ∨
      (nextStep (flashEnv P steps) s w = (STEP_SET_FAILED, { s with ongoingStep := (o + 2 : Nat) }, w') ∧ Dead G P steps k0 w') := by
  have hss : s.ongoingStep + 1 = (o + 2 : Nat) := by omega
  cases hst : steps with
  | false =>
    subst hst
    have hk := h.first rfl
    refine ⟨w, .inl ⟨by simp [nextStep, flashEnv, hss], ?_, rfl⟩⟩
    refine ⟨h.alive, ?_, by simp, h.trace, h.first, by omega⟩
    rw [show max k0 (o + 1) = o + 1 by omega]
    exact hrec (by omega)
  | true =>
    obtain ⟨w1, e1, a1, h1⟩ := live_completed h
    rw [hst] at e1 h1
    unfold nextStep
    simp only [flashEnv, if_true] at e1 ⊢
    rw [hs, e1]
    simp only [ne_eq, not_true, if_false]
    by_cases ho : o < k0
    · simp only [ho, decide_true, if_true]
      refine ⟨w1, .inl ⟨by rw [← hss, hs], ?_, by rw [a1]⟩⟩
      have hm : max k0 (o + 1) = max k0 o := by omega
      refine ⟨h1.alive, by rw [hm]; exact h1.mem, by rw [hm]; exact h1.step, ?_, h1.first, by rw [hm]; exact h1.lt⟩
      have := h1.trace
      rw [show o - k0 = 0 by omega] at this
      rw [show o + 1 - k0 = 0 by omega]
      exact this
    · have hrec := hrec (by omega)
      have hm : max k0 (o + 1) = o + 1 := by omega
      have hlost := h1.alive
      have htr := h1.trace.set ((o + 1 : Nat) : Int)
      simp only [if_true] at htr
      rw [← stepList_take (by omega) hn] at htr
      have hd : decide (o < k0) = false := by simp; omega
      rw [hd]
      simp only [Bool.false_eq_true, if_false, callStepSet, flashStepSet, hlost]
      by_cases hl : P.limit = some w1.arg.ops
      · simp only [hl, if_true]
        refine ⟨_, .inr ⟨by rw [← hss, hs]; rfl, ?_⟩⟩
        refine ⟨lost_cut hl rfl, (htr _).inside, ?_, fun _ => .inl ?_, fun h0 => ?_⟩
        rotate_left 2
        · rw [(htr _).sets] at h0
          exact absurd h0 (stepList_pos (by omega))
        · rw [(htr _).sets]; exact List.take_prefix _ _
        · simp only
          by_cases hj : P.junk w1.arg.ops 0 0 = 0
          · rw [if_pos hj]
            exact ⟨max k0 o, h1.lt, by omega, h1.mem, h1.step rfl⟩
          · rw [if_neg hj]
            exact ⟨o + 1, hn, by omega, by rw [a1]; exact hrec, rfl⟩
      · simp only [hl, if_false]
        refine ⟨_, .inl ⟨by rw [← hss, hs]; rfl, ?_, by rw [← a1]⟩⟩
        refine ⟨lost_succ hlost hl rfl, ?_, ?_, htr _, by simp, by rw [hm]; exact hn⟩
        · rw [hm]; simp only; rw [a1]; exact hrec
        · rw [hm]; intro _; rfl

omit [Build] in
theorem stepList_all (hk : k0 ≤ o) (hn : o + 1 = G.n) :
    (stepList k0 G.n).take (o - k0) ++ [0] = stepList k0 G.n := by
  unfold stepList
  rw [List.take_append_of_le_length (by simp; omega), List.take_of_length_le (by simp; omega)]

omit [Build] in
/-- All steps are done. -/
theorem live_all (h : Live G P steps k0 o w) (ho : k0 ≤ o) (hn : o + 1 = G.n) (hto : G.to <+: w.arg.mem) (hpos : 0 < G.to.length) :
    ∃ w', (allStepsCompleted (flashEnv P steps) w = (0, w') ∧ Finished G steps k0 w') ∨
      (allStepsCompleted (flashEnv P steps) w = (STEP_SET_FAILED, w') ∧ Dead G P steps k0 w') := by
  cases hst : steps with
  | false =>
    subst hst
    exact ⟨w, .inl ⟨rfl, h.mem.len, hto, by simp, by simpa using h.trace⟩⟩
  | true =>
    subst hst
    have hlost := h.alive
    have htr := h.trace.set 0
    simp only [if_true] at htr
    rw [stepList_all ho hn] at htr
    simp only [allStepsCompleted, callStepSet, flashEnv, if_true, flashStepSet, hlost, Bool.false_eq_true, if_false]
    by_cases hl : P.limit = some w.arg.ops
    · simp only [hl, if_true]
      refine ⟨_, .inr ⟨rfl, ?_⟩⟩
      refine ⟨lost_cut hl rfl, (htr _).inside, ?_, fun _ => ?_, fun _ => hto⟩
      · rw [(htr _).sets]; exact List.prefix_rfl
      · simp only
        by_cases hj : P.junk w.arg.ops 0 0 = 0
        · rw [if_pos hj]
          exact .inl ⟨max k0 o, h.lt, by omega, h.mem, h.step rfl⟩
        · rw [if_neg hj]
          exact .inr ⟨h.mem.len, hto, rfl, (htr _).sets⟩
    · simp only [hl, if_false]
      exact ⟨_, .inl ⟨rfl, h.mem.len, hto, fun _ _ => rfl, by rw [if_pos ⟨rfl, hpos⟩]; exact htr _⟩⟩

end

end Detools
