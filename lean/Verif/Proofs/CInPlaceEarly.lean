import Verif.Proofs.CInPlaceCreated
/-
Finalize before the whole patch was processed, or after process failed.
-/
namespace Detools

variable [Build]

theorem ipOnce_negative {E : MemEnv σ} {s s' : InPlace} {w w' : MWorld σ} {e : Int} (h : ipOnce E s w = .ok (e, s', w')) (he : e < 0) :
    e = ALREADY_DONE ∨ s'.state = .failed := by
  unfold ipOnce at h
  by_cases hd : s.state = .done
  · rw [if_pos hd] at h
    injection h with h; injection h with h _
    exact .inl h.symm
  · rw [if_neg hd] at h
    cases hs : ipSwitch E s w with
    | error u => rw [hs] at h; cases h
    | ok r =>
      obtain ⟨e1, s1, w1⟩ := r
      rw [hs] at h
      simp only [Bind.bind, Except.bind] at h
      by_cases hn : e1 < 0
      · rw [if_pos hn] at h
        injection h with h; injection h with _ h; injection h with h _
        right; rw [← h]
      · rw [if_neg hn] at h
        injection h with h; injection h with h _
        omega

theorem ipLoop_negative {E : MemEnv σ} : ∀ (fuel : Nat) {res : Int} {s s' : InPlace} {w w' : MWorld σ} {e : Int},
    (res < 0 → res = ALREADY_DONE ∨ s.state = .failed) → ipProcessLoop E fuel res s w = .ok (e, s', w') → e < 0 →
    e = ALREADY_DONE ∨ s'.state = .failed := by
  intro fuel
  induction fuel with
  | zero => intro res s s' w w' e _ h; cases h
  | succ fuel ih =>
    intro res s s' w w' e h1 h he
    unfold ipProcessLoop at h
    by_cases hc : s.chunk.available ∧ res ≥ 0
    · rw [if_pos hc] at h
      cases hs : ipOnce E s w with
      | error u => rw [hs] at h; cases h
      | ok r =>
        obtain ⟨e1, s1, w1⟩ := r
        rw [hs] at h
        exact ih (fun hn => ipOnce_negative hs hn) h he
    · rw [if_neg hc] at h
      injection h with h; injection h with h h'; injection h' with h' _
      subst h h'
      exact h1 he

/-- Process that fails leaves the object in the failed state. -/
theorem process_negative {E : MemEnv σ} {s s' : InPlace} {w w' : MWorld σ} {p : Bytes} {e : Int}
    (h : inPlaceProcess E s w p = .ok (e, s', w')) (he : e < 0) : s'.state = .failed := by
  unfold inPlaceProcess at h
  simp only [Bind.bind, Except.bind] at h
  split at h
  · cases h
  next v hv =>
    obtain ⟨e1, s1, w1⟩ := v
    simp only [] at h
    by_cases hc : e1 = 1 ∨ e1 = ALREADY_DONE
    · rw [if_pos hc] at h
      injection h with h; injection h with h _
      omega
    · rw [if_neg hc] at h
      injection h with h; injection h with h h'; injection h' with h' _
      subst h h'
      rcases ipLoop_negative _ (fun h => absurd h (by decide)) hv he with h | h
      · exact absurd (.inr h) hc
      · exact h

theorem processAll_negative {E : MemEnv σ} : ∀ (ps : List Bytes) {s s' : InPlace} {w w' : MWorld σ} {e : Int},
    inPlaceProcessAll E s w ps = .ok (e, s', w') → e < 0 → s'.state = .failed := by
  intro ps
  induction ps with
  | nil =>
    intro s s' w w' e h he
    unfold inPlaceProcessAll at h
    injection h with h; injection h with h _
    omega
  | cons p ps ih =>
    intro s s' w w' e h he
    unfold inPlaceProcessAll at h
    cases hs : inPlaceProcess E s w p with
    | error u => rw [hs] at h; cases h
    | ok r =>
      obtain ⟨e1, s1, w1⟩ := r
      rw [hs] at h
      simp only [Bind.bind, Except.bind] at h
      by_cases hc : e1 ≠ 0
      · rw [if_pos hc] at h
        injection h with h; injection h with h h'; injection h' with h' _
        subst h h'
        exact process_negative hs he
      · rw [if_neg hc] at h
        exact ih h he

theorem cf_more (r : Option CReader) (t : Nat) : commonFinalize 1 r t = NOT_ENOUGH_PATCH_DATA := by
  cases r <;> rfl

/-- Finalize of a failed object: no callback. -/
theorem finalize_failed_world {E : MemEnv σ} {s : InPlace} {w : MWorld σ} (h : s.state = .failed) :
    ∃ s', inPlaceFinalize E s w = .ok (ALREADY_FAILED, s', w) := by
  unfold inPlaceFinalize
  simp only []
  obtain ⟨f, hf⟩ := fuel_succ { s with chunk := { buf := [], offset := 0 } }
  rw [hf]
  unfold ipFinalizeLoop ipOnce ipSwitch
  simp only [h]
  refine ⟨{ s with chunk := { buf := [], offset := 0 }, state := .failed }, ?_⟩
  cases hr : s.reader <;> rfl

/-- Finalize before the header is complete: no callback. -/
theorem finalize_header_world {E : MemEnv σ} {s : InPlace} {w : MWorld σ} (h : s.state = .init) :
    ∃ e s', inPlaceFinalize E s w = .ok (e, s', w) ∧ e < 0 := by
  have hs : ∀ s : InPlace, s.chunk = { buf := [], offset := 0 } → s.headerSize = .ok (.more, s) := by
    intro s hc
    unfold InPlace.headerSize
    rw [hc]
    cases s
    simp only at hc
    subst hc
    rfl
  unfold inPlaceFinalize
  simp only []
  obtain ⟨f, hf⟩ := fuel_succ { s with chunk := { buf := [], offset := 0 } }
  rw [hf]
  generalize hq : ({ s with chunk := { buf := [], offset := 0 } } : InPlace) = q
  have hqs : q.state = .init := by rw [← hq]; exact h
  have hqc : q.chunk = { buf := [], offset := 0 } := by rw [← hq]
  have hq' : ∃ e q', ipOnce E q w = .ok (e, q', w) ∧ (e = 1 ∨ e = SHORT_HEADER) := by
    unfold ipOnce ipSwitch
    rw [if_neg (by rw [hqs]; decide), hqs]
    simp only []
    unfold ipInit
    cases q.initState
    · unfold ipInitFixedHeader
      rw [hqc]
      exact ⟨_, _, rfl, .inr rfl⟩
    all_goals
      simp only []
      first
        | (unfold ipInitSize; rw [hs q hqc]; exact ⟨_, _, rfl, .inl rfl⟩)
        | (unfold ipInitToSize; rw [hs q hqc]; exact ⟨_, _, rfl, .inl rfl⟩)
  obtain ⟨e, q', e1, e2⟩ := hq'
  have he : e ≠ 0 := by rcases e2 with rfl | rfl <;> decide
  unfold ipFinalizeLoop
  rw [e1]
  simp only [Bind.bind, Except.bind]
  rw [if_neg he]
  refine ⟨_, _, rfl, ?_⟩
  rcases e2 with rfl | rfl
  · rw [cf_more]; decide
  · have : commonFinalize SHORT_HEADER q'.reader q'.toSize < 0 := by
      rw [cf_err (by decide) (by decide)]; decide
    exact this

variable {G : Geo} {P : Power} {steps : Bool} {k0 : Nat} {V : HV}

/-- The loop of finalize if there is more to come. -/
theorem final_early {opss : List (List Op)} (hP : IPPatch G V opss) (later : Bytes) :
    ∀ (fuel : Nat) (s : InPlace) (w : MWorld Flash), Bd G P steps k0 s w (s.chunk.rest ++ later) → s.mu < fuel →
    ∃ e s' w', ipFinalizeLoop (flashEnv P steps) fuel s w = .ok (e, s', w') ∧
      ((e < 0 ∧ e ≠ ALREADY_DONE ∧ Dead G P steps k0 w') ∨
       (e = 1 ∧ ∃ x, Bd G P steps k0 s' w' x) ∨
       (e = ALREADY_DONE ∧ s'.state = .done ∧ Bd G P steps k0 s' w' [])) := by
  intro fuel
  induction fuel with
  | zero => intro s w _ h; omega
  | succ fuel ih =>
    intro s w h hf
    unfold ipFinalizeLoop
    by_cases h3 : s.state = .done
    · rw [ipOnce_done _ h3]
      simp only [Bind.bind, Except.bind]
      rw [if_neg ad0]
      exact ⟨_, _, _, rfl, .inr (.inr ⟨rfl, h3, h.doneAny h3 _⟩)⟩
    · obtain ⟨out, e1, e2⟩ := body_step (x := later) (hP.geo (h.pos h3)) h h3
      rw [e1]
      simp only [Bind.bind, Except.bind]
      cases e2 with
      | ok a1 a2 =>
        rw [if_pos rfl]
        exact ih _ _ a1 (by simp only; omega)
      | more a1 a2 a3 a4 =>
        rw [if_neg (by simp)]
        exact ⟨_, _, _, rfl, .inr (.inl ⟨rfl, _, a1⟩)⟩
      | dead a1 a2 a3 =>
        rw [if_neg (by omega)]
        exact ⟨_, _, _, rfl, .inl ⟨a1, a2, a3⟩⟩

/-- Finalize at any point of the patch. -/
theorem finalize_early {opss : List (List Op)} (hP : IPPatch G V opss) {s : InPlace} {w : MWorld Flash} {later : Bytes}
    (h : IPRest G P steps k0 V s w later) :
    ∃ e s' w', inPlaceFinalize (flashEnv P steps) s w = .ok (e, s', w') ∧
      ((e < 0 ∧ Dead G P steps k0 w') ∨ (e < 0 ∧ ∃ o, Live G P steps k0 o w') ∨
       ((e = G.to.length ∨ e < 0) ∧ Finished G steps k0 w')) := by
  cases h with
  | hd h1 h2 h3 =>
    obtain ⟨e, s', e1, e2⟩ := finalize_header_world (E := flashEnv P steps) (w := w) h1.state
    refine ⟨e, s', w, e1, ?_⟩
    unfold IPStart at h3
    by_cases h0 : G.to.length = 0
    · rw [if_pos h0] at h3
      exact .inr (.inr ⟨.inr e2, h3⟩)
    · rw [if_neg h0] at h3
      exact .inr (.inl ⟨e2, _, h3⟩)
  | bd h =>
    have h1 := h.setChunk []
    unfold inPlaceFinalize
    obtain ⟨e, s', w', e1, e2⟩ := final_early hP later _ _ _ h1 (Nat.lt_of_lt_of_le (Nat.lt_add_of_pos_right (by decide)) (mu_fuel h1.chunkInv))
    simp only [e1, Bind.bind, Except.bind]
    rcases e2 with ⟨a1, a2, a3⟩ | ⟨rfl, x, a3⟩ | ⟨rfl, a2, a3⟩
    · refine ⟨_, _, _, rfl, .inl ⟨?_, a3⟩⟩
      rw [cf_err a1 a2]
      exact a1
    · refine ⟨_, _, _, rfl, ?_⟩
      have hn : commonFinalize 1 s'.reader s'.toSize < 0 := by rw [cf_more]; decide
      rcases a3.running with ⟨o, a4⟩ | a4
      · exact .inr (.inl ⟨hn, o, a4⟩)
      · exact .inr (.inr ⟨.inr hn, a4⟩)
    · cases a3 with
      | top r E a i ops opss h1 => rw [a2] at h1; cases h1
      | seg r E i t pos opss h1 h2 h3 h4 h5 h6 => rw [a2] at h6; cases h6
      | done r h1 h2 h3 h4 h5 h6 =>
        refine ⟨_, _, _, rfl, .inr (.inr ⟨.inl ?_, h6⟩)⟩
        have hd : r.destroy = 0 := decodes_nil h3
        rw [h2, h4, cf_done hd]
        exact wrapInt_small (by have := hP.ok.t; rw [hP.t] at this; exact this)

end Detools
