import Verif.Proofs.CInPlaceSafe
/-
Whole calls of the in-place C API, for every patch and every behaviour of the
callbacks.
-/
namespace Detools

variable [Build]

variable {E : MemEnv σ}

/-- The result of a loop. -/
inductive IPLoopOk (E : MemEnv σ) (w : MWorld σ) : IPRes σ → Prop
  | live {res s' w'} : s'.state ≠ .failed → IPInv s' → Adds w w' True → 0 ≤ res → (res = 1 ∨ CodeOk E res) →
      IPLoopOk E w (res, s', w')
  | done {s' w'} : s'.state = .done → IPInv s' → Adds w w' True → IPLoopOk E w (ALREADY_DONE, s', w')
  | fail {e s' w'} : e < 0 → CodeOk E e → Adds w w' False → s'.state = .failed → IPLoopOk E w (e, s', w')

theorem IPLoopOk.after {w0 w : MWorld σ} (h : Adds w0 w True) {out} (h1 : IPLoopOk E w out) : IPLoopOk E w0 out := by
  cases h1 with
  | live a b c d e => exact .live a b (h.trans c trivial) d e
  | done a b c => exact .done a b (h.trans c trivial)
  | fail a b c d => exact .fail a b (h.trans c trivial) d

theorem ipProcessLoop_safe : ∀ (fuel : Nat) (res : Int) (s : InPlace) (w : MWorld σ), IPInv s → s.state ≠ .failed →
    s.mu + 2 ≤ fuel → 0 ≤ res → (res = 1 ∨ CodeOk E res) →
    (∃ u, ipProcessLoop E fuel res s w = .error u ∧ IPUb u) ∨
      ∃ out, ipProcessLoop E fuel res s w = .ok out ∧ IPLoopOk E w out := by
  intro fuel
  induction fuel with
  | zero => intro res s w _ _ h; omega
  | succ fuel ih =>
    intro res s w hI hf hm hr hc
    cases ha : s.chunk.available with
    | false => rw [ipLoop_stop E (.inl ha)]; exact .inr ⟨_, rfl, .live hf hI (.refl w _) hr hc⟩
    | true =>
      rw [ipProcessLoop, if_pos ⟨ha, hr⟩]
      rcases ipOnce_ok (E := E) hI w hf with ⟨u, e, hu⟩ | ⟨out, e, ho⟩
      · left; rw [e]; exact ⟨u, rfl, hu⟩
      · rw [e]
        simp only [Bind.bind, Except.bind]
        obtain ⟨f, rfl⟩ : ∃ f, fuel = f + 1 := ⟨fuel - 1, by omega⟩
        cases ho with
        | ok g1 g2 g3 g4 g5 g6 g7 =>
          rcases ih _ _ _ g4 g7 (by omega) g2 (.inr g3) with h | ⟨out, e, h⟩
          · exact .inl h
          · exact .inr ⟨out, e, .after g5 h⟩
        | more g1 g2 g3 g4 =>
          right
          rw [ipLoop_stop E (.inl (by rw [Chunk.available_eq g2.chunk, g3]; rfl))]
          exact ⟨_, rfl, .live (by rw [g4]; exact hf) g2 (.refl w _) (show (0 : Int) ≤ 1 by decide) (.inl rfl)⟩
        | done g1 =>
          right
          rw [ipLoop_stop E (.inr adNeg)]
          exact ⟨_, rfl, .done g1 hI (.refl w _)⟩
        | fail g1 g2 g3 g4 =>
          right
          rw [ipLoop_stop E (.inr g1)]
          exact ⟨_, rfl, .fail g1 g2 g3 g4⟩

theorem ipFinalizeLoop_safe : ∀ (fuel : Nat) (s : InPlace) (w : MWorld σ), IPInv s → s.state ≠ .failed → s.mu + 2 ≤ fuel →
    (∃ u, ipFinalizeLoop E fuel s w = .error u ∧ IPUb u) ∨
      ∃ res s' w', ipFinalizeLoop E fuel s w = .ok (res, s', w') ∧ IPLoopOk E w (res, s', w') ∧ res ≠ 0 := by
  intro fuel
  induction fuel with
  | zero => intro s w _ _ h; omega
  | succ fuel ih =>
    intro s w hI hf hm
    rw [ipFinalizeLoop]
    rcases ipOnce_ok (E := E) hI w hf with ⟨u, e, hu⟩ | ⟨out, e, ho⟩
    · left; rw [e]; exact ⟨u, rfl, hu⟩
    · rw [e]
      simp only [Bind.bind, Except.bind]
      cases ho with
      | @ok res s' w' g1 g2 g3 g4 g5 g6 g7 =>
        by_cases hr : res = 0
        · subst hr
          rw [if_pos rfl]
          rcases ih _ _ g4 g7 (by omega) with h | ⟨r, s2, w2, e, h, hne⟩
          · exact .inl h
          · exact .inr ⟨r, s2, w2, e, .after g5 h, hne⟩
        · rw [if_neg hr]
          exact .inr ⟨_, _, _, rfl, .live g7 g4 g5 g2 (.inr g3), hr⟩
      | more g1 g2 g3 g4 =>
        right
        rw [if_neg one0]
        exact ⟨_, _, _, rfl, .live (by rw [g4]; exact hf) g2 (.refl w _) (show (0 : Int) ≤ 1 by decide) (.inl rfl), one0⟩
      | done g1 =>
        right
        rw [if_neg ad0]
        exact ⟨_, _, _, rfl, .done g1 hI (.refl w _), ad0⟩
      | fail g1 g2 g3 g4 =>
        right
        rw [if_neg (by omega)]
        exact ⟨_, _, _, rfl, .fail g1 g2 g3 g4, by omega⟩

/-- The state between calls. -/
def IPState (s : InPlace) : Prop := s.state = .failed ∨ IPInv s

theorem IPState.start (patchSize : Nat) : IPState (inPlaceInit patchSize) :=
  .inr ⟨(fun h => by cases h), Nat.zero_le _, (fun h => by cases h), by simp [inPlaceInit], (by simp [inPlaceInit]), (by simp [inPlaceInit])⟩

theorem IPInv.setChunk {s : InPlace} (h : IPInv s) (buf : Bytes) : IPInv { s with chunk := { buf := buf, offset := 0 } } :=
  ⟨h.size, Nat.zero_le _, h.rsize, h.toSz, h.done, h.reader⟩

/-- The result of process. -/
inductive IPProcOk (E : MemEnv σ) (w : MWorld σ) : IPRes σ → Prop
  | live {res s' w'} : s'.state ≠ .failed → IPInv s' → Adds w w' True → (res = 0 ∨ 0 < res ∧ E.Returns res) →
      IPProcOk E w (res, s', w')
  | fail {e s' w'} : s'.state = .failed → Adds w w' False → (e < 0 ∧ e ≠ ALREADY_DONE ∨ e = 0 ∧ E.Returns ALREADY_DONE) →
      IPProcOk E w (e, s', w')

theorem ip_failed_process {s : InPlace} (hf : s.state = .failed) (w : MWorld σ) (p : Bytes) :
    ∃ s1, inPlaceProcess E s w p = .ok (afterFailure (.process p), s1, w) ∧ s1.state = .failed := by
  unfold inPlaceProcess
  simp only
  have hci : ({ buf := p, offset := 0 } : Chunk).Inv := Nat.zero_le _
  have hst : ({ s with chunk := { buf := p, offset := 0 } } : InPlace).state = .failed := hf
  have hch : ({ s with chunk := { buf := p, offset := 0 } } : InPlace).chunk = { buf := p, offset := 0 } := rfl
  generalize ({ s with chunk := { buf := p, offset := 0 } } : InPlace) = s0 at *
  have hmu := mu_fuel (s := s0) (by rw [hch]; exact hci)
  generalize s0.fuel = fu at *
  obtain ⟨f, rfl⟩ : ∃ f, fu = f + 2 := ⟨fu - 2, by omega⟩
  refine ⟨s0, ?_, hst⟩
  cases p with
  | nil =>
    rw [ipLoop_stop E (.inl (by rw [hch]; rfl))]
    rfl
  | cons b t =>
    rw [ipProcessLoop, if_pos ⟨by rw [hch]; simp [Chunk.available, Chunk.left], by decide⟩, ipOnce_failed hst]
    simp only [Bind.bind, Except.bind]
    rw [ipLoop_stop E (.inr afNeg)]
    rfl

theorem ip_failed_finalize {s : InPlace} (hf : s.state = .failed) (w : MWorld σ) :
    ∃ s1, inPlaceFinalize E s w = .ok (ALREADY_FAILED, s1, w) ∧ s1.state = .failed := by
  unfold inPlaceFinalize
  simp only
  have hst : ({ s with chunk := { buf := [], offset := 0 } } : InPlace).state = .failed := hf
  generalize ({ s with chunk := { buf := [], offset := 0 } } : InPlace) = s0 at *
  obtain ⟨f, hfu⟩ := fuel_succ s0
  rw [hfu]
  refine ⟨s0, ?_, hst⟩
  rw [ipFinalizeLoop, ipOnce_failed hst]
  simp only [Bind.bind, Except.bind]
  rw [if_neg af0]
  simp only
  cases s0.reader <;> rfl

theorem inPlaceProcess_safe {s : InPlace} (h : IPState s) (w : MWorld σ) (p : Bytes) :
    (∃ u, inPlaceProcess E s w p = .error u ∧ IPUb u) ∨
      ∃ out, inPlaceProcess E s w p = .ok out ∧ (s.state ≠ .failed → IPProcOk E w out) ∧ IPState out.2.1 := by
  rcases h with hf | hI
  · obtain ⟨s1, e, h1⟩ := ip_failed_process (E := E) hf w p
    exact .inr ⟨_, e, fun h => absurd hf h, .inl h1⟩
  by_cases hf : s.state = .failed
  · obtain ⟨s1, e, h1⟩ := ip_failed_process (E := E) hf w p
    exact .inr ⟨_, e, fun h => absurd hf h, .inl h1⟩
  have h1 := hI.setChunk p
  unfold inPlaceProcess
  simp only
  rcases ipProcessLoop_safe (E := E) _ 0 _ w h1 hf (mu_fuel h1.chunk) (Int.le_refl 0) (.inr (.inl rfl)) with ⟨u, e, hu⟩ | ⟨out, e, ho⟩
  · left; rw [e]; exact ⟨u, rfl, hu⟩
  · right
    rw [e]
    simp only [Bind.bind, Except.bind]
    cases ho with
    | @live res s' w' g1 g2 g3 g4 g5 =>
      by_cases hr : res = 1 ∨ res = ALREADY_DONE
      · rw [if_pos hr]
        exact ⟨_, rfl, fun _ => .live g1 g2 g3 (.inl rfl), .inr g2⟩
      · rw [if_neg hr]
        refine ⟨_, rfl, fun _ => .live g1 g2 g3 ?_, .inr g2⟩
        rcases g5 with h | h | ⟨h, _⟩ | h
        · exact absurd (.inl h) hr
        · exact .inl h
        · omega
        · by_cases h0 : res = 0
          · exact .inl h0
          · exact .inr ⟨by omega, h⟩
    | done g1 g2 g3 =>
      rw [if_pos (.inr rfl)]
      exact ⟨_, rfl, fun _ => .live (by rw [g1]; decide) g2 g3 (.inl rfl), .inr g2⟩
    | @fail e' s' w' g1 g2 g3 g4 =>
      by_cases hr : e' = 1 ∨ e' = ALREADY_DONE
      · rw [if_pos hr]
        have he : e' = ALREADY_DONE := hr.resolve_left (by omega)
        refine ⟨_, rfl, fun _ => .fail g4 g3 (.inr ⟨rfl, ?_⟩), .inl g4⟩
        rw [he] at g2
        rcases g2 with h | ⟨_, h⟩ | h
        · exact absurd h ad0
        · exact absurd rfl h
        · exact h
      · rw [if_neg hr]
        exact ⟨_, rfl, fun _ => .fail g4 g3 (.inl ⟨g1, fun h => hr (.inr h)⟩), .inl g4⟩

/-- The result of finalize. -/
inductive IPFinOk (E : MemEnv σ) (w : MWorld σ) : IPRes σ → Prop
  | done {res : Int} {s' w'} : s'.state = .done → IPInv s' → Adds w w' True → (res = (s'.toSize : Int) ∨ res < 0) → IPFinOk E w (res, s', w')
  | live {res s' w'} : s'.state ≠ .failed → IPInv s' → Adds w w' True → (res < 0 ∨ 0 < res ∧ E.Returns res) → IPFinOk E w (res, s', w')
  | fail {e s' w'} : s'.state = .failed → Adds w w' False → (e < 0 ∨ E.Returns ALREADY_DONE) → IPFinOk E w (e, s', w')

omit [Build] in
theorem cf_one (r : Option CReader) (n : Nat) : commonFinalize 1 r n = NOT_ENOUGH_PATCH_DATA := by
  unfold commonFinalize
  cases r <;> rfl

omit [Build] in
theorem cf_other {res : Int} (h1 : res ≠ 1) (h2 : res ≠ ALREADY_DONE) (h0 : res ≠ 0) (r : Option CReader) (n : Nat) :
    commonFinalize res r n = res := by
  cases r <;> simp [commonFinalize, h1, h2, h0]

theorem inPlaceFinalize_safe {s : InPlace} (h : IPState s) (w : MWorld σ) :
    (∃ u, inPlaceFinalize E s w = .error u ∧ IPUb u) ∨
      ∃ out, inPlaceFinalize E s w = .ok out ∧ (s.state ≠ .failed → IPFinOk E w out) ∧ IPState out.2.1 := by
  rcases h with hf | hI
  · obtain ⟨s1, e, h1⟩ := ip_failed_finalize (E := E) hf w
    exact .inr ⟨_, e, fun h => absurd hf h, .inl h1⟩
  by_cases hf : s.state = .failed
  · obtain ⟨s1, e, h1⟩ := ip_failed_finalize (E := E) hf w
    exact .inr ⟨_, e, fun h => absurd hf h, .inl h1⟩
  have h1 := hI.setChunk []
  unfold inPlaceFinalize
  simp only
  rcases ipFinalizeLoop_safe (E := E) _ _ w h1 hf (mu_fuel h1.chunk) with ⟨u, e, hu⟩ | ⟨res, s', w', e, ho, hne⟩
  · left; rw [e]; exact ⟨u, rfl, hu⟩
  · right
    rw [e]
    simp only [Bind.bind, Except.bind]
    cases ho with
    | live g1 g2 g3 g4 g5 =>
      refine ⟨_, rfl, fun _ => .live g1 g2 g3 ?_, .inr g2⟩
      by_cases hr : res = 1
      · subst hr
        rw [cf_one]
        exact .inl (by decide)
      · rw [cf_other hr (by have := adNeg; omega) hne]
        right
        refine ⟨by omega, ?_⟩
        rcases g5 with h | h | ⟨h, _⟩ | h
        · exact absurd h hr
        · exact absurd h hne
        · omega
        · exact h
    | done g1 g2 g3 =>
      refine ⟨_, rfl, fun _ => .done g1 g2 g3 ?_, .inr g2⟩
      have hsm := wrapInt_small g2.toSz
      cases hr : s'.reader with
      | none => left; simp [commonFinalize, hsm, ALREADY_DONE]
      | some r =>
        rcases destroy_code r with hd | hd
        · left; simp [commonFinalize, hsm, hd, ALREADY_DONE]
        · right; simp [commonFinalize, hd, ALREADY_DONE, CORRUPT_PATCH]
    | fail g1 g2 g3 g4 =>
      refine ⟨_, rfl, fun _ => .fail g4 g3 ?_, .inl g4⟩
      by_cases hr : res = ALREADY_DONE
      · right
        rw [hr] at g2
        rcases g2 with h | ⟨_, h⟩ | h
        · exact absurd h ad0
        · exact absurd rfl h
        · exact h
      · left
        rw [cf_other (by omega) hr hne]
        exact g1

theorem ipRuns_safe : ∀ (calls : List Call) {s : InPlace} (w : MWorld σ), IPState s →
    (∃ u, runInPlaceCalls E s w calls = .error u ∧ IPUb u) ∨
      ∃ rs s' w', runInPlaceCalls E s w calls = .ok (rs, s', w') ∧ IPState s' ∧ (s.state = .failed → s'.state = .failed ∧ w' = w ∧ rs = calls.map afterFailure) ∧
        Adds w w' (s'.state ≠ .failed) := by
  intro calls
  induction calls with
  | nil => intro s w h; exact .inr ⟨[], s, w, rfl, h, fun h => ⟨h, rfl, rfl⟩, .refl w _⟩
  | cons c cs ih =>
    intro s w h
    cases c with
    | process p =>
      rw [runInPlaceCalls]
      by_cases hf : s.state = .failed
      · obtain ⟨s1, e1, h1⟩ := ip_failed_process (E := E) hf w p
        rw [e1]
        simp only [Bind.bind, Except.bind]
        rcases ih w (.inl h1) with ⟨u, e, hu⟩ | ⟨rs, s', w', e, k1, k2, k3⟩
        · left; rw [e]; exact ⟨u, rfl, hu⟩
        · right
          rw [e]
          obtain ⟨a, b, c⟩ := k2 h1
          exact ⟨_, _, _, rfl, k1, fun _ => ⟨a, b, by rw [c]; rfl⟩, k3⟩
      · rcases inPlaceProcess_safe (E := E) h w p with ⟨u, e, hu⟩ | ⟨⟨r, s1, w1⟩, e1, h1, h2⟩
        · left; rw [e]; exact ⟨u, rfl, hu⟩
        · rw [e1]
          simp only [Bind.bind, Except.bind]
          rcases ih w1 h2 with ⟨u, e, hu⟩ | ⟨rs, s', w', e, k1, k2, k3⟩
          · left; rw [e]; exact ⟨u, rfl, hu⟩
          · right
            rw [e]
            refine ⟨_, _, _, rfl, k1, fun h => absurd h hf, ?_⟩
            cases h1 hf with
            | live g1 g2 g3 g4 => exact g3.trans k3 trivial
            | fail g1 g2 g3 =>
              obtain ⟨a, b, _⟩ := k2 g1
              rw [b]
              exact g2.mono fun h => h a
    | finalize =>
      rw [runInPlaceCalls]
      by_cases hf : s.state = .failed
      · obtain ⟨s1, e1, h1⟩ := ip_failed_finalize (E := E) hf w
        rw [e1]
        simp only [Bind.bind, Except.bind]
        rcases ih w (.inl h1) with ⟨u, e, hu⟩ | ⟨rs, s', w', e, k1, k2, k3⟩
        · left; rw [e]; exact ⟨u, rfl, hu⟩
        · right
          rw [e]
          obtain ⟨a, b, c⟩ := k2 h1
          exact ⟨_, _, _, rfl, k1, fun _ => ⟨a, b, by rw [c]; rfl⟩, k3⟩
      · rcases inPlaceFinalize_safe (E := E) h w with ⟨u, e, hu⟩ | ⟨⟨r, s1, w1⟩, e1, h1, h2⟩
        · left; rw [e]; exact ⟨u, rfl, hu⟩
        · rw [e1]
          simp only [Bind.bind, Except.bind]
          rcases ih w1 h2 with ⟨u, e, hu⟩ | ⟨rs, s', w', e, k1, k2, k3⟩
          · left; rw [e]; exact ⟨u, rfl, hu⟩
          · right
            rw [e]
            refine ⟨_, _, _, rfl, k1, fun h => absurd h hf, ?_⟩
            cases h1 hf with
            | done g1 g2 g3 => exact g3.trans k3 trivial
            | live g1 g2 g3 g4 => exact g3.trans k3 trivial
            | fail g1 g2 g3 =>
              obtain ⟨a, b, _⟩ := k2 g1
              rw [b]
              exact g2.mono fun h => h a

end Detools
