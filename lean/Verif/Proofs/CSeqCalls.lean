import Verif.Proofs.CSeqSafe
/-
Whole calls of the sequential C API, for every patch and every behaviour of the
callbacks.
-/
namespace Detools

variable [Build]

omit [Build] in
theorem adNeg : ALREADY_DONE < 0 := by decide
omit [Build] in
theorem afNeg : ALREADY_FAILED < 0 := by decide
omit [Build] in
theorem ioNeg : IO_FAILED < 0 := by decide
omit [Build] in
theorem afAd : ALREADY_FAILED ≠ ALREADY_DONE := by decide
omit [Build] in
theorem afIo : ALREADY_FAILED ≠ IO_FAILED := by decide
omit [Build] in
theorem ad0 : ¬ ALREADY_DONE = 0 := by decide
omit [Build] in
theorem af0 : ¬ ALREADY_FAILED = 0 := by decide
omit [Build] in
theorem io0 : ¬ IO_FAILED = 0 := by decide
omit [Build] in
theorem one0 : ¬ (1 : Int) = 0 := by decide
omit [Build] in
theorem io1 : ¬ (IO_FAILED = 1 ∨ IO_FAILED = ALREADY_DONE) := by decide

omit [Build] in
theorem evBytes_append (a b : List Ev) : evBytes (a ++ b) = evBytes a + evBytes b := by
  simp [evBytes]

omit [Build] in
theorem sz_add (a b c : Nat) : sz (sz (a + b) + c) = sz (a + (c + b)) := by
  unfold sz; omega

theorem StepOk.trans {s s1 s2 : ApplyPatch} {w w1 w2 : World σ} {e1 e2 : List Ev} (h1 : StepOk s w s1 w1 e1)
    (h2 : StepOk s1 w1 s2 w2 e2) (hi : s.state ≠ .init → s1.state ≠ .init) : StepOk s w s2 w2 (e2 ++ e1) where
  inv := h2.inv
  trace := by rw [h2.trace, h1.trace, List.append_assoc]
  off := by rw [h2.off, h1.off, evBytes_append, sz_add]
  small := by
    intro ev hm
    rcases List.mem_append.1 hm with h | h
    · exact h2.small ev h
    · exact h1.small ev h
  toSz hs := by rw [h2.toSz (hi hs), h1.toSz hs]
  psize := by rw [h2.psize, h1.psize]
  poff := by rw [h2.poff, h1.poff]

theorem StepOk.refl {s : ApplyPatch} (h : SInv s) (w : World σ) : StepOk s w s w [] :=
  .quiet h h rfl (fun _ => rfl) rfl rfl

/-- The result of a call. -/
inductive CallOk (s : ApplyPatch) (w : World σ) : SeqRes σ → Prop
  | ok {s' w' res} (evs) : StepOk s w s' w' evs → (∀ ev ∈ evs, ev.res = 0) → s'.state ≠ .failed →
      (res = 0 ∨ res = 1) → (res = 1 → s'.state ≠ .done) → CallOk s w (res, s', w')
  | done {s' w'} (evs) : StepOk s w s' w' evs → (∀ ev ∈ evs, ev.res = 0) → s'.state = .done →
      CallOk s w (ALREADY_DONE, s', w')
  | fail {s' w' e} (evs) : StepOk s w s' w' evs → (∀ ev ∈ evs, ev.res = 0) → e < 0 → e ≠ ALREADY_DONE → e ≠ IO_FAILED →
      s'.state = .failed → CallOk s w (e, s', w')
  | io {s' w'} (ev evs) : StepOk s w s' w' (ev :: evs) → ev.res ≠ 0 → (∀ ev ∈ evs, ev.res = 0) →
      s'.state = .failed → CallOk s w (IO_FAILED, s', w')

theorem CallOk.trans {s s1 : ApplyPatch} {w w1 : World σ} {e1 : List Ev} {out : SeqRes σ} (h1 : StepOk s w s1 w1 e1)
    (hr : ∀ ev ∈ e1, ev.res = 0) (hi : s.state ≠ .init → s1.state ≠ .init) (h2 : CallOk s1 w1 out) : CallOk s w out := by
  have mem : ∀ evs : List Ev, (∀ ev ∈ evs, ev.res = 0) → ∀ ev ∈ evs ++ e1, ev.res = 0 := by
    intro evs h ev hm
    rcases List.mem_append.1 hm with h' | h'
    · exact h ev h'
    · exact hr ev h'
  cases h2 with
  | ok evs g1 g2 g3 g4 g5 => exact .ok _ (h1.trans g1 hi) (mem _ g2) g3 g4 g5
  | done evs g1 g2 g3 => exact .done _ (h1.trans g1 hi) (mem _ g2) g3
  | fail evs g1 g2 g3 g4 g5 g6 => exact .fail _ (h1.trans g1 hi) (mem _ g2) g3 g4 g5 g6
  | io ev evs g1 g2 g3 g4 => exact .io ev _ (h1.trans g1 hi) g2 (mem _ g3) g4

theorem switch_init (E : SeqEnv σ) {s : ApplyPatch} (h : SInv s) {w : World σ} {s' w'}
    (he : processOnce E s w = .ok (0, s', w')) : s.state ≠ .init → s'.state ≠ .init := by
  intro hi
  unfold processOnce at he
  by_cases h1 : s.state = .done
  · simp only [h1, if_true] at he
    cases he
  · simp only [h1, if_false] at he
    by_cases h2 : s.state = .failed
    · simp only [processSwitch, h2, Bind.bind, Except.bind] at he
      rw [if_pos (by decide)] at he
      cases he
    · rcases switch_ok E h w h1 h2 with (e | e) | ⟨out, e, ho⟩
      · rw [e] at he; cases he
      · rw [e] at he; cases he
      · rw [e] at he
        simp only [Bind.bind, Except.bind] at he
        cases ho with
        | ok evs g1 g2 g3 g4 g5 =>
          cases he
          exact g5.resolve_right hi
        | more g1 g2 g3 g4 => cases he
        | fail g1 g2 g3 g4 =>
          rw [if_pos g2] at he
          cases he; simp
        | io ev evs g1 g2 g3 =>
          rw [if_pos (show IO_FAILED < 0 by decide)] at he
          cases he

theorem processLoop_stop (E : SeqEnv σ) {fuel : Nat} {res : Int} {s : ApplyPatch} {w : World σ}
    (h : s.chunk.available = false ∨ res < 0) : processLoop E (fuel + 1) res s w = .ok (res, s, w) := by
  unfold processLoop
  rw [if_neg]
  rintro ⟨h1, h2⟩
  rcases h with h | h
  · rw [h] at h1; cases h1
  · omega

theorem processLoop_ok (E : SeqEnv σ) : ∀ (fuel : Nat) (s : ApplyPatch) (w : World σ), SInv s → s.mu + 2 ≤ fuel →
    (processLoop E fuel 0 s w = .error .uninit ∨ processLoop E fuel 0 s w = .error .overflow) ∨
      ∃ out, processLoop E fuel 0 s w = .ok out ∧ (s.chunk.available = true → s.state = .failed → out.1 < 0) ∧
        (s.state = .failed → out.1 = 0 ∨ out.1 = ALREADY_FAILED) ∧
        (s.chunk.available = false ∧ out = (0, s, w) ∨ CallOk s w out) := by
  intro fuel
  induction fuel with
  | zero => intro s w _ h; omega
  | succ fuel ih =>
    intro s w hs hf
    by_cases ha : s.chunk.available = true
    · unfold processLoop
      rw [if_pos ⟨ha, by decide⟩]
      rcases once_ok E hs w with (e | e) | ⟨out, e, ho⟩
      · left; left; rw [e]; rfl
      · left; right; rw [e]; rfl
      · obtain ⟨f', rfl⟩ : ∃ f', fuel = f' + 1 := ⟨fuel - 1, by omega⟩
        rw [e]
        simp only [Bind.bind, Except.bind]
        cases ho with
        | ok evs q1 q2 g1 g2 g3 g4 =>
          have hi := switch_init E hs e
          rcases ih _ _ g1.inv (by omega) with he | ⟨out, e1, e2, e2', e3⟩
          · exact .inl he
          · right
            refine ⟨out, e1, fun _ h => absurd h q2, fun h => absurd h q2, .inr ?_⟩
            rcases e3 with ⟨ea, rfl⟩ | e3
            · exact .ok _ g1 g2 g4 (.inl rfl) (fun h => by cases h)
            · exact .trans g1 g2 hi e3
        | more q1 q2 g1 g2 g3 =>
          right
          have hav : ∀ {c : Chunk}, c.Inv → c.rest = [] → c.available = false := by
            intro c h1 h2
            rw [c.available_eq h1, h2]; rfl
          have hl := g1.inv.live (by rw [g3]; exact q2)
          refine ⟨_, processLoop_stop E (.inl (hav hl.1 g2)), fun _ h => absurd h q2, fun h => absurd h q2, .inr ?_⟩
          exact .ok [] g1 (by simp) (by rw [g3]; exact q2) (.inr rfl) (fun _ => by rw [g3]; exact q1)
        | done q1 =>
          right
          exact ⟨_, processLoop_stop E (.inr adNeg), fun _ _ => adNeg,
            (fun h => by rw [q1] at h; cases h), .inr (.done [] (.refl hs w) (by simp) q1)⟩
        | already q1 =>
          right
          exact ⟨_, processLoop_stop E (.inr afNeg), fun _ _ => afNeg,
            fun h => .inr rfl, .inr (.fail [] (.refl hs w) (by simp) afNeg afAd afIo q1)⟩
        | fail q1 q2 g1 g2 g3 g4 g5 =>
          right
          exact ⟨_, processLoop_stop E (.inr g2), fun _ h => absurd h q2, fun h => absurd h q2,
            .inr (.fail [] g1 (by simp) g2 g3 g4 g5)⟩
        | io ev evs q1 q2 g1 g2 g3 g4 =>
          right
          exact ⟨_, processLoop_stop E (.inr ioNeg), fun _ h => absurd h q2, fun h => absurd h q2,
            .inr (.io ev evs g1 g2 g3 g4)⟩
    · right
      rw [Bool.not_eq_true] at ha
      refine ⟨_, processLoop_stop E (.inl ha), fun h => ?_, fun _ => .inl rfl, .inl ⟨ha, rfl⟩⟩
      rw [ha] at h; cases h

theorem finalizeLoop_ok (E : SeqEnv σ) : ∀ (fuel : Nat) (s : ApplyPatch) (w : World σ), SInv s → s.mu < fuel →
    (finalizeLoop E fuel s w = .error .uninit ∨ finalizeLoop E fuel s w = .error .overflow) ∨
      ∃ out, finalizeLoop E fuel s w = .ok out ∧ CallOk s w out ∧ out.1 ≠ 0 ∧
        (s.state = .failed → out = (ALREADY_FAILED, s, w)) := by
  intro fuel
  induction fuel with
  | zero => intro s w _ h; omega
  | succ fuel ih =>
    intro s w hs hf
    unfold finalizeLoop
    rcases once_ok E hs w with (e | e) | ⟨out, e, ho⟩
    · left; left; rw [e]; rfl
    · left; right; rw [e]; rfl
    · rw [e]
      simp only [Bind.bind, Except.bind]
      cases ho with
      | ok evs q1 q2 g1 g2 g3 g4 =>
        have hi := switch_init E hs e
        simp only [if_true]
        rcases ih _ _ g1.inv (by omega) with he | ⟨out, e1, e2, e3, e4⟩
        · exact .inl he
        · exact .inr ⟨out, e1, .trans g1 g2 hi e2, e3, fun h => absurd h q2⟩
      | more q1 q2 g1 g2 g3 =>
        right
        refine ⟨_, if_neg one0, ?_, by show (1 : Int) ≠ 0; decide, fun h => absurd h q2⟩
        exact .ok [] g1 (by simp) (by rw [g3]; exact q2) (.inr rfl) (fun _ => by rw [g3]; exact q1)
      | done q1 =>
        right
        exact ⟨_, if_neg ad0, .done [] (.refl hs w) (by simp) q1, ad0,
          fun h => by rw [q1] at h; cases h⟩
      | already q1 =>
        right
        exact ⟨_, if_neg af0, .fail [] (.refl hs w) (by simp) afNeg afAd afIo q1,
          af0, fun _ => rfl⟩
      | @fail s' e' q1 q2 g1 g2 g3 g4 g5 =>
        right
        exact ⟨_, if_neg (by omega), .fail [] g1 (by simp) g2 g3 g4 g5, by show e' ≠ 0; omega, fun h => absurd h q2⟩
      | io ev evs q1 q2 g1 g2 g3 g4 =>
        right
        exact ⟨_, if_neg io0, .io ev evs g1 g2 g3 g4, io0, fun h => absurd h q2⟩

theorem ApplyPatch.fuel_mu {s : ApplyPatch} (h : s.chunk.Inv) : s.mu + 2 ≤ s.fuel := by
  have hw : s.state.weight ≤ 1 := by cases s.state <;> decide
  have hl := s.chunk.left_eq h
  simp only [ApplyPatch.mu, ApplyPatch.wk, ApplyPatch.fuel, hl]
  cases s.reader <;> simp only <;> omega

/-- A new chunk in a state. -/
theorem SInv.setChunk {s : ApplyPatch} (h : SInv s) {buf : Bytes} {po : Nat} :
    SInv { s with patchOffset := po, chunk := { buf := buf, offset := 0 } } :=
  ⟨h.size, h.off, h.toSz, h.done, h.init, fun hf => ⟨Nat.zero_le _, (h.live hf).2.1, (h.live hf).2.2⟩⟩

/-- What a call of process does, in terms of the values it returns. -/
inductive ProcOk (s : ApplyPatch) (w : World σ) : SeqRes σ → Prop
  | ok {s' w'} (evs) : w'.trace = evs ++ w.trace → (∀ ev ∈ evs, ev.res = 0) → s'.state ≠ .failed ∨ s.state = .failed ∧ evs = [] →
      ProcOk s w (0, s', w')
  | fail {s' w' e} (evs) : w'.trace = evs ++ w.trace → (∀ ev ∈ evs, ev.res = 0) → e < 0 → e ≠ IO_FAILED →
      s'.state = .failed → ProcOk s w (e, s', w')
  | io {s' w'} (ev evs) : w'.trace = (ev :: evs) ++ w.trace → ev.res ≠ 0 → (∀ ev ∈ evs, ev.res = 0) →
      s'.state = .failed → ProcOk s w (IO_FAILED, s', w')

/-- What a call does to the counters. -/
structure Counted (s : ApplyPatch) (w : World σ) (s' : ApplyPatch) (w' : World σ) : Prop where
  inv : SInv s'
  off : s.toOffset = sz (written w.trace).length → s'.toOffset = sz (written w'.trace).length
  small : (∀ ev ∈ w.trace, ev.count ≤ 128) → ∀ ev ∈ w'.trace, ev.count ≤ 128
  toSz : s.state ≠ .init → s'.toSize = s.toSize
  psize : s'.patchSize = s.patchSize
  grows : ∃ evs, w'.trace = evs ++ w.trace

theorem StepOk.counted {s s' : ApplyPatch} {w w' : World σ} {evs} (h : StepOk s w s' w' evs) : Counted s w s' w' where
  inv := h.inv
  off ho := by
    rw [h.off, ho, h.trace, written_append]
    unfold sz; omega
  small hs := by
    rw [h.trace]
    intro ev hm
    rcases List.mem_append.1 hm with h' | h'
    · exact h.small ev h'
    · exact hs ev h'
  toSz := h.toSz
  psize := h.psize
  grows := ⟨evs, h.trace⟩

theorem CallOk.counted {s : ApplyPatch} {w : World σ} {out : SeqRes σ} (h : CallOk s w out) :
    Counted s w out.2.1 out.2.2 := by
  cases h with
  | ok evs g => exact g.counted
  | done evs g => exact g.counted
  | fail evs g => exact g.counted
  | io ev evs g => exact g.counted

theorem process_ok (E : SeqEnv σ) {s : ApplyPatch} (h : SInv s) (w : World σ) (p : Bytes) :
    (applyPatchProcess E s w p = .error .uninit ∨ applyPatchProcess E s w p = .error .overflow) ∨
      ∃ res s' w', applyPatchProcess E s w p = .ok (res, s', w') ∧ ProcOk s w (res, s', w') ∧ Counted s w s' w' ∧
        (s.state = .failed → s'.state = .failed ∧ w' = w ∧ (p ≠ [] → res = ALREADY_FAILED)) := by
  have hI := h.setChunk (buf := p) (po := sz (s.patchOffset + p.length))
  have hci : ({ buf := p, offset := 0 } : Chunk).Inv := Nat.zero_le _
  simp only [applyPatchProcess]
  generalize hs1 : ({ s with patchOffset := sz (s.patchOffset + p.length), chunk := { buf := p, offset := 0 } } : ApplyPatch) = s1
  rw [hs1] at hI
  have hst : s1.state = s.state := by rw [← hs1]
  have hch : s1.chunk = { buf := p, offset := 0 } := by rw [← hs1]
  have hc1 : s1.chunk.Inv := by rw [hch]; exact hci
  have cnt : ∀ {s' w'}, Counted s1 w s' w' → Counted s w s' w' := by
    intro s' w' c
    refine ⟨c.inv, fun ho => c.off (by rw [← hs1]; exact ho), c.small, fun hn => ?_, ?_, c.grows⟩
    · rw [c.toSz (by rw [hst]; exact hn), ← hs1]
    · rw [c.psize, ← hs1]
  rcases processLoop_ok E s1.fuel s1 w hI (s1.fuel_mu hc1) with (e | e) | ⟨out, e, e2, e2', e3⟩
  · left; left; rw [e]; rfl
  · left; right; rw [e]; rfl
  · right
    rw [e]
    simp only [Bind.bind, Except.bind]
    have hav : p ≠ [] → s1.chunk.available = true := by
      intro hp
      rw [s1.chunk.available_eq hc1, hch]
      cases p with
      | nil => exact absurd rfl hp
      | cons => rfl
    have hfl : ∀ e, e < 0 → e ≠ ALREADY_DONE → ¬ (e = 1 ∨ e = ALREADY_DONE) := by
      intro e h1 h2 h3
      rcases h3 with h3 | h3
      · omega
      · exact h2 h3
    rcases e3 with ⟨ea, rfl⟩ | e3
    · refine ⟨0, s1, w, rfl, ?_, cnt (StepOk.refl hI w).counted, fun hf => ⟨by rw [hst]; exact hf, rfl, fun hp => ?_⟩⟩
      · refine .ok [] rfl (by simp) ?_
        rw [hst]
        by_cases hf : s.state = .failed
        · exact .inr ⟨hf, rfl⟩
        · exact .inl hf
      · rw [hav hp] at ea; cases ea
    · have hcnt := e3.counted
      have hfailed : s1.state = .failed → ∃ hh : s1.state = .failed, True := fun h => ⟨h, trivial⟩
      cases e3 with
      | @ok s' w' res evs g1 g2 g3 g4 g5 =>
        refine ⟨0, s', w', ?_, .ok evs g1.trace g2 (.inl g3), cnt hcnt, fun hf => ?_⟩
        · rcases g4 with rfl | rfl <;> rfl
        · exfalso
          have h1 := e2' (by rw [hst]; exact hf)
          by_cases hp : p = []
          · -- an empty piece is not processed
            have hna : s1.chunk.available = false := by
              rw [s1.chunk.available_eq hc1, hch, hp]; rfl
            have := processLoop_stop E (fuel := s1.fuel - 1) (res := 0) (s := s1) (w := w) (.inl hna)
            have hfu : s1.fuel - 1 + 1 = s1.fuel := by
              unfold ApplyPatch.fuel; omega
            rw [hfu, e] at this
            cases this
            rw [hst] at g3
            exact g3 hf
          · have := e2 (hav hp) (by rw [hst]; exact hf)
            simp only at this
            omega
      | @done s' w' evs g1 g2 g3 =>
        refine ⟨0, s', w', rfl, .ok evs g1.trace g2 (.inl (by rw [g3]; decide)), cnt hcnt, fun hf => ?_⟩
        have h1 := e2' (by rw [hst]; exact hf)
        rcases h1 with h1 | h1 <;> cases h1
      | @fail s' w' e' evs g1 g2 g3 g4 g5 g6 =>
        refine ⟨e', s', w', if_neg (hfl e' g3 g4), .fail evs g1.trace g2 g3 g5 g6, cnt hcnt, fun hf => ⟨g6, ?_, fun _ => ?_⟩⟩
        · have hfu : ∃ f, s1.fuel = f + 2 := ⟨s1.fuel - 2, by unfold ApplyPatch.fuel; omega⟩
          obtain ⟨f, hfu⟩ := hfu
          by_cases ha : s1.chunk.available = true
          · rw [hfu] at e
            unfold processLoop at e
            rw [if_pos ⟨ha, by decide⟩] at e
            have : processOnce E s1 w = .ok (ALREADY_FAILED, s1, w) := by
              have hff : s1.state = .failed := by rw [hst]; exact hf
              unfold processOnce
              rw [if_neg (by rw [hff]; decide)]
              simp only [processSwitch, hff, Bind.bind, Except.bind]
              rw [if_pos (by decide)]
              have : ({ s1 with state := .failed } : ApplyPatch) = s1 := by rw [← hff]
              rw [this]
            rw [this] at e
            simp only [Bind.bind, Except.bind] at e
            rw [processLoop_stop E (.inr (by decide))] at e
            cases e; rfl
          · rw [Bool.not_eq_true] at ha
            rw [hfu, processLoop_stop E (.inl ha)] at e
            cases e; rfl
        · have h1 := e2' (by rw [hst]; exact hf)
          rcases h1 with h1 | h1
          · simp only at h1; omega
          · exact h1
      | @io s' w' ev evs g1 g2 g3 g4 =>
        refine ⟨IO_FAILED, s', w', if_neg io1, .io ev evs g1.trace g2 g3 g4, cnt hcnt, fun hf => ?_⟩
        have h1 := e2' (by rw [hst]; exact hf)
        rcases h1 with h1 | h1 <;> cases h1

/-- What finalize returns. -/
inductive FinOk (s : ApplyPatch) (w : World σ) : SeqRes σ → Prop
  | ok {s' w'} (evs) : w'.trace = evs ++ w.trace → (∀ ev ∈ evs, ev.res = 0) → s'.state = .done →
      (∀ r, s'.reader = some r → r.destroy = 0) →
      FinOk s w ((s'.toSize : Int), s', w')
  | fail {s' w' e} (evs) : w'.trace = evs ++ w.trace → (∀ ev ∈ evs, ev.res = 0) → e < 0 → e ≠ IO_FAILED →
      FinOk s w (e, s', w')
  | io {s' w'} (ev evs) : w'.trace = (ev :: evs) ++ w.trace → ev.res ≠ 0 → (∀ ev ∈ evs, ev.res = 0) →
      s'.state = .failed → FinOk s w (IO_FAILED, s', w')

omit [Build] in
theorem destroy_code (r : CReader) : r.destroy = 0 ∨ r.destroy = CORRUPT_PATCH := by
  cases r with
  | raw p o => simp only [CReader.destroy]; split <;> simp
  | lzma s => simp only [CReader.destroy]; split <;> simp
  | crle => exact .inl rfl
  | heatshrink h =>
    cases h with
    | none => exact .inl rfl
    | some h => simp only [CReader.destroy]; split <;> simp

omit [Build] in
theorem wrapInt_small {n : Nat} (h : n < 2 ^ 27) : wrapInt n = n := by
  unfold wrapInt; omega

theorem finalize_ok (E : SeqEnv σ) {s : ApplyPatch} (h : SInv s) (w : World σ) :
    (applyPatchFinalize E s w = .error .uninit ∨ applyPatchFinalize E s w = .error .overflow) ∨
      ∃ res s' w', applyPatchFinalize E s w = .ok (res, s', w') ∧ FinOk s w (res, s', w') ∧ Counted s w s' w' ∧
        (s.state = .failed → s'.state = .failed ∧ w' = w ∧ res = ALREADY_FAILED) := by
  have hI := h.setChunk (buf := []) (po := s.patchOffset)
  have hci : ({ buf := [], offset := 0 } : Chunk).Inv := Nat.zero_le _
  simp only [applyPatchFinalize]
  generalize hs1 : ({ s with patchOffset := s.patchOffset, chunk := { buf := [], offset := 0 } } : ApplyPatch) = s1
  have hs1' : ({ s with chunk := { buf := [], offset := 0 } } : ApplyPatch) = s1 := by rw [← hs1]
  rw [hs1] at hI
  have hst : s1.state = s.state := by rw [← hs1]
  have hch : s1.chunk = { buf := [], offset := 0 } := by rw [← hs1]
  have hc1 : s1.chunk.Inv := by rw [hch]; exact hci
  have cnt : ∀ {s' w'}, Counted s1 w s' w' → Counted s w s' w' := by
    intro s' w' c
    refine ⟨c.inv, fun ho => c.off (by rw [← hs1]; exact ho), c.small, fun hn => ?_, ?_, c.grows⟩
    · rw [c.toSz (by rw [hst]; exact hn), ← hs1]
    · rw [c.psize, ← hs1]
  have hmu := s1.fuel_mu hc1
  rcases finalizeLoop_ok E s1.fuel s1 w hI (by omega) with (e | e) | ⟨out, e, e2, e3, e4⟩
  · left; left; rw [e]; rfl
  · left; right; rw [e]; rfl
  · right
    rw [e]
    simp only [Bind.bind, Except.bind]
    have hcnt := e2.counted
    by_cases hfail : s.state = .failed
    · have := e4 (by rw [hst]; exact hfail)
      subst this
      refine ⟨ALREADY_FAILED, s1, w, ?_, .fail [] rfl (by simp) (by decide) (by decide), cnt hcnt, fun _ => ⟨by rw [hst]; exact hfail, rfl, rfl⟩⟩
      have : commonFinalize ALREADY_FAILED s1.reader s1.toSize = ALREADY_FAILED := by
        unfold commonFinalize
        cases s1.reader <;> rfl
      rw [this]
    · cases e2 with
      | @ok s' w' res evs g1 g2 g3 g4 g5 =>
        have : res = 1 := g4.resolve_left (fun h => e3 h)
        subst this
        refine ⟨NOT_ENOUGH_PATCH_DATA, s', w', ?_, .fail evs g1.trace g2 (by decide) (by decide), cnt hcnt, fun hf => absurd hf hfail⟩
        have : commonFinalize 1 s'.reader s'.toSize = NOT_ENOUGH_PATCH_DATA := by
          unfold commonFinalize
          cases s'.reader <;> rfl
        simp only [this]
      | @done s' w' evs g1 g2 g3 =>
        have hsm := wrapInt_small g1.inv.toSz
        cases hr : s'.reader with
        | none =>
          refine ⟨s'.toSize, s', w', ?_, .ok evs g1.trace g2 g3 (by simp [hr]), cnt hcnt, fun hf => absurd hf hfail⟩
          simp [commonFinalize, hr, hsm, ALREADY_DONE]
        | some r =>
          rcases destroy_code r with hd | hd
          · refine ⟨s'.toSize, s', w', ?_, .ok evs g1.trace g2 g3 (by intro r' h'; rw [hr] at h'; cases h'; exact hd), cnt hcnt, fun hf => absurd hf hfail⟩
            simp [commonFinalize, hr, hsm, hd, ALREADY_DONE]
          · refine ⟨CORRUPT_PATCH, s', w', ?_, .fail evs g1.trace g2 (by decide) (by decide), cnt hcnt, fun hf => absurd hf hfail⟩
            simp [commonFinalize, hr, hd, ALREADY_DONE, CORRUPT_PATCH]
      | @fail s' w' e' evs g1 g2 g3 g4 g5 g6 =>
        refine ⟨e', s', w', ?_, .fail evs g1.trace g2 g3 g5, cnt hcnt, fun hf => absurd hf hfail⟩
        have h1 : e' ≠ 1 := by omega
        have h0 : e' ≠ 0 := by omega
        cases hr : s'.reader <;> simp [commonFinalize, h1, h0, g4]
      | @io s' w' ev evs g1 g2 g3 g4 =>
        refine ⟨IO_FAILED, s', w', ?_, .io ev evs g1.trace g2 g3 g4, cnt hcnt, fun hf => absurd hf hfail⟩
        cases hr : s'.reader <;> rfl

theorem SInv.start (n : Nat) : SInv (applyPatchInit n) :=
  ⟨(by intro h; cases h), (by show 0 < 2 ^ 64; omega), (by show 0 < 2 ^ 27; omega), (by intro h; cases h), fun _ => rfl,
    fun _ => ⟨Nat.zero_le _, (by intro h; cases h), fun h => absurd rfl h⟩⟩

end Detools
