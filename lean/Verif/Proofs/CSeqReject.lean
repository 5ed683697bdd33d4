import Verif.Proofs.CSeqCalls
import Verif.Proofs.CSeqFailed
import Verif.Proofs.CInPlaceReject
/-
Patches the sequential C API must reject because of their first byte.
-/
namespace Detools

variable [Build]

variable {E : SeqEnv σ}

/-- The first byte of no sequential patch the C library can apply. -/
def SeqBadFirst (b : UInt8) : Prop :=
  (b.toNat >>> 4) &&& 0x7 ≠ 0 ∨ ¬ BuiltIn (b.toNat &&& 0xf)

/-- The first byte was read and the object can only fail. -/
def SeqDoomed (s : ApplyPatch) : Prop :=
  s.state = .failed ∨ (s.chunk.Inv ∧ s.size.Inv ∧ s.state = .init ∧ s.initState = .toSize ∧
    ¬ BuiltIn s.compression)

/-- Nothing was read. -/
def SeqUnread (s : ApplyPatch) : Prop := s.state = .init ∧ s.initState = .fixedHeader

theorem sonce_neg {s : ApplyPatch} {w : World σ} {e : Int} {s' : ApplyPatch} (hs : s.state = .init)
    (h : processInit s w = .ok (e, s', w)) (he : e < 0) :
    processOnce E s w = .ok (e, { s' with state := .failed }, w) := by
  unfold processOnce
  rw [if_neg (by rw [hs]; decide)]
  simp only [processSwitch, hs, h, Bind.bind, Except.bind]
  rw [if_pos he]

theorem sonce_pos {s : ApplyPatch} {w : World σ} {e : Int} {s' : ApplyPatch} (hs : s.state = .init)
    (h : processInit s w = .ok (e, s', w)) (he : 0 ≤ e) :
    processOnce E s w = .ok (e, s', w) := by
  unfold processOnce
  rw [if_neg (by rw [hs]; decide)]
  simp only [processSwitch, hs, h, Bind.bind, Except.bind]
  rw [if_neg (by omega)]

theorem sdoomed_once {s : ApplyPatch} (h : SeqDoomed s) (w : World σ) :
    ∃ res s', processOnce E s w = .ok (res, s', w) ∧ SeqDoomed s' ∧ res ≤ 1 ∧ res ≠ ALREADY_DONE := by
  rcases h with h | ⟨hc, hsz, hs, hi, hk⟩
  · exact ⟨_, _, failed_once E h, .inl h, by decide, by decide⟩
  · have he : processInit s w = processInitToSize s w := by simp only [processInit, hi]
    obtain ⟨⟨v, c', acc'⟩, e1, e2⟩ := headerSize_safe (s.chunk.left + 1) s.chunk s.size hc hsz
      (by rw [s.chunk.left_eq hc]; omega)
    unfold processInitToSize at he
    rw [e1] at he
    match v, e2 with
    | .more, ⟨g1, g2, g3⟩ => exact ⟨1, _, sonce_pos hs he (by decide), .inr ⟨g1, g2, hs, hi, hk⟩, by decide, by decide⟩
    | .fail e, ⟨g1, g2, g3⟩ =>
      subst g1
      exact ⟨_, _, sonce_neg hs he (by decide), .inl rfl, by decide, by decide⟩
    | .value v, _ =>
      simp only [Bind.bind, Except.bind, init_unknown hk] at he
      exact ⟨_, _, sonce_neg hs he (by decide), .inl rfl, by decide, by decide⟩

theorem sfirst_once {s : ApplyPatch} (hc : s.chunk.Inv) (h : SeqUnread s) (w : World σ)
    {b : UInt8} (hb : SeqBadFirst b) (hr : s.chunk.rest = [] ∨ ∃ t, s.chunk.rest = b :: t) :
    ∃ res s', processOnce E s w = .ok (res, s', w) ∧ SeqDoomed s' ∧ res ≤ 1 ∧ res ≠ ALREADY_DONE := by
  obtain ⟨hs, hi⟩ := h
  have he : processInit s w = processInitFixedHeader s w := by simp only [processInit, hi]
  unfold processInitFixedHeader at he
  rcases hr with hr | ⟨t, hr⟩
  · rw [s.chunk.get_nil hc hr] at he
    exact ⟨_, _, sonce_neg hs he (by decide), .inl rfl, by decide, by decide⟩
  · obtain ⟨e1, e2, e3⟩ := s.chunk.get_cons hc hr
    rw [e1] at he
    simp only [Bind.bind, Except.bind] at he
    by_cases ht : (b.toNat >>> 4) &&& 0x7 = 0
    · simp only [ht, ne_eq, not_true, if_false] at he
      exact ⟨_, _, sonce_pos hs he (Int.le_refl 0), .inr ⟨e3, (fun h => by cases h), hs, rfl, hb.resolve_left (fun h => h ht)⟩, by decide, by decide⟩
    · simp only [ht, ne_eq, not_false_iff, if_true] at he
      exact ⟨_, _, sonce_neg hs he (by decide), .inl rfl, by decide, by decide⟩

theorem sdoomed_loop : ∀ (fuel : Nat) (res : Int) {s : ApplyPatch} (w : World σ), SeqDoomed s → res ≤ 1 ∧ res ≠ ALREADY_DONE →
    ∀ {r s' w'}, processLoop E fuel res s w = .ok (r, s', w') → w' = w ∧ SeqDoomed s' ∧ r ≤ 1 ∧ r ≠ ALREADY_DONE := by
  intro fuel
  induction fuel with
  | zero => intro res s w _ _ r s' w' h; cases h
  | succ fuel ih =>
    intro res s w hd hr r s' w' h
    rw [processLoop] at h
    split at h
    · obtain ⟨r1, s1, e1, h1, h2⟩ := sdoomed_once (E := E) hd w
      rw [e1] at h
      exact ih r1 w h1 h2 h
    · cases h; exact ⟨rfl, hd, hr⟩

theorem sdoomed_fin : ∀ (fuel : Nat) {s : ApplyPatch} (w : World σ), SeqDoomed s →
    ∀ {r s' w'}, finalizeLoop E fuel s w = .ok (r, s', w') → w' = w ∧ SeqDoomed s' ∧ r ≤ 1 ∧ r ≠ ALREADY_DONE ∧ r ≠ 0 := by
  intro fuel
  induction fuel with
  | zero => intro s w _ r s' w' h; cases h
  | succ fuel ih =>
    intro s w hd r s' w' h
    rw [finalizeLoop] at h
    obtain ⟨r1, s1, e1, h1, h2, h3⟩ := sdoomed_once (E := E) hd w
    rw [e1] at h
    simp only [Bind.bind, Except.bind] at h
    split at h
    · exact ih w h1 h
    · rename_i hne
      cases h; exact ⟨rfl, h1, h2, h3, hne⟩

theorem SeqDoomed.setChunk {s : ApplyPatch} (h : SeqDoomed s) (p : Bytes) (n : Nat) :
    SeqDoomed { s with patchOffset := n, chunk := { buf := p, offset := 0 } } :=
  h.imp id fun ⟨_, b, c, d, e⟩ => ⟨Nat.zero_le _, b, c, d, e⟩

theorem fuel_pos (s : ApplyPatch) : ∃ f, s.fuel = f + 1 := by
  unfold ApplyPatch.fuel
  exact ⟨_, (Nat.succ_pred_eq_of_pos (by omega)).symm⟩

theorem sdoomed_process {s : ApplyPatch} (h : SeqDoomed s) {w : World σ} {p : Bytes} {r s' w'}
    (he : applyPatchProcess E s w p = .ok (r, s', w')) : w' = w ∧ SeqDoomed s' ∧ r ≤ 0 := by
  unfold applyPatchProcess at he
  simp only at he
  cases hl : processLoop E _ 0 { s with patchOffset := sz (s.patchOffset + p.length), chunk := { buf := p, offset := 0 } } w with
  | error u => rw [hl] at he; cases he
  | ok x =>
    obtain ⟨r1, s1, w1⟩ := x
    rw [hl] at he
    obtain ⟨a, b, c, d⟩ := sdoomed_loop _ _ w (h.setChunk p _) ⟨by decide, by decide⟩ hl
    simp only [Bind.bind, Except.bind] at he
    split at he
    · cases he; exact ⟨a, b, by decide⟩
    · cases he; exact ⟨a, b, by omega⟩

theorem sdoomed_finalize {s : ApplyPatch} (h : SeqDoomed s) {w : World σ} {r s' w'}
    (he : applyPatchFinalize E s w = .ok (r, s', w')) : w' = w ∧ SeqDoomed s' ∧ r < 0 := by
  unfold applyPatchFinalize at he
  simp only at he
  cases hl : finalizeLoop E _ { s with chunk := { buf := [], offset := 0 } } w with
  | error u => rw [hl] at he; cases he
  | ok x =>
    obtain ⟨r1, s1, w1⟩ := x
    rw [hl] at he
    obtain ⟨a, b, c, d, e⟩ := sdoomed_fin _ w (h.setChunk [] s.patchOffset) hl
    simp only [Bind.bind, Except.bind] at he
    cases he
    exact ⟨a, b, cf_neg c d e _ _⟩

theorem sunread_process {b : UInt8} (hb : SeqBadFirst b) {s : ApplyPatch} (h : SeqUnread s) {w : World σ} {p : Bytes} {r s' w'}
    (hp : p = [] ∨ ∃ t, p = b :: t)
    (he : applyPatchProcess E s w p = .ok (r, s', w')) : w' = w ∧ r ≤ 0 ∧ (SeqDoomed s' ∨ p = [] ∧ SeqUnread s') := by
  unfold applyPatchProcess at he
  simp only at he
  obtain ⟨f, hf⟩ := fuel_pos { s with patchOffset := sz (s.patchOffset + p.length), chunk := { buf := p, offset := 0 } }
  rw [hf] at he
  rcases hp with rfl | ⟨t, rfl⟩
  · rw [processLoop_stop E (.inl rfl)] at he
    simp only [Bind.bind, Except.bind] at he
    rw [if_neg (by decide)] at he
    cases he
    exact ⟨rfl, by decide, .inr ⟨rfl, h⟩⟩
  · rw [processLoop, if_pos ⟨by simp [Chunk.available, Chunk.left], by decide⟩] at he
    obtain ⟨r1, s1, e1, h1, h2⟩ := sfirst_once (E := E)
      (s := { s with patchOffset := sz (s.patchOffset + (b :: t).length), chunk := { buf := b :: t, offset := 0 } }) (Nat.zero_le _) h w hb (.inr ⟨t, rfl⟩)
    rw [e1] at he
    simp only [Bind.bind, Except.bind] at he
    cases hl : processLoop E f r1 s1 w with
    | error u => rw [hl] at he; cases he
    | ok x =>
      obtain ⟨r2, s2, w2⟩ := x
      rw [hl] at he
      obtain ⟨a, b, c, d⟩ := sdoomed_loop _ _ w h1 h2 hl
      simp only at he
      split at he
      · cases he; exact ⟨a, by decide, .inl b⟩
      · cases he; exact ⟨a, by omega, .inl b⟩

theorem sunread_finalize {s : ApplyPatch} (h : SeqUnread s) {w : World σ} {r s' w'}
    (he : applyPatchFinalize E s w = .ok (r, s', w')) : w' = w ∧ r < 0 ∧ SeqDoomed s' := by
  unfold applyPatchFinalize at he
  simp only at he
  obtain ⟨f, hf⟩ := fuel_pos { s with chunk := { buf := [], offset := 0 } }
  rw [hf] at he
  obtain ⟨r1, s1, e1, h1, h2, h3⟩ := sfirst_once (E := E) (s := { s with chunk := { buf := [], offset := 0 } }) (Nat.zero_le _) h w
    (b := 16) (.inl (by decide)) (.inl rfl)
  rw [finalizeLoop, e1] at he
  simp only [Bind.bind, Except.bind] at he
  by_cases h0 : r1 = 0
  · rw [if_pos h0] at he
    cases hl : finalizeLoop E f s1 w with
    | error u => rw [hl] at he; cases he
    | ok x =>
      obtain ⟨r2, s2, w2⟩ := x
      rw [hl] at he
      obtain ⟨a, b, c, d, e⟩ := sdoomed_fin _ w h1 hl
      cases he
      exact ⟨a, cf_neg c d e _ _, b⟩
  · rw [if_neg h0] at he
    cases he
    exact ⟨rfl, cf_neg h2 h3 h0 _ _, h1⟩

theorem sbad_runs {b : UInt8} (hb : SeqBadFirst b) : ∀ (calls : List Call) {s : ApplyPatch} (w : World σ),
    (SeqDoomed s ∨ SeqUnread s ∧ (fedBytes calls = [] ∨ ∃ t, fedBytes calls = b :: t)) →
    ∀ {rs s' w'}, runCalls E s w calls = .ok (rs, s', w') → w' = w ∧ Rejecting calls rs := by
  intro calls
  induction calls with
  | nil => intro s w _ rs s' w' h; cases h; exact ⟨rfl, trivial⟩
  | cons c cs ih =>
    intro s w hs rs s' w' h
    cases c with
    | process p =>
      rw [runCalls] at h
      cases hp : applyPatchProcess E s w p with
      | error u => rw [hp] at h; cases h
      | ok x =>
        obtain ⟨r1, s1, w1⟩ := x
        rw [hp] at h
        simp only [Bind.bind, Except.bind] at h
        have key : w1 = w ∧ r1 ≤ 0 ∧ (SeqDoomed s1 ∨ SeqUnread s1 ∧ (fedBytes cs = [] ∨ ∃ t, fedBytes cs = b :: t)) := by
          rcases hs with hs | ⟨hs, hfed⟩
          · obtain ⟨a, b, c⟩ := sdoomed_process hs hp
            exact ⟨a, c, .inl b⟩
          · have hpp : p = [] ∨ ∃ t, p = b :: t := by
              cases p with
              | nil => exact .inl rfl
              | cons x t =>
                rcases hfed with h | ⟨t', h⟩
                · simp [fedBytes] at h
                · simp only [fedBytes, List.cons_append, List.cons.injEq] at h
                  exact .inr ⟨t, by rw [h.1]⟩
            obtain ⟨a, k, c⟩ := sunread_process hb hs hpp hp
            refine ⟨a, k, c.imp id fun ⟨e, k⟩ => ⟨k, ?_⟩⟩
            subst e
            simpa [fedBytes] using hfed
        obtain ⟨rfl, k1, k2⟩ := key
        cases hq : runCalls E s1 w1 cs with
        | error u => rw [hq] at h; cases h
        | ok y =>
          obtain ⟨rs2, s2, w2⟩ := y
          rw [hq] at h
          cases h
          obtain ⟨a, b⟩ := ih w1 k2 hq
          exact ⟨a, k1, b⟩
    | finalize =>
      rw [runCalls] at h
      cases hp : applyPatchFinalize E s w with
      | error u => rw [hp] at h; cases h
      | ok x =>
        obtain ⟨r1, s1, w1⟩ := x
        rw [hp] at h
        simp only [Bind.bind, Except.bind] at h
        have key : w1 = w ∧ r1 < 0 ∧ SeqDoomed s1 := by
          rcases hs with hs | ⟨hs, hfed⟩
          · obtain ⟨a, b, c⟩ := sdoomed_finalize hs hp
            exact ⟨a, c, b⟩
          · exact sunread_finalize hs hp
        obtain ⟨rfl, k1, k2⟩ := key
        cases hq : runCalls E s1 w1 cs with
        | error u => rw [hq] at h; cases h
        | ok y =>
          obtain ⟨rs2, s2, w2⟩ := y
          rw [hq] at h
          cases h
          obtain ⟨a, b⟩ := ih w1 (.inl k2) hq
          exact ⟨a, k1, b⟩

end Detools
