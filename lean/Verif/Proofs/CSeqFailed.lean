import Verif.Proofs.CSeqHist
/-
Calls on an object that has failed.
-/
namespace Detools

variable [Build]

theorem failed_once (E : SeqEnv σ) {s : ApplyPatch} {w : World σ} (hf : s.state = .failed) :
    processOnce E s w = .ok (ALREADY_FAILED, s, w) := by
  have : ({ s with state := .failed } : ApplyPatch) = s := by rw [← hf]
  simp only [processOnce, processSwitch, hf, Bind.bind, Except.bind]
  rw [if_neg (by decide), if_pos (by decide), this]

theorem failed_loop (E : SeqEnv σ) (f : Nat) {s : ApplyPatch} {w : World σ} (hf : s.state = .failed) :
    processLoop E (f + 2) 0 s w = .ok (if s.chunk.available then ALREADY_FAILED else 0, s, w) := by
  cases ha : s.chunk.available with
  | false => rw [processLoop_stop E (.inl ha)]; rfl
  | true =>
    rw [processLoop, if_pos ⟨ha, by decide⟩, failed_once E hf]
    simp only [Bind.bind, Except.bind]
    rw [processLoop_stop E (.inr afNeg)]
    rfl

theorem failed_finalize (E : SeqEnv σ) (f : Nat) {s : ApplyPatch} {w : World σ} (hf : s.state = .failed) :
    finalizeLoop E (f + 1) s w = .ok (ALREADY_FAILED, s, w) := by
  rw [finalizeLoop, failed_once E hf]
  simp only [Bind.bind, Except.bind]
  rw [if_neg af0]

theorem failed_process (E : SeqEnv σ) {s : ApplyPatch} {w : World σ} (hs : SInv s) (hf : s.state = .failed) (p : Bytes) :
    ∃ s1, applyPatchProcess E s w p = .ok (afterFailure (.process p), s1, w) ∧ SInv s1 ∧ s1.state = .failed := by
  have hI := hs.setChunk (buf := p) (po := sz (s.patchOffset + p.length))
  have hst : ({ s with patchOffset := sz (s.patchOffset + p.length), chunk := { buf := p, offset := 0 } } : ApplyPatch).state = .failed := hf
  have hav : ({ s with patchOffset := sz (s.patchOffset + p.length), chunk := { buf := p, offset := 0 } } : ApplyPatch).chunk.available = !p.isEmpty := by
    cases p <;> simp [Chunk.available, Chunk.left]
  have hci : ({ s with patchOffset := sz (s.patchOffset + p.length), chunk := { buf := p, offset := 0 } } : ApplyPatch).chunk.Inv := Nat.zero_le _
  unfold applyPatchProcess
  simp only
  generalize ({ s with patchOffset := sz (s.patchOffset + p.length), chunk := { buf := p, offset := 0 } } : ApplyPatch) = s0 at *
  have hmu := s0.fuel_mu hci
  generalize s0.fuel = fu at *
  obtain ⟨f, rfl⟩ : ∃ f, fu = f + 2 := ⟨fu - 2, by omega⟩
  refine ⟨s0, ?_, hI, hst⟩
  rw [failed_loop E f hst, hav]
  cases p with
  | nil => rfl
  | cons b t => rfl

theorem failed_final (E : SeqEnv σ) {s : ApplyPatch} {w : World σ} (hs : SInv s) (hf : s.state = .failed) :
    ∃ s1, applyPatchFinalize E s w = .ok (ALREADY_FAILED, s1, w) ∧ SInv s1 ∧ s1.state = .failed := by
  have hI := hs.setChunk (buf := []) (po := s.patchOffset)
  have hst : ({ s with patchOffset := s.patchOffset, chunk := { buf := [], offset := 0 } } : ApplyPatch).state = .failed := hf
  have hci : ({ s with patchOffset := s.patchOffset, chunk := { buf := [], offset := 0 } } : ApplyPatch).chunk.Inv := Nat.zero_le _
  unfold applyPatchFinalize
  simp only
  have hs1' : ({ s with chunk := { buf := [], offset := 0 } } : ApplyPatch) = { s with patchOffset := s.patchOffset, chunk := { buf := [], offset := 0 } } := rfl
  rw [hs1']
  generalize ({ s with patchOffset := s.patchOffset, chunk := { buf := [], offset := 0 } } : ApplyPatch) = s0 at *
  have hmu := s0.fuel_mu hci
  generalize s0.fuel = fu at *
  obtain ⟨f, rfl⟩ : ∃ f, fu = f + 1 := ⟨fu - 1, by omega⟩
  refine ⟨s0, ?_, hI, hst⟩
  rw [failed_finalize E f hst]
  simp only [Bind.bind, Except.bind]
  cases s0.reader <;> rfl

theorem runCalls_nil (E : SeqEnv σ) (s : ApplyPatch) (w : World σ) : runCalls E s w [] = .ok ([], s, w) := by
  rw [runCalls]

theorem runCalls_process (E : SeqEnv σ) {s : ApplyPatch} {w : World σ} {p : Bytes} {cs : List Call} {res s1 w1}
    (e : applyPatchProcess E s w p = .ok (res, s1, w1)) :
    runCalls E s w (.process p :: cs) = (runCalls E s1 w1 cs).map fun (rs, s, w) => (res :: rs, s, w) := by
  rw [runCalls, e]
  simp only [Bind.bind, Except.bind]
  generalize runCalls E s1 w1 cs = rc
  cases rc <;> rfl

theorem runCalls_finalize (E : SeqEnv σ) {s : ApplyPatch} {w : World σ} {cs : List Call} {res s1 w1}
    (e : applyPatchFinalize E s w = .ok (res, s1, w1)) :
    runCalls E s w (.finalize :: cs) = (runCalls E s1 w1 cs).map fun (rs, s, w) => (res :: rs, s, w) := by
  rw [runCalls, e]
  simp only [Bind.bind, Except.bind]
  generalize runCalls E s1 w1 cs = rc
  cases rc <;> rfl

theorem failed_calls (E : SeqEnv σ) : ∀ (post : List Call) {s : ApplyPatch} {w : World σ}, SInv s → s.state = .failed →
    ∃ s', runCalls E s w post = .ok (post.map afterFailure, s', w) := by
  intro post
  induction post with
  | nil => intro s w _ _; exact ⟨s, runCalls_nil E s w⟩
  | cons c cs ih =>
    intro s w hs hf
    cases c with
    | process p =>
      obtain ⟨s1, e1, h1, h2⟩ := failed_process E (w := w) hs hf p
      obtain ⟨s2, e2⟩ := ih (w := w) h1 h2
      refine ⟨s2, ?_⟩
      rw [runCalls_process E e1, e2]; rfl
    | finalize =>
      obtain ⟨s1, e1, h1, h2⟩ := failed_final E (w := w) hs hf
      obtain ⟨s2, e2⟩ := ih (w := w) h1 h2
      refine ⟨s2, ?_⟩
      rw [runCalls_finalize E e1, e2]; rfl

end Detools
