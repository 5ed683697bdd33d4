import Verif.Proofs.CSeqCalls
/-
The header size decoder as a function of the bytes alone.
-/
namespace Detools

inductive HdrOut where
  | more (acc : SizeAcc)
  | value (v : Nat) (acc : SizeAcc) (rest : Bytes)
  | fail
deriving DecidableEq

def hdrRun (acc : SizeAcc) : Bytes → HdrOut
  | [] => .more acc
  | b :: t =>
    match headerSizeByte acc b with
    | .ok (acc', none) => hdrRun acc' t
    | .ok (acc', some (.value v)) => .value v.toNat acc' t
    | _ => .fail

theorem hdrRun_append (x y : Bytes) : ∀ acc, hdrRun acc (x ++ y) =
    match hdrRun acc x with
    | .more a => hdrRun a y
    | .value v a t => .value v a (t ++ y)
    | .fail => .fail := by
  induction x with
  | nil => intro acc; rfl
  | cons b t ih =>
    intro acc
    simp only [List.cons_append, hdrRun]
    cases headerSizeByte acc b with
    | error e => rfl
    | ok p =>
      obtain ⟨acc', o⟩ := p
      cases o with
      | none => exact ih acc'
      | some o =>
        cases o with
        | value v => rfl
        | more => rfl
        | fail e => rfl

/-- The outcome of the decoder on a chunk. -/
def HdrMatches (c : Chunk) (out : SizeRes × Chunk × SizeAcc) : HdrOut → Prop
  | .more a => ∃ c', out = (.more, c', a) ∧ c'.Inv ∧ c'.rest = []
  | .value v a t => ∃ c' : Chunk, out = (.value v, c', a) ∧ c'.Inv ∧ c'.rest = t ∧ c'.offset + t.length = c.buf.length
  | .fail => ∃ c' a, out = (.fail CORRUPT_PATCH_OVERFLOW, c', a)

theorem headerSize_run : ∀ (fuel : Nat) (c : Chunk) (acc : SizeAcc), c.Inv → acc.Inv → c.rest.length < fuel →
    ∃ out, chunkUnpackHeaderSize fuel c acc = .ok out ∧ HdrMatches c out (hdrRun acc c.rest) := by
  intro fuel
  induction fuel with
  | zero => intro c acc _ _ h; omega
  | succ fuel ih =>
    intro c acc hc ha hf
    unfold chunkUnpackHeaderSize
    cases hr : c.rest with
    | nil =>
      rw [c.get_nil hc hr]
      exact ⟨_, rfl, c, rfl, hc, hr⟩
    | cons b t =>
      obtain ⟨e1, e2, e3⟩ := c.get_cons hc hr
      rw [e1]
      simp only [Bind.bind, Except.bind]
      have hl : c.rest.length = t.length + 1 := by rw [hr]; rfl
      rcases headerSizeByte_cases ha b with ⟨acc', f1, f2⟩ | ⟨acc', v, f1, f2, f3, f4⟩ | ⟨acc', f1, f2⟩
      · rw [f1]
        simp only [hdrRun, f1]
        obtain ⟨out, q1, q2⟩ := ih { c with offset := c.offset + 1 } acc' e3 f2 (by rw [e2]; omega)
        rw [e2] at q2
        exact ⟨out, q1, q2⟩
      · rw [f1]
        simp only [hdrRun, f1]
        refine ⟨_, rfl, _, ?_, e3, e2, ?_⟩
        · rw [Int.toNat_of_nonneg f3]
        · have : c.rest.length = c.buf.length - c.offset := by simp [Chunk.rest]
          show c.offset + 1 + t.length = c.buf.length
          have : c.offset ≤ c.buf.length := hc
          omega
      · rw [f1]
        simp only [hdrRun, f1]
        exact ⟨_, rfl, _, _, rfl⟩

theorem hdrRun_inv : ∀ (x : Bytes) (acc : SizeAcc), acc.Inv →
    match hdrRun acc x with
    | .more a => a.Inv
    | .value v a t => a.Inv ∧ v < 2 ^ 27 ∧ t.length < x.length
    | .fail => True := by
  intro x
  induction x with
  | nil => intro acc h; exact h
  | cons b t ih =>
    intro acc h
    simp only [hdrRun]
    rcases headerSizeByte_cases h b with ⟨acc', f1, f2⟩ | ⟨acc', v, f1, f2, f3, f4⟩ | ⟨acc', f1, f2⟩
    · rw [f1]
      have := ih acc' f2
      simp only
      split at this
      · exact this
      · exact ⟨this.1, this.2.1, by simp only [List.length_cons]; omega⟩
      · trivial
    · rw [f1]
      exact ⟨f2, by omega, by simp⟩
    · rw [f1]; trivial

end Detools
