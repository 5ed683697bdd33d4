import Verif.Proofs.Crle
import Verif.Spec.Drive

namespace Detools

/-- The invariant of a CRLE decompressor working on a complete stream. -/
def crleOwes (st : CrleD) (file out : Bytes) : Prop := crleLossless.owes st file out

theorem crleOwes_eof {st file out} (h : crleOwes st file out) : st.eof = true ↔ out = [] := crleLossless.eof_iff h

/-- One call with any slice and any size. -/
theorem crleOwes_step {st : CrleD} {d file' out : Bytes} (size : Nat) (h : crleOwes st (d ++ file') out)
    (hne : out ≠ []) :
    ∃ st' o out', crleDecompressor.decompress st d size = .ok (st', o) ∧ out = o ++ out' ∧ o.length ≤ size ∧
      crleOwes st' file' out' ∧ (file' = [] → o = out.take size) := by
  have heof : CrleD.eof st = false := by
    have := crleOwes_eof h
    simp [hne] at this
    simpa using this
  obtain ⟨h1, o', h2, h3, l, h4⟩ := h
  simp only [crleDecompressor, heof, Bool.false_eq_true, if_false]
  have htake : d.take st.indataLeft = d := by
    apply List.take_of_length_le
    rw [h1]; simp
  rw [htake]
  rw [← List.append_assoc] at h3
  obtain ⟨out1, rest, k', o1, g1, g2, g3, g4⟩ := crleSegments_ok file' ((st.indata ++ d).length + 1) (st.indata ++ d) _ _ (by omega) h3
  rw [g1]
  simp only [bind, Except.bind, pure, Except.pure]
  refine ⟨_, _, (st.outdata ++ out1).drop size ++ o1, rfl, ?_, ?_, ⟨?_, o1, rfl, g3, g4⟩, ?_⟩
  · rw [← List.append_assoc, List.take_append_drop, h2, g2, List.append_assoc]
  · simp; omega
  · simp only [h1]; simp
  · intro hf
    subst hf
    simp only [List.append_nil] at g3
    have ho1 : o1 = [] := by
      obtain ⟨l', g4⟩ := g4
      apply Classical.byContradiction
      intro hne'
      exact g3.not_stuck hne' l' g4
    rw [h2, g2, ho1, List.append_nil]

theorem crleOwes_drive (calls : List (Bytes × Nat)) : ∀ (st : CrleD) (file out : Bytes),
    crleOwes st (inputOf calls ++ file) out →
    ∃ st' o out', drive crleDecompressor st calls = .ok (st', o) ∧ out = o ++ out' ∧ crleOwes st' file out' := by
  induction calls with
  | nil => intro st file out h; exact ⟨st, [], out, rfl, rfl, by simpa [inputOf] using h⟩
  | cons c calls ih =>
    obtain ⟨d, n⟩ := c
    intro st file out h
    have hin : inputOf ((d, n) :: calls) ++ file = d ++ (inputOf calls ++ file) := by simp [inputOf]
    rw [hin] at h
    by_cases hne : out = []
    · have he := (crleOwes_eof h).2 hne
      have hf : d ++ (inputOf calls ++ file) = [] := by
        obtain ⟨h1, o', h2, h3, _⟩ := h
        simp [CrleD.eof] at he
        have := he.1.1
        rw [h1] at this
        exact List.eq_nil_of_length_eq_zero this
      simp at hf
      refine ⟨st, [], [], ?_, by simp [hne], ?_⟩
      · simp [drive, crleDecompressor, he]
      · simpa [hf, hne] using h
    · have he : st.eof = false := by
        have := crleOwes_eof h; simp [hne] at this; simpa using this
      obtain ⟨st1, o1, out1, a1, a2, a3, a4, _⟩ := crleOwes_step n h hne
      obtain ⟨st2, o2, out2, b1, b2, b3⟩ := ih st1 file out1 a4
      refine ⟨st2, o1 ++ o2, out2, ?_, ?_, b3⟩
      · have he' : crleDecompressor.eof st = false := he
        simp only [drive, he', Bool.false_eq_true, if_false, a1, b1]
      · rw [a2, b2, List.append_assoc]

theorem drive_append (D : Decompressor) (calls : List (Bytes × Nat)) (d : Bytes) (n : Nat) :
    ∀ (st st' : D.σ) (o : Bytes), drive D st calls = .ok (st', o) →
    drive D st (calls ++ [(d, n)]) =
      if D.eof st' then .ok (st', o)
      else match D.decompress st' d n with
        | .error e => .error e
        | .ok (st'', o') => .ok (st'', o ++ o') := by
  induction calls with
  | nil =>
    intro st st' o h
    simp [drive] at h
    obtain ⟨rfl, rfl⟩ := h
    simp only [List.nil_append, drive]
    split
    · rfl
    · split <;> simp_all
  | cons c calls ih =>
    obtain ⟨d', n'⟩ := c
    intro st st' o h
    simp only [drive, List.cons_append] at h ⊢
    split at h
    · rename_i he
      simp at h
      obtain ⟨rfl, rfl⟩ := h
      simp [he]
    · rename_i he
      rw [if_neg he]
      split at h
      · simp at h
      · rename_i st1 o1 hd
        split at h
        · simp at h
        · rename_i st2 o2 hd2
          simp at h
          obtain ⟨rfl, rfl⟩ := h
          rw [ih _ _ _ hd2]
          by_cases he' : D.eof st2 = true
          · simp [he']
          · rw [if_neg he', if_neg he']
            cases hdd : D.decompress st2 d n with
            | error e => simp
            | ok r => simp

/-- The stream of the empty string. -/
def crleOwes0 (st : CrleD) (file : Bytes) : Prop :=
  st.indataLeft = file.length ∧ st.outdata = [] ∧ st.scatteredLeft = 0 ∧
    ((st.indata = [] ∧ file = [0, 0]) ∨ (st.indata = [0] ∧ file = [0]) ∨ (st.indata = [] ∧ file = []))

theorem crleOwes0_eof {st file} (h : crleOwes0 st file) : st.eof = true ↔ file = [] := by
  obtain ⟨h1, h2, h3, h4 | h4 | h4⟩ := h <;> simp [CrleD.eof, h1, h2, h4]

theorem crleOwes0_step {st : CrleD} {d file' : Bytes} (size : Nat) (h : crleOwes0 st (d ++ file'))
    (hne : d ++ file' ≠ []) :
    ∃ st', crleDecompressor.decompress st d size = .ok (st', []) ∧ crleOwes0 st' file' := by
  have heof : CrleD.eof st = false := by
    have := crleOwes0_eof h; simp only [hne, iff_false] at this; simpa using this
  simp only [crleDecompressor, heof, Bool.false_eq_true, if_false]
  obtain ⟨h1, h2, h3, h4⟩ := h
  have htake : d.take st.indataLeft = d := by
    apply List.take_of_length_le
    rw [h1]; simp
  rw [htake]
  have hcases : (st.indata = [] ∧ ((d = [] ∧ file' = [0,0]) ∨ (d = [0] ∧ file' = [0]) ∨ (d = [0,0] ∧ file' = []))) ∨
      (st.indata = [0] ∧ ((d = [] ∧ file' = [0]) ∨ (d = [0] ∧ file' = []))) := by
    rcases h4 with ⟨a, b⟩ | ⟨a, b⟩ | ⟨a, b⟩
    · left; refine ⟨a, ?_⟩
      match d, b with
      | [], b => left; simpa using b
      | [x], b => right; left; simpa using b
      | [x, y], b => right; right; simpa [and_assoc] using b
      | x :: y :: z :: t, b => simp at b
    · right; refine ⟨a, ?_⟩
      match d, b with
      | [], b => left; simpa using b
      | [x], b => right; simpa using b
      | x :: y :: t, b => simp at b
    · exact absurd b hne
  rcases hcases with ⟨a, ⟨rfl, rfl⟩ | ⟨rfl, rfl⟩ | ⟨rfl, rfl⟩⟩ | ⟨a, ⟨rfl, rfl⟩ | ⟨rfl, rfl⟩⟩ <;>
    simp [a, h1, h2, h3, crleSegments, crleSegment, crleUnpackSize, bind, Except.bind, pure, Except.pure, crleOwes0]

theorem crleOwes0_drive (calls : List (Bytes × Nat)) : ∀ (st : CrleD) (file : Bytes),
    crleOwes0 st (inputOf calls ++ file) →
    ∃ st', drive crleDecompressor st calls = .ok (st', []) ∧ crleOwes0 st' file := by
  induction calls with
  | nil => intro st file h; exact ⟨st, rfl, by simpa [inputOf] using h⟩
  | cons c calls ih =>
    obtain ⟨d, n⟩ := c
    intro st file h
    have hin : inputOf ((d, n) :: calls) ++ file = d ++ (inputOf calls ++ file) := by simp [inputOf]
    rw [hin] at h
    by_cases hne : d ++ (inputOf calls ++ file) = []
    · have he := (crleOwes0_eof h).2 hne
      have hf := hne
      simp at hf
      refine ⟨st, ?_, ?_⟩
      · simp [drive, crleDecompressor, he]
      · simpa [hf] using h
    · have he : st.eof = false := by
        have := crleOwes0_eof h; simp only [hne, iff_false] at this; simpa using this
      obtain ⟨st1, a1, a2⟩ := crleOwes0_step n h hne
      obtain ⟨st2, b1, b2⟩ := ih st1 file a2
      refine ⟨st2, ?_, b2⟩
      have he' : crleDecompressor.eof st = false := he
      simp only [drive, he', Bool.false_eq_true, if_false, a1, b1, List.append_nil]

theorem crle_run_empty (chunks : List Bytes) (h : chunks.flatten = []) : crleCodec.comp.run chunks = [0, 0] := by
  have key : ∀ l : List Bytes, l.flatten = [] → Compressor.run.go crleCompressor ({} : CrleC) l = [0, 0] := by
    intro l
    induction l with
    | nil => intro _; simp [Compressor.run.go, crleCompressor, crlePackSize, packGroups_zero, clearLast]; decide
    | cons a t ih =>
      intro hl
      simp at hl
      obtain ⟨rfl, ht⟩ := hl
      have := ih (by simpa using ht)
      simpa [Compressor.run.go, crleCompressor, crleCompressSegment] using this
  exact key chunks h

end Detools
