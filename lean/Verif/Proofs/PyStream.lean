import Verif.Spec.Codec
import Verif.Proofs.Varint

namespace Detools

theorem PatchReader.loop_zero {D : Decompressor} (fuel : Nat) (r : PatchReader D) (size : Nat) (buf : Bytes)
    (h : ¬ buf.length < size) : PatchReader.loop fuel r size buf = .ok (buf, r) := by
  unfold PatchReader.loop; rw [if_neg h]

/-- The patch reader delivers the owed bytes, given enough fuel. -/
theorem PatchReader.loop_ok {D : Decompressor} (L : Delivers D) :
    ∀ (n m : Nat) (r : PatchReader D) (out : Bytes) (size : Nat) (buf : Bytes),
    L.owes r.st r.file out → buf.length ≤ size → size - buf.length ≤ out.length →
    size - buf.length ≤ n → L.measure r.st r.file ≤ m →
    ∃ F r', (∀ fuel, F ≤ fuel → PatchReader.loop fuel r size buf
        = .ok (buf ++ out.take (size - buf.length), r')) ∧
      L.owes r'.st r'.file (out.drop (size - buf.length)) := by
  intro n
  induction n using Nat.strongRecOn with
  | _ n ihn =>
  intro m
  induction m using Nat.strongRecOn with
  | _ m ihm =>
  intro r out size buf hO hle hout hn hm
  by_cases hlt : buf.length < size
  · have hne : out ≠ [] := by
      intro h; subst h; simp at hout; omega
    obtain ⟨hin, st', o, out', hd, ho, hol, hO', hprog⟩ := L.step (size - buf.length) hO hne (by omega)
    have heof : D.eof r.st = false := by
      cases he : D.eof r.st with
      | false => rfl
      | true => exact absurd ((L.eof_iff hO).1 he) hne
    have unf : ∀ fuel, PatchReader.loop (fuel + 1) r size buf =
        PatchReader.loop fuel { st := st', file := if D.needsInput r.st then r.file.drop 4096 else r.file }
          size (buf ++ o) := by
      intro fuel
      rw [PatchReader.loop]
      rw [if_pos hlt]
      simp only [heof, Bool.false_eq_true, if_false]
      rw [if_neg]
      · rw [hd]
      · rintro ⟨h1, h2⟩
        have h3 := hin h1
        rw [h1] at h2
        simp at h2
        exact h3 h2
    have key : ∃ F r', (∀ fuel, F ≤ fuel → PatchReader.loop fuel { st := st', file := if D.needsInput r.st then r.file.drop 4096 else r.file } size (buf ++ o)
        = .ok ((buf ++ o) ++ out'.take (size - (buf ++ o).length), r')) ∧
        L.owes r'.st r'.file (out'.drop (size - (buf ++ o).length)) := by
      by_cases ho0 : o = []
      · refine ihm _ ?_ _ out' size (buf ++ o) hO' ?_ ?_ ?_ (Nat.le_refl _)
        · have := hprog ho0; simp only; omega
        · subst ho0; simpa using hle
        · subst ho0; simp at ho; subst ho; simpa using hout
        · subst ho0; simpa using hn
      · have : 0 < o.length := List.length_pos_iff.2 ho0
        refine ihn (size - (buf ++ o).length) ?_ _ _ out' size (buf ++ o) hO' ?_ ?_ (Nat.le_refl _) (Nat.le_refl _)
        · simp; omega
        · simp; omega
        · rw [ho] at hout; simp at hout ⊢; omega
    obtain ⟨F, r', hF, hO''⟩ := key
    refine ⟨F + 1, r', ?_, ?_⟩
    · intro fuel hf
      obtain ⟨k, rfl⟩ : ∃ k, fuel = k + 1 := ⟨fuel - 1, by omega⟩
      rw [unf, hF k (by omega)]
      congr 2
      rw [ho, List.append_assoc, List.take_append]
      have e1 : List.take (size - buf.length) o = o := List.take_of_length_le hol
      have e2 : size - (buf ++ o).length = size - buf.length - o.length := by simp; omega
      rw [e1, e2]
    · have e2 : size - (buf ++ o).length = size - buf.length - o.length := by simp; omega
      rw [e2] at hO''
      rw [ho, List.drop_append]
      have e1 : List.drop (size - buf.length) o = [] := List.drop_of_length_le hol
      rw [e1]; simpa using hO''
  · refine ⟨0, r, ?_, ?_⟩
    · intro fuel _
      rw [PatchReader.loop_zero _ _ _ _ hlt]
      have : size - buf.length = 0 := by omega
      simp [this]
    · have : size - buf.length = 0 := by omega
      simpa [this] using hO

theorem PatchReader.read_ok {D : Decompressor} (L : Delivers D) (r : PatchReader D) (a b : Bytes)
    (hO : L.owes r.st r.file (a ++ b)) :
    ∃ F r', (∀ fuel, F ≤ fuel → r.read fuel a.length = .ok (a, r')) ∧ L.owes r'.st r'.file b := by
  obtain ⟨F, r', h1, h2⟩ := PatchReader.loop_ok L a.length _ r (a ++ b) a.length [] hO (by simp) (by simp) (by simp) (Nat.le_refl _)
  refine ⟨F, r', ?_, by simpa using h2⟩
  intro fuel hf
  have := h1 fuel hf
  simpa [PatchReader.read] using this

theorem PatchReader.readByte_ok {D : Decompressor} (L : Delivers D) (r : PatchReader D) (x : UInt8) (b : Bytes)
    (hO : L.owes r.st r.file (x :: b)) :
    ∃ F r', (∀ fuel, F ≤ fuel → ∀ msg, r.readByte fuel msg = .ok (x, r')) ∧ L.owes r'.st r'.file b := by
  obtain ⟨F, r', h1, h2⟩ := PatchReader.read_ok L r [x] b (by simpa using hO)
  refine ⟨F, r', ?_, h2⟩
  intro fuel hf msg
  have := h1 fuel hf
  simp only [List.length_cons, List.length_nil] at this
  simp [PatchReader.readByte, this]

/-- Reading a size from a patch reader agrees with reading it from a plain file
holding the decompressed data. -/
theorem PatchReader.unpackLoop_ok {D : Decompressor} (L : Delivers D) (bs : Bytes) :
    ∀ (r : PatchReader D) (value offset v o : Nat) (rest : Bytes),
    L.owes r.st r.file bs → Detools.unpackLoop value offset bs = .ok (v, o, rest) →
    ∃ F r', (∀ fuel rf, F ≤ fuel → F ≤ rf → PatchReader.unpackLoop rf fuel r value offset = .ok (v, r')) ∧
      L.owes r'.st r'.file rest := by
  induction bs with
  | nil => intro r value offset v o rest _ h; simp [Detools.unpackLoop] at h
  | cons b bs ih =>
    intro r value offset v o rest hO h
    obtain ⟨F1, r1, h1, hO1⟩ := PatchReader.readByte_ok L r b bs hO
    simp only [Detools.unpackLoop] at h
    split at h
    · next hb =>
      obtain ⟨F2, r2, h2, hO2⟩ := ih r1 _ _ v o rest hO1 h
      refine ⟨max F1 (F2 + 1), r2, ?_, hO2⟩
      intro fuel rf hf hrf
      obtain ⟨k, rfl⟩ : ∃ k, fuel = k + 1 := ⟨fuel - 1, by omega⟩
      simp only [PatchReader.unpackLoop, h1 rf (by omega), bind, Except.bind, if_pos hb]
      exact h2 k rf (by omega) (by omega)
    · next hb =>
      simp only [Except.ok.injEq, Prod.mk.injEq] at h
      obtain ⟨rfl, rfl, rfl⟩ := h
      refine ⟨F1 + 1, r1, ?_, hO1⟩
      intro fuel rf hf hrf
      obtain ⟨k, rfl⟩ : ∃ k, fuel = k + 1 := ⟨fuel - 1, by omega⟩
      simp only [PatchReader.unpackLoop, h1 rf (by omega), bind, Except.bind, if_neg hb]

theorem PatchReader.unpackSize_ok' {D : Decompressor} (L : Delivers D) (r : PatchReader D) (bs : Bytes)
    (v : Int) (rest : Bytes) (hO : L.owes r.st r.file bs) (h : Detools.unpackSize bs = .ok (v, rest)) :
    ∃ F r', (∀ fuel, F ≤ fuel → r.unpackSize fuel = .ok (v, r')) ∧ L.owes r'.st r'.file rest := by
  cases bs with
  | nil => simp [Detools.unpackSize, unpackSizeWithLength, bind, Except.bind] at h
  | cons b bs =>
    obtain ⟨F1, r1, h1, hO1⟩ := PatchReader.readByte_ok L r b bs hO
    simp only [Detools.unpackSize, unpackSizeWithLength, bind, Except.bind, pure, Except.pure] at h
    by_cases hb : b &&& 0x80 ≠ 0
    · rw [if_pos hb] at h
      cases hl : Detools.unpackLoop (b.toNat &&& 63) 6 bs with
      | error e => rw [hl] at h; simp at h
      | ok p =>
        obtain ⟨v', o', rest'⟩ := p
        rw [hl] at h
        simp only [Except.ok.injEq, Prod.mk.injEq] at h
        obtain ⟨F2, r2, h2, hO2⟩ := PatchReader.unpackLoop_ok L bs r1 _ _ _ _ _ hO1 hl
        refine ⟨max F1 F2, r2, ?_, by rw [← h.2]; exact hO2⟩
        intro fuel hf
        simp only [PatchReader.unpackSize, bind, Except.bind, pure, Except.pure, h1 fuel (by omega), if_pos hb,
          h2 fuel fuel (by omega) (by omega), ← h.1]
    · rw [if_neg hb] at h
      simp only [Except.ok.injEq, Prod.mk.injEq] at h
      refine ⟨F1, r1, ?_, by rw [← h.2]; exact hO1⟩
      intro fuel hf
      simp only [PatchReader.unpackSize, bind, Except.bind, pure, Except.pure, h1 fuel (by omega), if_neg hb, ← h.1]

theorem PatchReader.unpackSize_ok {D : Decompressor} (L : Delivers D) (r : PatchReader D) (v : Int) (rest : Bytes)
    (hO : L.owes r.st r.file (packSize v ++ rest)) :
    ∃ F r', (∀ fuel, F ≤ fuel → r.unpackSize fuel = .ok (v, r')) ∧ L.owes r'.st r'.file rest :=
  PatchReader.unpackSize_ok' L r _ v rest hO (unpackSize_packSize v rest)

end Detools
