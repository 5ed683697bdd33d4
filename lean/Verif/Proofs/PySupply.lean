import Verif.Proofs.PySequential
import Verif.Spec.Records
/-
Reading from a patch reader that can deliver certain bytes and then no more, and
applying whatever it delivers.
-/
namespace Detools

/-- `has st file q`: in state `st`, with `file` unread, the decompressor delivers
exactly `q`; asking for more is an error. -/
structure Supply (D : Decompressor) where
  has : D.σ → Bytes → Bytes → Prop
  measure : D.σ → Bytes → Nat
  noEof : ∀ {st file q}, has st file q → q ≠ [] → D.eof st = false
  step : ∀ {st file out} (size : Nat), has st file out → out ≠ [] → 0 < size →
    (D.needsInput st = true → file ≠ []) ∧
    ∃ st' o out',
      D.decompress st (if D.needsInput st then file.take 4096 else []) size = .ok (st', o) ∧
      out = o ++ out' ∧ o.length ≤ size ∧
      has st' (if D.needsInput st then file.drop 4096 else file) out' ∧
      (o = [] → measure st' (if D.needsInput st then file.drop 4096 else file) < measure st file)
  dry : ∀ {st file} (size : Nat), has st file [] → 0 < size →
    D.eof st = true ∨ (D.needsInput st = true ∧ file = []) ∨
    (∃ e, D.decompress st (if D.needsInput st then file.take 4096 else []) size = .error e) ∨
    ∃ st', D.decompress st (if D.needsInput st then file.take 4096 else []) size = .ok (st', []) ∧
      has st' (if D.needsInput st then file.drop 4096 else file) [] ∧
      measure st' (if D.needsInput st then file.drop 4096 else file) < measure st file

def Delivers.supply {D : Decompressor} (L : Delivers D) : Supply D where
  has := L.owes
  measure := L.measure
  noEof := by
    intro st file q h hne
    cases he : D.eof st with
    | false => rfl
    | true => exact absurd ((L.eof_iff h).1 he) hne
  step := L.step
  dry := fun _ h _ => .inl ((L.eof_iff h).2 rfl)

theorem PatchReader.loop_supply {D : Decompressor} (L : Supply D) :
    ∀ (n m : Nat) (r : PatchReader D) (out : Bytes) (size : Nat) (buf : Bytes),
    L.has r.st r.file out → buf.length ≤ size →
    size - buf.length ≤ n → L.measure r.st r.file ≤ m →
    (size - buf.length ≤ out.length ∧ ∃ F r', (∀ fuel, F ≤ fuel → PatchReader.loop fuel r size buf
        = .ok (buf ++ out.take (size - buf.length), r')) ∧
      L.has r'.st r'.file (out.drop (size - buf.length))) ∨
    (out.length < size - buf.length ∧ ∃ F e, e ≠ .timeout ∧ ∀ fuel, F ≤ fuel → PatchReader.loop fuel r size buf = .error e) := by
  intro n
  induction n using Nat.strongRecOn with
  | _ n ihn =>
  intro m
  induction m using Nat.strongRecOn with
  | _ m ihm =>
  intro r out size buf hO hle hn hm
  by_cases hlt : buf.length < size
  · by_cases hne : out = []
    · subst hne
      right
      refine ⟨by simp; omega, ?_⟩
      have unf : ∀ fuel, PatchReader.loop (fuel + 1) r size buf =
          if D.eof r.st then .error (.error "Early end of patch data.")
          else if D.needsInput r.st = true ∧ (if D.needsInput r.st then r.file.take 4096 else []) = [] then .error (.error "Out of patch data.")
          else match D.decompress r.st (if D.needsInput r.st then r.file.take 4096 else []) (size - buf.length) with
            | .error _ => .error (.error "Patch decompression failed.")
            | .ok (st, out) => PatchReader.loop fuel { st := st, file := if D.needsInput r.st then r.file.drop 4096 else r.file } size (buf ++ out) := by
        intro fuel
        conv => lhs; rw [PatchReader.loop]
        rw [if_pos hlt]
        rfl
      have hnt : ∀ m : String, PyErr.error m ≠ .timeout := by intro m h; cases h
      have one : ∀ (v : Except PyErr (Bytes × PatchReader D)) (m : String), v = .error (.error m) →
          (∀ fuel, PatchReader.loop (fuel + 1) r size buf = v) →
          ∃ F e, e ≠ .timeout ∧ ∀ fuel, F ≤ fuel → PatchReader.loop fuel r size buf = .error e := by
        intro v m hv h
        refine ⟨1, .error m, hnt m, fun fuel hf => ?_⟩
        obtain ⟨k, rfl⟩ : ∃ k, fuel = k + 1 := ⟨fuel - 1, by omega⟩
        rw [h, hv]
      by_cases he : D.eof r.st = true
      · exact one _ _ rfl (fun fuel => by rw [unf, if_pos he])
      · by_cases hi : D.needsInput r.st = true ∧ (if D.needsInput r.st then r.file.take 4096 else []) = []
        · exact one _ _ rfl (fun fuel => by rw [unf, if_neg he, if_pos hi])
        · rcases L.dry (size - buf.length) hO (by omega) with h | ⟨h1, h2⟩ | ⟨e, h⟩ | ⟨st', h1, h2, h3⟩
          · exact absurd h he
          · exact absurd ⟨h1, by rw [h1, h2]; rfl⟩ hi
          · exact one _ _ rfl (fun fuel => by rw [unf, if_neg he, if_neg hi, h])
          · rcases ihm _ (Nat.lt_of_lt_of_le h3 hm) { st := st', file := if D.needsInput r.st then r.file.drop 4096 else r.file } [] size buf h2 hle hn (Nat.le_refl _) with
              ⟨h4, _⟩ | ⟨_, F, e, he', hF⟩
            · simp at h4; omega
            · refine ⟨F + 1, e, he', fun fuel hf => ?_⟩
              obtain ⟨k, rfl⟩ : ∃ k, fuel = k + 1 := ⟨fuel - 1, by omega⟩
              rw [unf, if_neg he, if_neg hi, h1]
              simp only [List.append_nil]
              exact hF k (by omega)
    · obtain ⟨hin, st', o, out', hd, ho, hol, hO', hprog⟩ := L.step (size - buf.length) hO hne (by omega)
      have heof : D.eof r.st = false := L.noEof hO hne
      have unf : ∀ fuel, PatchReader.loop (fuel + 1) r size buf =
          PatchReader.loop fuel { st := st', file := if D.needsInput r.st then r.file.drop 4096 else r.file }
            size (buf ++ o) := by
        intro fuel
        rw [PatchReader.loop]
        rw [if_pos hlt]
        simp only [heof, Bool.false_eq_true, if_false]
        rw [if_neg]
        · rw [hd]
        · rintro ⟨h1, h2⟩
          have h3 := hin h1
          rw [h1] at h2
          simp at h2
          exact h3 h2
      have hlen : out.length = o.length + out'.length := by rw [ho, List.length_append]
      have e2 : size - (buf ++ o).length = size - buf.length - o.length := by simp; omega
      have key := (if ho0 : o = [] then
          ihm _ (Nat.lt_of_lt_of_le (hprog ho0) hm) { st := st', file := if D.needsInput r.st then r.file.drop 4096 else r.file } out' size (buf ++ o) hO'
            (by subst ho0; simpa using hle) (by subst ho0; simpa using hn) (Nat.le_refl _)
        else
          ihn (size - (buf ++ o).length) (by have : 0 < o.length := List.length_pos_iff.2 ho0
                                             simp; omega) _
            { st := st', file := if D.needsInput r.st then r.file.drop 4096 else r.file } out' size (buf ++ o) hO'
            (by simp; omega) (Nat.le_refl _) (Nat.le_refl _))
      rw [e2] at key
      rcases key with ⟨hk, F, r', hF, hO''⟩ | ⟨hk, F, e, he, hF⟩
      · left
        refine ⟨by omega, F + 1, r', ?_, ?_⟩
        · intro fuel hf
          obtain ⟨k, rfl⟩ : ∃ k, fuel = k + 1 := ⟨fuel - 1, by omega⟩
          rw [unf, hF k (by omega)]
          congr 2
          rw [ho, List.append_assoc, List.take_append, List.take_of_length_le hol]
        · rw [ho, List.drop_append, List.drop_of_length_le hol]
          simpa using hO''
      · right
        refine ⟨by omega, F + 1, e, he, ?_⟩
        intro fuel hf
        obtain ⟨k, rfl⟩ : ∃ k, fuel = k + 1 := ⟨fuel - 1, by omega⟩
        rw [unf, hF k (by omega)]
  · left
    have h0 : size - buf.length = 0 := by omega
    refine ⟨by omega, 0, r, ?_, ?_⟩
    · intro fuel _
      rw [PatchReader.loop_zero _ _ _ _ hlt]
      simp [h0]
    · simpa [h0] using hO

theorem PatchReader.read_supply {D : Decompressor} (L : Supply D) (r : PatchReader D) (q : Bytes) (n : Nat)
    (hO : L.has r.st r.file q) :
    (n ≤ q.length ∧ ∃ F r', (∀ fuel, F ≤ fuel → r.read fuel n = .ok (q.take n, r')) ∧ L.has r'.st r'.file (q.drop n)) ∨
    (q.length < n ∧ ∃ F e, e ≠ .timeout ∧ ∀ fuel, F ≤ fuel → r.read fuel n = .error e) := by
  simpa [PatchReader.read] using PatchReader.loop_supply L n _ r q n [] hO (by simp) (by simp) (Nat.le_refl _)

theorem PatchReader.readByte_supply {D : Decompressor} (L : Supply D) (r : PatchReader D) (q : Bytes)
    (hO : L.has r.st r.file q) :
    match q with
    | x :: t => ∃ F r', (∀ fuel, F ≤ fuel → ∀ msg, r.readByte fuel msg = .ok (x, r')) ∧ L.has r'.st r'.file t
    | [] => ∃ F e, e ≠ .timeout ∧ ∀ fuel, F ≤ fuel → ∀ msg, r.readByte fuel msg = .error e := by
  cases q with
  | nil =>
    rcases PatchReader.read_supply L r [] 1 hO with ⟨h, _⟩ | ⟨_, F, e, he, hF⟩
    · simp at h
    · exact ⟨F, e, he, fun fuel hf msg => by simp [PatchReader.readByte, hF fuel hf]⟩
  | cons x t =>
    rcases PatchReader.read_supply L r (x :: t) 1 hO with ⟨_, F, r', hF, h⟩ | ⟨h, _⟩
    · exact ⟨F, r', fun fuel hf msg => by simp [PatchReader.readByte, hF fuel hf], by simpa using h⟩
    · simp at h

theorem PatchReader.unpackLoop_supply {D : Decompressor} (L : Supply D) (bs : Bytes) :
    ∀ (r : PatchReader D) (value offset : Nat), L.has r.st r.file bs →
    match Detools.unpackLoop value offset bs with
    | .ok (v, _, rest) =>
      ∃ F r', (∀ fuel rf, F ≤ fuel → F ≤ rf → PatchReader.unpackLoop rf fuel r value offset = .ok (v, r')) ∧
        L.has r'.st r'.file rest
    | .error _ => ∃ F e, e ≠ .timeout ∧ ∀ fuel rf, F ≤ fuel → F ≤ rf → PatchReader.unpackLoop rf fuel r value offset = .error e := by
  induction bs with
  | nil =>
    intro r value offset hO
    obtain ⟨F, e, he, hF⟩ := PatchReader.readByte_supply L r [] hO
    refine ⟨F + 1, e, he, fun fuel rf h1 h2 => ?_⟩
    obtain ⟨k, rfl⟩ : ∃ k, fuel = k + 1 := ⟨fuel - 1, by omega⟩
    simp only [PatchReader.unpackLoop, hF rf (by omega), bind, Except.bind]
  | cons b bs ih =>
    intro r value offset hO
    obtain ⟨F1, r1, h1, hO1⟩ := PatchReader.readByte_supply L r (b :: bs) hO
    simp only [Detools.unpackLoop]
    by_cases hb : b &&& 0x80 ≠ 0
    · rw [if_pos hb]
      have := ih r1 (value ||| ((b.toNat &&& 0x7f) <<< offset)) (offset + 7) hO1
      cases hu : Detools.unpackLoop (value ||| ((b.toNat &&& 0x7f) <<< offset)) (offset + 7) bs with
      | error e0 =>
        rw [hu] at this
        obtain ⟨F2, e, he, h2⟩ := this
        refine ⟨max F1 (F2 + 1), e, he, ?_⟩
        intro fuel rf hf hrf
        obtain ⟨k, rfl⟩ : ∃ k, fuel = k + 1 := ⟨fuel - 1, by omega⟩
        simp only [PatchReader.unpackLoop, h1 rf (by omega), bind, Except.bind, if_pos hb]
        exact h2 k rf (by omega) (by omega)
      | ok p =>
        obtain ⟨v, o, rest⟩ := p
        rw [hu] at this
        obtain ⟨F2, r2, h2, hO2⟩ := this
        refine ⟨max F1 (F2 + 1), r2, ?_, hO2⟩
        intro fuel rf hf hrf
        obtain ⟨k, rfl⟩ : ∃ k, fuel = k + 1 := ⟨fuel - 1, by omega⟩
        simp only [PatchReader.unpackLoop, h1 rf (by omega), bind, Except.bind, if_pos hb]
        exact h2 k rf (by omega) (by omega)
    · rw [if_neg hb]
      refine ⟨F1 + 1, r1, ?_, hO1⟩
      intro fuel rf hf hrf
      obtain ⟨k, rfl⟩ : ∃ k, fuel = k + 1 := ⟨fuel - 1, by omega⟩
      simp only [PatchReader.unpackLoop, h1 rf (by omega), bind, Except.bind, if_neg hb]

theorem PatchReader.unpackSize_supply {D : Decompressor} (L : Supply D) (r : PatchReader D) (bs : Bytes)
    (hO : L.has r.st r.file bs) :
    match unpackSizeWithLength bs with
    | .ok (v, _, rest) => ∃ F r', (∀ fuel, F ≤ fuel → r.unpackSize fuel = .ok (v, r')) ∧ L.has r'.st r'.file rest
    | .error _ => ∃ F e, e ≠ .timeout ∧ ∀ fuel, F ≤ fuel → r.unpackSize fuel = .error e := by
  cases bs with
  | nil =>
    obtain ⟨F, e, he, hF⟩ := PatchReader.readByte_supply L r [] hO
    exact ⟨F, e, he, fun fuel h => by simp only [PatchReader.unpackSize, hF fuel h, bind, Except.bind]⟩
  | cons b bs =>
    obtain ⟨F1, r1, h1, hO1⟩ := PatchReader.readByte_supply L r (b :: bs) hO
    simp only [unpackSizeWithLength, bind, Except.bind, pure, Except.pure]
    by_cases hb : b &&& 0x80 ≠ 0
    · rw [if_pos hb]
      have := PatchReader.unpackLoop_supply L bs r1 (b.toNat &&& 63) 6 hO1
      cases hl : Detools.unpackLoop (b.toNat &&& 63) 6 bs with
      | error e0 =>
        rw [hl] at this
        obtain ⟨F2, e, he, h2⟩ := this
        refine ⟨max F1 F2, e, he, ?_⟩
        intro fuel hf
        simp only [PatchReader.unpackSize, bind, Except.bind, h1 fuel (by omega), if_pos hb,
          h2 fuel fuel (by omega) (by omega)]
      | ok p =>
        obtain ⟨v', o', rest'⟩ := p
        rw [hl] at this
        obtain ⟨F2, r2, h2, hO2⟩ := this
        refine ⟨max F1 F2, r2, ?_, hO2⟩
        intro fuel hf
        simp only [PatchReader.unpackSize, bind, Except.bind, pure, Except.pure, h1 fuel (by omega), if_pos hb,
          h2 fuel fuel (by omega) (by omega)]
    · rw [if_neg hb]
      refine ⟨F1, r1, ?_, hO1⟩
      intro fuel hf
      simp only [PatchReader.unpackSize, bind, Except.bind, pure, Except.pure, h1 fuel (by omega), if_neg hb]

end Detools
