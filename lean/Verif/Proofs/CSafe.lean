import Verif.Proofs.CSize
import Verif.Proofs.Lzma
import Verif.Spec.CApi
/-
Invariants of the sequential C API that hold for every patch and every behaviour of
the callbacks.
-/
namespace Detools

variable [Build]

/-- Invariant of a reader, without any assumption on the patch size. -/
def CReader.Safe : CReader → Prop
  | .raw _ _ => True
  | .lzma _ => Build.lzma.isSome
  | r => r.Inv

/-- The return codes of the readers. -/
def ReadErr (e : Int) : Prop :=
  e = CORRUPT_PATCH ∨ e = CORRUPT_PATCH_OVERFLOW ∨ e = CORRUPT_PATCH_CRLE_KIND ∨ e = HEATSHRINK_SINK ∨
    e = HEATSHRINK_HEADER ∨ e = LZMA_DECODE

omit [Build] in
theorem ReadErr.neg {e : Int} (h : ReadErr e) : e < 0 ∧ e ≠ ALREADY_DONE ∧ e ≠ IO_FAILED := by
  rcases h with h | h | h | h | h | h <;> subst h <;> decide

/-- What decompress guarantees for memory safety. -/
def DecSafe (r : CReader) (c : Chunk) (size : Nat) : DRes × CReader × Chunk → Prop
  | (.fail e, _, c') => ReadErr e ∧ c'.Inv
  | (.ok data, r', c') => r'.Safe ∧ c'.Inv ∧ data.length ≤ size ∧ work r' c' < work r c
  | (.more, r', c') => r'.Safe ∧ c'.Inv ∧ c'.rest = [] ∧ work r' c' ≤ work r c

theorem CReader.Inv.safe {r : CReader} (h : r.Inv) : r.Safe := by
  cases r with
  | raw => trivial
  | lzma => exact h.elim
  | crle => exact h
  | heatshrink => exact h

omit [Build] in
theorem unpackUsizeLoop_code : ∀ (fuel : Nat) (c : Chunk) (s : USize) {e c' s'},
    unpackUsizeLoop fuel c s = .ok (.fail e, c', s') → e = CORRUPT_PATCH_OVERFLOW := by
  intro fuel
  induction fuel with
  | zero => intro c s e c' s' h; cases h
  | succ n ih =>
    intro c s e c' s' h
    simp only [unpackUsizeLoop, Bind.bind, Except.bind] at h
    split at h
    · cases h
    · split at h
      · cases h
      · split at h
        · cases h; rfl
        · split at h
          · cases h
          · split at h
            · exact ih _ _ h
            · cases h

omit [Build] in
theorem crleStep_code {s : CCrle} {c : Chunk} {cap size} {e s' c'}
    (h : crleStep s c cap size = .ok (some (.fail e), s', c')) : ReadErr e := by
  cases s <;> simp only [crleStep, Bind.bind, Except.bind] at h
  · split at h
    · cases h
    · split at h
      · cases h
      · split at h
        · cases h
        · split at h
          · cases h
          · cases h; simp [ReadErr]
  · split at h
    · cases h
    · split at h
      · cases h
      · cases h
      · cases h
        have := unpackUsizeLoop_code _ _ _ (by simpa [unpackUsizeC] using ‹unpackUsizeC _ _ = _›)
        simp [ReadErr, this]
  · split at h
    · cases h
    · split at h <;> cases h
  · split at h
    · cases h
    · split at h
      · cases h
      · cases h
      · cases h
        have := unpackUsizeLoop_code _ _ _ (by simpa [unpackUsizeC] using ‹unpackUsizeC _ _ = _›)
        simp [ReadErr, this]
  · split at h
    · cases h
    · split at h <;> cases h
  · split at h <;> cases h

omit [Build] in
theorem crleDecompressLoop_code : ∀ (fuel : Nat) (s : CCrle) (c : Chunk) (cap size : Nat) {e s' c'},
    crleDecompressLoop fuel s c cap size = .ok (.fail e, s', c') → ReadErr e := by
  intro fuel
  induction fuel with
  | zero => intro s c cap size e s' c' h; cases h
  | succ n ih =>
    intro s c cap size e s' c' h
    simp only [crleDecompressLoop, Bind.bind, Except.bind] at h
    split at h
    · cases h
    · split at h
      · cases h
        exact crleStep_code ‹crleStep _ _ _ _ = _›
      · exact ih _ _ _ _ h

omit [Build] in
theorem hsDecompressLoop_code : ∀ (fuel : Nat) (hh : Hsd) (c : Chunk) (size : Nat) (out : Bytes) {e s' c'},
    hsDecompressLoop fuel hh c size out = .ok (.fail e, s', c') → ReadErr e := by
  intro fuel
  induction fuel with
  | zero => intro s c size out e s' c' h; cases h
  | succ n ih =>
    intro s c size out e s' c' h
    simp only [hsDecompressLoop, Bind.bind, Except.bind] at h
    split at h
    · cases h
    · split at h
      · cases h
      · split at h
        · cases h
        · split at h
          · split at h
            · cases h
            · split at h
              · cases h; simp [ReadErr]
              · exact ih _ _ _ _ h
          · split at h <;> cases h

omit [Build] in
theorem hsDecompress_code {s : CHs} {c : Chunk} {cap size : Nat} {e s' c'}
    (h : hsDecompress s c cap size = .ok (.fail e, s', c')) : ReadErr e := by
  simp only [hsDecompress, Bind.bind, Except.bind, Pure.pure, Except.pure] at h
  split at h
  · cases h
  · split at h
    · split at h
      · cases h
      · rename_i v h2
        obtain ⟨_, _, _⟩ := v
        cases h
        exact hsDecompressLoop_code _ _ _ _ _ h2
    · split at h
      · cases h
      · split at h
        · cases h
        · split at h
          · cases h; simp [ReadErr]
          · split at h
            · cases h
            · rename_i v h2
              obtain ⟨_, _, _⟩ := v
              cases h
              exact hsDecompressLoop_code _ _ _ _ _ h2

omit [Build] in
theorem lzmaLoop_code (L : LzmaLib) : ∀ (fuel : Nat) (s : CLzma) (c : Chunk) (size : Nat) {e s' c'},
    lzmaLoop L fuel s c size = .ok (.fail e, s', c') → e = LZMA_DECODE := by
  intro fuel
  induction fuel with
  | zero => intro s c size e s' c' h; cases h
  | succ n ih =>
    intro s c size e s' c' h
    unfold lzmaLoop at h
    simp only [Bind.bind, Except.bind] at h
    split at h
    · cases h
    · split at h
      · cases h; rfl
      · split at h
        · cases h
        · split at h
          · cases h
          · split at h
            · cases h
            · exact ih _ _ _ h

omit [Build] in
theorem lzmaDecompress_code {L : LzmaLib} {s : CLzma} {c : Chunk} {cap size : Nat} {e s' c'}
    (h : lzmaDecompress L s c cap size = .ok (.fail e, s', c')) : e = LZMA_DECODE := by
  unfold lzmaDecompress at h
  split at h
  · cases h
  · split at h
    · cases h
    · exact lzmaLoop_code _ _ _ _ _ h

theorem decompress_code {r : CReader} {c : Chunk} {cap size : Nat} {e r' c'}
    (h : r.decompress c cap size = .ok (.fail e, r', c')) : ReadErr e := by
  cases r with
  | raw p o =>
    simp only [CReader.decompress, noneDecompress, Bind.bind, Except.bind] at h
    split at h
    · cases h; simp [ReadErr]
    · split at h
      · cases h
      · split at h <;> cases h
  | lzma s =>
    simp only [CReader.decompress, Bind.bind, Except.bind, Pure.pure, Except.pure] at h
    split at h
    · cases h
    · split at h
      · cases h
      · rename_i v h2
        obtain ⟨_, _, _⟩ := v
        cases h
        simp [ReadErr, lzmaDecompress_code h2]
  | crle s =>
    simp only [CReader.decompress, Bind.bind, Except.bind, Pure.pure, Except.pure] at h
    split at h
    · cases h
    · rename_i v h2
      obtain ⟨_, _, _⟩ := v
      cases h
      exact crleDecompressLoop_code _ _ _ _ _ h2
  | heatshrink s =>
    simp only [CReader.decompress, Bind.bind, Except.bind, Pure.pure, Except.pure] at h
    split at h
    · cases h
    · rename_i v h2
      obtain ⟨_, _, _⟩ := v
      cases h
      exact hsDecompress_code h2

theorem dec_safe {r : CReader} (hi : r.Safe) {c : Chunk} (hc : c.Inv) {cap size : Nat} (h1 : 1 ≤ size)
    (h2 : size ≤ cap) (hcap : cap ≤ 128) :
    ∃ out, r.decompress c cap size = .ok out ∧ DecSafe r c size out := by
  have key : r.Inv → ∃ out, r.decompress c cap size = .ok out ∧ DecSafe r c size out := by
    intro hr
    obtain ⟨⟨d, r', c'⟩, e1, e2⟩ := dec_spec hr hc h1 h2 hcap
    refine ⟨_, e1, ?_⟩
    cases d with
    | ok data => exact ⟨e2.1.safe, e2.2.1, e2.2.2.1, e2.2.2.2.1⟩
    | more => exact ⟨e2.1.safe, e2.2.1, e2.2.2.1, e2.2.2.2.2.2.1⟩
    | fail e => exact ⟨decompress_code e1, e2.2.1⟩
  cases r with
  | lzma s =>
    have hi : Build.lzma.isSome := hi
    cases hL : Build.lzma with
    | none => rw [hL] at hi; cases hi
    | some L =>
      have hwk : ∀ (s : CLzma) (c : Chunk), work (.lzma s) c = s.stock L + 2 ^ 32 * c.rest.length := by
        intro s c
        simp only [work, CReader.backlog, hL, CLzma.stock]
        omega
      obtain ⟨⟨d, s', c'⟩, e1, e2⟩ := lzmaDecompress_safe L s hc h2
      simp only [CReader.decompress, hL, e1, Bind.bind, Except.bind, Pure.pure, Except.pure]
      refine ⟨_, rfl, ?_⟩
      match d, e2 with
      | .fail e, ⟨g1, g2⟩ => exact ⟨by simp [ReadErr, g1], g2⟩
      | .ok data, ⟨g1, g2, g3⟩ => exact ⟨hi, g1, by omega, by rw [hwk, hwk]; omega⟩
      | .more, ⟨g1, g2, g3⟩ => exact ⟨hi, g1, g2, by rw [hwk, hwk]; exact g3⟩
  | crle => exact key hi
  | heatshrink => exact key hi
  | raw p o =>
    simp only [CReader.decompress, noneDecompress]
    split
    · exact ⟨_, rfl, .inl rfl, hc⟩
    · by_cases hr : c.rest = []
      · rw [c.read_nil hc hr]
        exact ⟨_, rfl, trivial, hc, hr, Nat.le_refl _⟩
      · obtain ⟨c', hc1, hc2, hc3⟩ := c.read_cons hc hr h2
        rw [hc1]
        refine ⟨_, rfl, trivial, hc3, List.length_take_le .., ?_⟩
        have hne : c.rest.length ≠ 0 := by simpa using hr
        simp only [work, CReader.backlog, hc2, List.length_drop]
        omega

/-- What unpacking a size guarantees for memory safety. -/
def UnpackSafe (r : CReader) (c : Chunk) : SizeRes × CReader × Chunk × SizeAcc → Prop
  | (.value v, r', c', acc') => r'.Safe ∧ c'.Inv ∧ acc'.Inv ∧ -2 ^ 27 < v ∧ v < 2 ^ 27 ∧ work r' c' < work r c
  | (.more, r', c', acc') => r'.Safe ∧ c'.Inv ∧ acc'.Inv ∧ c'.rest = [] ∧ work r' c' ≤ work r c
  | (.fail e, _, c', _) => ReadErr e ∧ c'.Inv

theorem unpackSizeC_safe : ∀ (fuel : Nat) (r : CReader) (c : Chunk) (acc : SizeAcc), r.Safe → c.Inv → acc.Inv →
    acc.rank < fuel →
    unpackSizeC fuel r c acc = .error .uninit ∨
    ∃ out, unpackSizeC fuel r c acc = .ok out ∧ UnpackSafe r c out := by
  intro fuel
  induction fuel with
  | zero => intro r c acc _ _ _ h; omega
  | succ fuel ih =>
    intro r c acc hr hc ha hf
    unfold unpackSizeC
    obtain ⟨⟨d, r', c'⟩, e1, e2⟩ := dec_safe hr hc (cap := 1) (size := 1) (by omega) (by omega) (by omega)
    rw [e1]
    simp only [Bind.bind, Except.bind]
    match d, e2 with
    | .more, ⟨g1, g2, g3, g4⟩ => exact .inr ⟨_, rfl, g1, g2, ha, g3, g4⟩
    | .fail e, ⟨g0, g1⟩ => exact .inr ⟨_, rfl, g0, g1⟩
    | .ok [], _ => exact .inl rfl
    | .ok (byte :: t), ⟨g1, g2, g3, g4⟩ =>
      simp only
      rcases sizeByte_cases ha byte with ⟨acc', f1, f2, f3⟩ | ⟨acc', v, f1, f2, f3, f4⟩ | ⟨acc', f1, f2⟩
      · rw [f1]
        simp only
        rcases ih r' c' acc' g1 g2 f2 (by omega) with q1 | ⟨out, q1, q2⟩
        · exact .inl q1
        · right
          refine ⟨out, q1, ?_⟩
          match out, q2 with
          | (.value v, r2, c2, acc2), ⟨p1, p2, p3, p4, p5, p6⟩ => exact ⟨p1, p2, p3, p4, p5, by omega⟩
          | (.more, r2, c2, acc2), ⟨p1, p2, p3, p4, p5⟩ => exact ⟨p1, p2, p3, p4, by omega⟩
          | (.fail e, r2, c2, acc2), q => exact q
      · rw [f1]
        exact .inr ⟨_, rfl, g1, g2, f2, f4.1, f4.2, g4⟩
      · rw [f1]
        exact .inr ⟨_, rfl, .inr (.inl rfl), g2⟩

theorem patchReaderUnpackSize_safe {r : CReader} {c : Chunk} {acc : SizeAcc} (hr : r.Safe) (hc : c.Inv) (ha : acc.Inv) :
    patchReaderUnpackSize r c acc = .error .uninit ∨
    ∃ out, patchReaderUnpackSize r c acc = .ok out ∧ UnpackSafe r c out := by
  apply unpackSizeC_safe 6 r c acc hr hc ha
  unfold SizeAcc.rank
  cases hs : acc.state with
  | first => simp
  | consecutive =>
    obtain ⟨h1, h2, _⟩ := ha hs
    simp only
    omega

theorem init_reader_safe {n comp : Nat} {r : CReader} (hin : CReader.init n comp = some r) : r.Safe ∧ r.backlog = 0 := by
  unfold CReader.init at hin
  split at hin
  · cases hin; exact ⟨trivial, rfl⟩
  · split at hin
    · cases hin; exact ⟨trivial, rfl⟩
    · split at hin
      · cases hin; exact ⟨trivial, rfl⟩
      · split at hin
        · cases hL : Build.lzma with
          | none => rw [hL] at hin; cases hin
          | some L =>
            rw [hL] at hin
            cases hin
            refine ⟨by simp [CReader.Safe, hL], ?_⟩
            simp [CReader.backlog, hL, L.held_start]
        · cases hin

/-! The header. -/

omit [Build] in
theorem headerSizeByte_cases {acc : SizeAcc} (h : acc.Inv) (b : UInt8) :
    (∃ acc', headerSizeByte acc b = .ok (acc', none) ∧ acc'.Inv) ∨
    (∃ acc' v, headerSizeByte acc b = .ok (acc', some (.value v)) ∧ acc'.Inv ∧ 0 ≤ v ∧ v < 2 ^ 27) ∨
    (∃ acc', headerSizeByte acc b = .ok (acc', some (.fail CORRUPT_PATCH_OVERFLOW)) ∧ acc'.Inv) := by
  cases hs : acc.state with
  | first =>
    have hv : b.toNat &&& 0x3f < 2 ^ 6 := by
      have : b.toNat &&& 63 ≤ 63 := Nat.and_le_right
      omega
    by_cases hb : b &&& 0x80 = 0
    · right; left
      refine ⟨_, _, by simp only [headerSizeByte, hs, hb, ne_eq, not_true, if_false]; rfl, ?_, ?_, ?_⟩
      · intro h; cases h
      · exact Int.natCast_nonneg _
      · show ((b.toNat &&& 0x3f : Nat) : Int) < _
        omega
    · left
      refine ⟨_, by simp only [headerSizeByte, hs, hb, ne_eq, not_false_iff, if_true]; rfl, ?_⟩
      intro _
      exact ⟨rfl, by show 6 ≤ 27; omega, hv⟩
  | consecutive =>
    obtain ⟨h1, h2, h3⟩ := h hs
    by_cases ho : isOverflow acc.offset = true
    · right; right
      refine ⟨acc, by simp only [headerSizeByte, hs, ho, if_true], h⟩
    · have hof : acc.offset ≤ 20 := by
        simp [isOverflow] at ho; omega
      obtain ⟨v', e1, e2⟩ := orShift_ok2 (v := acc.value) (b := b) hof h3
      have e3 : v' < 2 ^ 27 := Nat.lt_of_lt_of_le e2 (Nat.pow_le_pow_right (by omega) (by omega))
      by_cases hb : b &&& 0x80 = 0
      · right; left
        refine ⟨_, _, by simp only [headerSizeByte, hs, ho, e1, hb, ne_eq, not_true, if_false, Bind.bind, Except.bind]; rfl, ?_, ?_, ?_⟩
        · intro h; cases h
        · exact Int.natCast_nonneg _
        · show ((v' : Nat) : Int) < _
          omega
      · left
        refine ⟨_, by simp only [headerSizeByte, hs, ho, e1, hb, ne_eq, not_false_iff, if_true, if_false, Bind.bind, Except.bind]; rfl, ?_⟩
        intro _
        exact ⟨by show (acc.offset + 7) % 7 = 6; omega, by show acc.offset + 7 ≤ 27; omega, e2⟩

/-- What reading the header size guarantees. -/
def HdrSafe (c : Chunk) : SizeRes × Chunk × SizeAcc → Prop
  | (.value v, c', acc') => c'.Inv ∧ acc'.Inv ∧ 0 ≤ v ∧ v < 2 ^ 27 ∧ c'.rest.length < c.rest.length
  | (.more, c', acc') => c'.Inv ∧ acc'.Inv ∧ c'.rest = []
  | (.fail e, c', acc') => e = CORRUPT_PATCH_OVERFLOW ∧ c'.Inv ∧ acc'.Inv

omit [Build] in
theorem headerSize_safe : ∀ (fuel : Nat) (c : Chunk) (acc : SizeAcc), c.Inv → acc.Inv → c.rest.length < fuel →
    ∃ out, chunkUnpackHeaderSize fuel c acc = .ok out ∧ HdrSafe c out := by
  intro fuel
  induction fuel with
  | zero => intro c acc _ _ h; omega
  | succ fuel ih =>
    intro c acc hc ha hf
    unfold chunkUnpackHeaderSize
    cases hr : c.rest with
    | nil =>
      rw [c.get_nil hc hr]
      exact ⟨_, rfl, hc, ha, hr⟩
    | cons b t =>
      obtain ⟨e1, e2, e3⟩ := c.get_cons hc hr
      rw [e1]
      simp only [Bind.bind, Except.bind]
      have hl : c.rest.length = t.length + 1 := by rw [hr]; rfl
      rcases headerSizeByte_cases ha b with ⟨acc', f1, f2⟩ | ⟨acc', v, f1, f2, f3, f4⟩ | ⟨acc', f1, f2⟩
      · rw [f1]
        simp only
        obtain ⟨out, q1, q2⟩ := ih { c with offset := c.offset + 1 } acc' e3 f2 (by rw [e2]; omega)
        refine ⟨out, q1, ?_⟩
        match out, q2 with
        | (.value v, c2, acc2), ⟨p1, p2, p3, p4, p5⟩ =>
          rw [e2] at p5
          exact ⟨p1, p2, p3, p4, by omega⟩
        | (.more, c2, acc2), q => exact q
        | (.fail e, c2, acc2), q => exact q
      · rw [f1]
        refine ⟨_, rfl, e3, f2, f3, f4, ?_⟩
        show ({ c with offset := c.offset + 1 } : Chunk).rest.length < _
        rw [e2]; omega
      · rw [f1]
        exact ⟨_, rfl, rfl, e3, f2⟩

/-- Pieces, then finalize. -/
theorem asDocumented_pieces (ps : List Bytes) : AsDocumented (ps.map Call.process ++ [.finalize]) := by
  refine .inr fun pre post h => ?_
  induction ps generalizing pre with
  | nil =>
    cases pre with
    | nil => cases h; rfl
    | cons x pre =>
      have := (List.cons.inj h).2
      cases pre <;> cases this
  | cons p ps ih =>
    cases pre with
    | nil => cases h
    | cons x pre => exact ih pre (List.cons.inj h).2

end Detools
