import Verif.Proofs.CReader
/-
The LZMA patch reader of the C library, for every library it may be linked to.
-/
namespace Detools

/-- What the reader can still deliver without input from the chunk. -/
def CLzma.stock (L : LzmaLib) (s : CLzma) : Nat := s.output.length + 2 ^ 32 * s.input.length + L.held s.dec

theorem lzmaStep_stock (L : LzmaLib) (s : CLzma) (size : Nat) (hs : s.output.length ≤ size) :
    ∃ st, lzmaStep L s size = .ok st ∧ st.2.stock L ≤ s.stock L := by
  unfold lzmaStep
  by_cases h : s.input.length > 0
  · rw [if_pos h]
    simp only
    rw [if_neg (by omega)]
    refine ⟨_, rfl, ?_⟩
    have h1 := L.bounded s.dec s.input (size - s.output.length)
    have h2 := L.used_le s.dec s.input (size - s.output.length)
    simp only [CLzma.stock, List.length_append, List.length_drop]
    omega
  · rw [if_neg h]
    exact ⟨_, rfl, Nat.le_refl _⟩

theorem lzmaGet_none {s : CLzma} {size : Nat} (h : lzmaGet s size = none) : s.output.length < size := by
  unfold lzmaGet at h
  split at h
  · cases h
  · omega

theorem Chunk.readAll {c : Chunk} (h : c.Inv) :
    c.readAllNoCheck c.left c.left = .ok (c.rest, { c with offset := c.buf.length }) := by
  unfold Chunk.Inv at h
  have hl : c.left = c.buf.length - c.offset := by simp [Chunk.left, h]
  unfold Chunk.readAllNoCheck
  rw [hl, if_neg (by omega), show c.offset + (c.buf.length - c.offset) = c.buf.length by omega]
  rw [List.take_of_length_le (by simp)]
  rfl

theorem Chunk.ended (c : Chunk) : ({ c with offset := c.buf.length } : Chunk).Inv ∧ ({ c with offset := c.buf.length } : Chunk).rest = [] :=
  ⟨Nat.le_refl _, by simp [Chunk.rest]⟩

/-- What a call of the LZMA reader guarantees, whatever the library does. -/
def LzmaSafe (L : LzmaLib) (s : CLzma) (c : Chunk) (size : Nat) : DRes × CLzma × Chunk → Prop
  | (.fail e, _, c') => e = LZMA_DECODE ∧ c'.Inv
  | (.ok data, s', c') => c'.Inv ∧ data.length = size ∧ s'.stock L + 2 ^ 32 * c'.rest.length + size ≤ s.stock L + 2 ^ 32 * c.rest.length
  | (.more, s', c') => c'.Inv ∧ c'.rest = [] ∧ s'.stock L + 2 ^ 32 * c'.rest.length ≤ s.stock L + 2 ^ 32 * c.rest.length

theorem lzmaGet_stock (L : LzmaLib) {s s' : CLzma} {size : Nat} {data : Bytes} (h : lzmaGet s size = some (data, s')) :
    data.length = size ∧ s'.stock L + size = s.stock L := by
  unfold lzmaGet at h
  split at h
  · cases h
    simp only [List.length_take, CLzma.stock, List.length_drop]
    omega
  · cases h

theorem lzmaLoop_safe (L : LzmaLib) : ∀ (fuel : Nat) (s : CLzma) (c : Chunk) (size : Nat), c.Inv → s.output.length < size →
    (if c.rest = [] then 1 else 2) ≤ fuel →
    ∃ out, lzmaLoop L fuel s c size = .ok out ∧ LzmaSafe L s c size out := by
  intro fuel
  induction fuel with
  | zero => intro s c size _ _ h; split at h <;> omega
  | succ fuel ih =>
    intro s c size hc hl hf
    unfold lzmaLoop
    obtain ⟨⟨good, s1⟩, hst, hs⟩ := lzmaStep_stock L s size (by omega)
    rw [hst]
    simp only [Bind.bind, Except.bind] at hs ⊢
    cases good with
    | false => exact ⟨_, rfl, rfl, hc⟩
    | true =>
      simp only
      cases hg : lzmaGet s1 size with
      | some v =>
        obtain ⟨data, s2⟩ := v
        obtain ⟨g1, g2⟩ := lzmaGet_stock L hg
        exact ⟨_, rfl, hc, g1, by omega⟩
      | none =>
        by_cases hr : c.rest = []
        · simp only
          rw [if_pos (by rw [c.left_eq hc, hr]; rfl)]
          exact ⟨_, rfl, hc, hr, by omega⟩
        · have hne : c.rest.length ≠ 0 := by simpa using hr
          simp only
          rw [if_neg (by rw [c.left_eq hc]; exact hne), Chunk.readAll hc]
          simp only [Bind.bind, Except.bind]
          rw [if_neg hr] at hf
          obtain ⟨e1, e2⟩ := c.ended
          obtain ⟨out, q1, q2⟩ := ih { s1 with input := s1.input ++ c.rest } { c with offset := c.buf.length } size e1 (lzmaGet_none (s := s1) hg)
            (by rw [if_pos e2]; omega)
          refine ⟨out, q1, ?_⟩
          have hst : CLzma.stock L { s1 with input := s1.input ++ c.rest } = s1.stock L + 2 ^ 32 * c.rest.length := by
            simp only [CLzma.stock, List.length_append]
            omega
          rw [LzmaSafe.eq_def] at q2 ⊢
          match out, q2 with
          | (.fail e, _, c'), q => exact q
          | (.ok data, s', c'), ⟨k1, k2, k3⟩ =>
            rw [hst, e2] at k3
            exact ⟨k1, k2, by simp only [List.length_nil] at k3; omega⟩
          | (.more, s', c'), ⟨k1, k2, k3⟩ =>
            rw [hst, e2] at k3
            exact ⟨k1, k2, by simp only [List.length_nil] at k3; omega⟩

theorem lzmaDecompress_safe (L : LzmaLib) (s : CLzma) {c : Chunk} (hc : c.Inv) {cap size : Nat} (h : size ≤ cap) :
    ∃ out, lzmaDecompress L s c cap size = .ok out ∧ LzmaSafe L s c size out := by
  unfold lzmaDecompress
  rw [if_neg (by omega)]
  cases hg : lzmaGet s size with
  | some v =>
    obtain ⟨data, s2⟩ := v
    obtain ⟨g1, g2⟩ := lzmaGet_stock L hg
    exact ⟨_, rfl, hc, g1, by omega⟩
  | none => exact lzmaLoop_safe L 3 s c size hc (lzmaGet_none hg) (by split <;> omega)

end Detools
