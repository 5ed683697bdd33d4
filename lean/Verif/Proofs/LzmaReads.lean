import Verif.Proofs.Lzma
import Verif.Spec.Lzma
/-
The LZMA reader in front of a stream that its library decompresses.
-/
namespace Detools

/-- The reader will deliver `E`, given `x`. -/
def LzmaReads (L : LzmaLib) (s : CLzma) (x E : Bytes) : Prop :=
  E = [] ∧ s.input = [] ∧ s.output = [] ∨
  ∃ owes rest, L.Keeps owes ∧ owes s.dec (s.input ++ x) rest ∧ E = s.output ++ rest ∧ (rest = [] → s.input = [])

theorem LzmaReads.destroy {L : LzmaLib} {s : CLzma} {x : Bytes} (h : LzmaReads L s x []) : (CReader.lzma s).destroy = 0 := by
  have : s.input = [] ∧ s.output = [] := by
    rcases h with ⟨_, h⟩ | ⟨_, rest, _, _, h, h2⟩
    · exact h
    · have := List.append_eq_nil_iff.1 h.symm
      exact ⟨h2 this.2, this.1⟩
  simp [CReader.destroy, this.1, this.2]

theorem LzmaReads.nil_any {L : LzmaLib} {s : CLzma} {x : Bytes} (h : LzmaReads L s x []) (y : Bytes) : LzmaReads L s y [] := by
  rcases h with ⟨_, h⟩ | ⟨_, rest, _, _, h, h2⟩
  · exact .inl ⟨rfl, h⟩
  · have := List.append_eq_nil_iff.1 h.symm
    exact .inl ⟨rfl, h2 this.2, this.1⟩

/-- What a call delivers. -/
def LzmaOutOk (L : LzmaLib) (size : Nat) (x E : Bytes) : DRes × CLzma × Chunk → Prop
  | (.fail _, _, _) => False
  | (.ok data, s', c') => data.length = size ∧ ∃ E', E = data ++ E' ∧ LzmaReads L s' (c'.rest ++ x) E'
  | (.more, s', c') => c'.rest = [] ∧ x ≠ [] ∧ LzmaReads L s' x E

theorem lzmaGet_reads {L : LzmaLib} {s s' : CLzma} {size : Nat} {data x E : Bytes} (h : LzmaReads L s x E)
    (hg : lzmaGet s size = some (data, s')) (hs : 1 ≤ size) : data.length = size ∧ ∃ E', E = data ++ E' ∧ LzmaReads L s' x E' := by
  refine ⟨(lzmaGet_stock L hg).1, ?_⟩
  unfold lzmaGet at hg
  split at hg
  · rename_i hlen
    cases hg
    rcases h with ⟨h1, h2, h3⟩ | ⟨owes, rest, h1, h2, h3, h4⟩
    · rw [h3] at hlen
      simp at hlen
      omega
    · refine ⟨s.output.drop size ++ rest, ?_, .inr ⟨owes, rest, h1, h2, rfl, h4⟩⟩
      rw [h3, ← List.append_assoc, List.take_append_drop]
  · cases hg

theorem lzmaLoop_reads {L : LzmaLib} {owes : Nat → Bytes → Bytes → Prop} (hk : L.Keeps owes) {x E : Bytes} {size : Nat} (hs : 1 ≤ size)
    (hE : size ≤ E.length) : ∀ (fuel : Nat) (s : CLzma) (c : Chunk) (rest : Bytes), c.Inv → owes s.dec (s.input ++ (c.rest ++ x)) rest →
    E = s.output ++ rest → (rest = [] → s.input = []) → s.output.length < size →
    ∀ out, lzmaLoop L fuel s c size = .ok out → LzmaOutOk L size x E out := by
  intro fuel
  induction fuel with
  | zero => intro s c rest _ _ _ _ _ out h; cases h
  | succ fuel ih =>
    intro s c rest hc ho he hn hl out h
    -- one call of lzma_code
    have hstep : ∃ s1 rest1, lzmaStep L s size = .ok (true, s1) ∧ owes s1.dec (s1.input ++ (c.rest ++ x)) rest1 ∧ E = s1.output ++ rest1 ∧
        (rest1 = [] → s1.input = []) ∧ (s1.output.length < size → s1.input = []) := by
      unfold lzmaStep
      by_cases hi : s.input.length > 0
      · rw [if_pos hi]
        simp only
        rw [if_neg (by omega)]
        obtain ⟨k1, d', k2, k3, k4⟩ := hk.code s.dec s.input (c.rest ++ x) rest (size - s.output.length) ho
          (by rintro h; rw [h] at hi; simp at hi) (by omega)
        refine ⟨{ s with dec := (L.code s.dec s.input (size - s.output.length)).st, input := s.input.drop (L.code s.dec s.input (size - s.output.length)).used, output := s.output ++ (L.code s.dec s.input (size - s.output.length)).out }, d', ?_, k3, ?_, ?_, ?_⟩
        · simp only [k1]
        · rw [he, k2, List.append_assoc]
        · intro h
          exact List.drop_eq_nil_of_le (by rw [k4 (.inr h)]; exact Nat.le_refl _)
        · intro h
          simp only [List.length_append] at h
          exact List.drop_eq_nil_of_le (by rw [k4 (.inl (by omega))]; exact Nat.le_refl _)
      · rw [if_neg hi]
        have : s.input = [] := List.eq_nil_of_length_eq_zero (by omega)
        exact ⟨s, rest, rfl, ho, he, hn, fun _ => this⟩
    obtain ⟨s1, rest1, e1, e2, e3, e4, e5⟩ := hstep
    unfold lzmaLoop at h
    rw [e1] at h
    simp only [Bind.bind, Except.bind] at h
    cases hg : lzmaGet s1 size with
    | some v =>
      obtain ⟨data, s2⟩ := v
      rw [hg] at h
      cases h
      exact lzmaGet_reads (.inr ⟨owes, rest1, hk, e2, e3, e4⟩) hg hs
    | none =>
      rw [hg] at h
      have hl1 : s1.output.length < size := by
        unfold lzmaGet at hg
        split at hg
        · cases hg
        · omega
      have hi1 := e5 hl1
      have hr1 : rest1 ≠ [] := by
        rintro rfl
        rw [e3, List.append_nil] at hE
        omega
      simp only at h
      by_cases hr : c.rest = []
      · rw [if_pos (by rw [c.left_eq hc, hr]; rfl)] at h
        cases h
        rw [hr, List.nil_append] at e2
        refine ⟨hr, ?_, .inr ⟨owes, rest1, hk, e2, e3, e4⟩⟩
        rintro rfl
        rw [hi1] at e2
        exact hr1 (hk.nothing _ _ e2)
      · have hne : c.rest.length ≠ 0 := by simpa using hr
        rw [if_neg (by rw [c.left_eq hc]; exact hne), Chunk.readAll hc] at h
        simp only [Bind.bind, Except.bind] at h
        obtain ⟨q1, q2⟩ := c.ended
        refine ih { s1 with input := s1.input ++ c.rest } { c with offset := c.buf.length } rest1 q1 ?_ e3 (fun h => absurd h hr1) hl1 out h
        rw [q2]
        simpa [List.append_assoc] using e2

theorem lzmaDecompress_reads {L : LzmaLib} {s : CLzma} {c : Chunk} (hc : c.Inv) {x E : Bytes} (h : LzmaReads L s (c.rest ++ x) E)
    {cap size : Nat} (h1 : 1 ≤ size) (h2 : size ≤ cap) (hE : size ≤ E.length) {out} (he : lzmaDecompress L s c cap size = .ok out) :
    LzmaOutOk L size x E out := by
  unfold lzmaDecompress at he
  rw [if_neg (by omega)] at he
  cases hg : lzmaGet s size with
  | some v =>
    obtain ⟨data, s2⟩ := v
    rw [hg] at he
    cases he
    exact lzmaGet_reads h hg h1
  | none =>
    rw [hg] at he
    have hl : s.output.length < size := by
      unfold lzmaGet at hg
      split at hg
      · cases hg
      · omega
    rcases h with ⟨rfl, _, _⟩ | ⟨owes, rest, k1, k2, k3, k4⟩
    · simp at hE; omega
    · exact lzmaLoop_reads k1 h1 hE 3 s c rest hc k2 k3 k4 hl out he

end Detools
