import Verif.Proofs.PyStream
import Verif.Spec.Crle

namespace Detools

/-! ### none -/

def noneLossless : Lossless noneCodec where
  owes := fun st file out => st.data ++ file = out ∧ st.bytesLeft = out.length
  measure := fun _ _ => 0
  eof_iff := by
    intro st file out ⟨h1, h2⟩
    simp [noneCodec, noneDecompressor, h2]
  step := by
    intro st file out size ⟨h1, h2⟩ hne hs
    simp only [noneCodec, noneDecompressor] at *
    have hb : (st.bytesLeft == 0) = false := by
      simp only [beq_eq_false_iff_ne, ne_eq, h2]
      have := List.length_pos_iff.2 hne
      omega
    simp only [hb, Bool.not_false, Bool.and_true, Bool.false_eq_true, if_false]
    have hin : st.data.isEmpty = true → file ≠ [] := by
      intro h hf
      simp at h; simp [h, hf] at h1; exact hne h1
    refine ⟨hin, ?_⟩
    generalize hd : (st.data ++ if st.data.isEmpty = true then List.take 4096 file else []) = d
    generalize hf : (if st.data.isEmpty = true then List.drop 4096 file else file) = file'
    have hdf : d ++ file' = out := by
      rw [← hd, ← hf, ← h1]
      by_cases h : st.data = []
      · simp [h]
      · simp [h]
    have hdne : d ≠ [] := by
      by_cases h : st.data = []
      · have := hin (by simp [h])
        rw [← hd]; simp [h]; exact this
      · rw [← hd]; simp [h]
    refine ⟨_, _, d.drop size ++ file', rfl, ?_, ?_, ⟨rfl, ?_⟩, ?_⟩
    · rw [← List.append_assoc, List.take_append_drop, hdf]
    · simp; omega
    · simp only [h2, ← hdf, List.length_append, List.length_drop, List.length_take]; omega
    · intro h
      simp at h
      rcases h with h | h
      · omega
      · exact absurd h hdne
  init := by
    intro chunks hne
    have : ∀ l : List Bytes, Compressor.run.go noneCompressor () l = l.flatten := by
      intro l
      induction l with
      | nil => rfl
      | cons a t ih => simp [Compressor.run.go, noneCompressor] at ih ⊢; exact ih
    have h2 : noneCodec.comp.run chunks = chunks.flatten := this chunks
    rw [h2]
    exact ⟨rfl, rfl⟩

/-! ### crle -/

theorem CrleDec.pos {k inp out} (h : CrleDec k inp out) : 0 < k → out ≠ [] := by
  cases h <;> simp

theorem CrleDec.nil_iff {k inp out} (h : CrleDec k inp out) : out = [] ↔ inp = [] := by
  cases h with
  | done => simp
  | lit h => simp
  | scattered h1 h2 h3 => simp [h3.pos h2]
  | repeated h1 h2 h3 => simp; omega

theorem CrleDec.lits {a : Bytes} : ∀ {k : Nat} {b out : Bytes}, CrleDec k (a ++ b) out → a.length ≤ k →
    ∃ out', out = a ++ out' ∧ CrleDec (k - a.length) b out' := by
  induction a with
  | nil => intro k b out h _; exact ⟨out, rfl, by simpa using h⟩
  | cons x a ih =>
    intro k b out h hk
    cases k with
    | zero => simp at hk
    | succ k =>
      cases h with
      | lit h =>
        obtain ⟨o', h1, h2⟩ := ih h (by simpa using hk)
        exact ⟨o', by simp [h1], by simpa using h2⟩

theorem CrleDec.mkLits {a : Bytes} : ∀ {k : Nat} {b out : Bytes}, CrleDec k b out →
    CrleDec (k + a.length) (a ++ b) (a ++ out) := by
  induction a with
  | nil => intro k b out h; simpa using h
  | cons x a ih => intro k b out h; exact CrleDec.lit (ih h)

theorem crleUnpackSize_append (a : Bytes) : ∀ (v o n : Nat) (rest b : Bytes),
    crleUnpackSize v o a = some (n, rest) → crleUnpackSize v o (a ++ b) = some (n, rest ++ b) := by
  induction a with
  | nil => intro v o n rest b h; simp [crleUnpackSize] at h
  | cons x a ih =>
    intro v o n rest b h
    simp only [crleUnpackSize, List.cons_append] at h ⊢
    split at h
    · next hb => rw [if_pos hb]; exact ih _ _ _ _ _ h
    · next hb => rw [if_neg hb]; simp at h; simp [h]

theorem crleUnpackSize_length (a : Bytes) : ∀ (v o n : Nat) (rest : Bytes),
    crleUnpackSize v o a = some (n, rest) → rest.length < a.length := by
  induction a with
  | nil => intro v o n rest h; simp [crleUnpackSize] at h
  | cons x a ih =>
    intro v o n rest h
    simp only [crleUnpackSize] at h
    split at h
    · have := ih _ _ _ _ h; simp; omega
    · simp at h; simp [h]

theorem crleUnpackSize_of_unpackLoop (a : Bytes) : ∀ (v o n o' : Nat) (rest : Bytes),
    unpackLoop v o a = .ok (n, o', rest) → crleUnpackSize v o a = some (n, rest) := by
  induction a with
  | nil => intro v o n o' rest h; simp [unpackLoop] at h
  | cons x a ih =>
    intro v o n o' rest h
    simp only [unpackLoop] at h
    simp only [crleUnpackSize]
    split at h
    · next hb => rw [if_pos hb]; exact ih _ _ _ _ _ h
    · next hb =>
      rw [if_neg hb]; simp at h; simp [h]

theorem crlePackSize_eq (n : Nat) (h : n ≠ 0) : crlePackSize n = clearLast (packGroups n) := by
  rw [packGroups_pos h]
  unfold crlePackSize
  rw [and_7f, or_80 _ (by omega), Nat.shiftRight_eq_div_pow]

theorem crleUnpackSize_pack (n : Nat) (rest : Bytes) :
    crleUnpackSize 0 0 (crlePackSize n ++ rest) = some (n, rest) := by
  by_cases h : n = 0
  · subst h
    have : crlePackSize 0 = [0] := by simp [crlePackSize, packGroups_zero, clearLast]; decide
    rw [this]; simp [crleUnpackSize]
  · rw [crlePackSize_eq n h]
    obtain ⟨o, h1, _⟩ := unpackLoop_groups n 0 0 rest h (by simp)
    have := crleUnpackSize_of_unpackLoop _ _ _ _ _ _ h1
    simpa using this

/-- `decompress_segments` decodes a prefix and gets stuck only for lack of input. -/
theorem crleSegments_ok (file : Bytes) : ∀ (fuel : Nat) (inp : Bytes) (k : Nat) (o : Bytes), inp.length < fuel →
    CrleDec k (inp ++ file) o →
    ∃ out1 rest k' o', crleSegments fuel inp k = .ok (out1, rest, k') ∧ o = out1 ++ o' ∧
      CrleDec k' (rest ++ file) o' ∧ (∃ l, crleSegment rest k' = .more l) := by
  intro fuel
  induction fuel with
  | zero => intro inp k o h; omega
  | succ fuel ih =>
    intro inp k o hf h
    have stuck : ∀ k', k' = k → crleSegment inp k = .more k' →
      ∃ out1 rest k' o', crleSegments (fuel + 1) inp k = .ok (out1, rest, k') ∧ o = out1 ++ o' ∧
      CrleDec k' (rest ++ file) o' ∧ (∃ l, crleSegment rest k' = .more l) := by
      intro k' hk hm
      subst hk
      exact ⟨[], inp, k', o, by simp [crleSegments, hm], rfl, h, k', hm⟩
    have go : ∀ data rest k' o', crleSegment inp k = .seg data rest k' → rest.length < fuel → o = data ++ o' →
      CrleDec k' (rest ++ file) o' →
      ∃ out1 rest k' o', crleSegments (fuel + 1) inp k = .ok (out1, rest, k') ∧ o = out1 ++ o' ∧
      CrleDec k' (rest ++ file) o' ∧ (∃ l, crleSegment rest k' = .more l) := by
      intro data rest k' o' hs hl ho hd
      obtain ⟨out1, rest1, k1, o1, h1, h2, h3, h4⟩ := ih rest k' o' hl hd
      refine ⟨data ++ out1, rest1, k1, o1, ?_, by simp [ho, h2], h3, h4⟩
      simp [crleSegments, hs, h1, bind, Except.bind, pure, Except.pure]
    cases inp with
    | nil =>
      by_cases hk : k = 0
      · subst hk; exact stuck 0 rfl (by simp [crleSegment])
      · exact stuck k rfl (by simp [crleSegment, hk])
    | cons x t =>
      simp only [List.cons_append] at h
      simp only [List.length_cons] at hf
      cases h with
      | @lit k b inp out h =>
        by_cases hle : t.length ≤ k
        · obtain ⟨o', h1, h2⟩ := h.lits hle
          refine go (x :: t) [] (k - t.length) o' ?_ (by simp; omega) (by simp [h1]) (by simpa using h2)
          unfold crleSegment
          rw [if_neg (by omega), if_neg (by simp)]
          have : min (x :: t).length (k + 1) = t.length + 1 := by simp; omega
          rw [this]
          simp
        · have hsplit : t ++ file = t.take k ++ (t.drop k ++ file) := by
            rw [← List.append_assoc, List.take_append_drop]
          rw [hsplit] at h
          have hlk : (t.take k).length = k := by simp; omega
          obtain ⟨o', h1, h2⟩ := h.lits (by omega)
          rw [hlk] at h2
          refine go (x :: t.take k) (t.drop k) 0 o' ?_ (by simp; omega) (by simp [h1]) (by simpa using h2)
          unfold crleSegment
          rw [if_neg (by omega), if_neg (by simp)]
          have : min (x :: t).length (k + 1) = k + 1 := by simp; omega
          rw [this]
          simp
      | @scattered n inp rest out hu hn h =>
        cases hu' : crleUnpackSize 0 0 t with
        | none => exact stuck 0 rfl (by simp [crleSegment, hu'])
        | some p =>
          obtain ⟨n', rest'⟩ := p
          have := crleUnpackSize_append _ _ _ _ _ file hu'
          rw [this] at hu
          simp at hu
          obtain ⟨rfl, rfl⟩ := hu
          have hlt := crleUnpackSize_length _ _ _ _ _ hu'
          by_cases hgt : n' > rest'.length
          · obtain ⟨o', h1, h2⟩ := h.lits (by omega)
            exact go rest' [] (n' - rest'.length) o' (by simp [crleSegment, hu', hgt]) (by simp; omega) h1 (by simpa using h2)
          · have hsplit : rest' ++ file = rest'.take n' ++ (rest'.drop n' ++ file) := by
              rw [← List.append_assoc, List.take_append_drop]
            rw [hsplit] at h
            have hlk : (rest'.take n').length = n' := by simp; omega
            obtain ⟨o', h1, h2⟩ := h.lits (by omega)
            rw [hlk] at h2
            exact go (rest'.take n') (rest'.drop n') 0 o' (by simp [crleSegment, hu', hgt]) (by simp; omega) h1 (by simpa using h2)
      | @repeated n b inp rest out hu hn h =>
        cases hu' : crleUnpackSize 0 0 t with
        | none => exact stuck 0 rfl (by simp [crleSegment, hu'])
        | some p =>
          obtain ⟨n', rest'⟩ := p
          have := crleUnpackSize_append _ _ _ _ _ file hu'
          rw [this] at hu
          simp at hu
          obtain ⟨rfl, hr⟩ := hu
          have hlt := crleUnpackSize_length _ _ _ _ _ hu'
          cases rest' with
          | nil => exact stuck 0 rfl (by simp [crleSegment, hu'])
          | cons c rest' =>
            simp at hr
            obtain ⟨rfl, rfl⟩ := hr
            exact go (List.replicate n' c) rest' 0 out (by simp [crleSegment, hu']) (by simp at hlt; omega) rfl h

/-- A complete stream is never stuck. -/
theorem CrleDec.not_stuck {k inp o} (h : CrleDec k inp o) (hne : o ≠ []) :
    ∀ l, crleSegment inp k ≠ .more l := by
  intro l
  cases h with
  | done => exact absurd rfl hne
  | lit h => simp [crleSegment]
  | scattered hu hn h =>
    simp only [crleSegment, if_pos, hu]
    split <;> simp
  | repeated hu hn h =>
    simp [crleSegment, hu]

theorem runLength_take (b : UInt8) (l : Bytes) : l.take (runLength b l) = List.replicate (runLength b l) b := by
  induction l with
  | nil => simp [runLength]
  | cons c l ih =>
    unfold runLength
    split
    · next h => subst h; simp [List.replicate_succ, ih]
    · simp

theorem runLength_le (b : UInt8) (l : Bytes) : runLength b l ≤ l.length := by
  induction l with
  | nil => simp [runLength]
  | cons c l ih => unfold runLength; split <;> simp; exact ih

theorem findRepeated_spec (l : Bytes) : ∀ (off o n : Nat), findRepeated off l = some (o, n) →
    off ≤ o ∧ o - off < l.length ∧ 6 ≤ n ∧ n ≤ (l.drop (o - off)).length ∧
    ∃ b, (l.drop (o - off)).take n = List.replicate n b := by
  induction l with
  | nil => intro off o n h; simp [findRepeated] at h
  | cons b l ih =>
    intro off o n h
    simp only [findRepeated] at h
    split at h
    · simp at h
      obtain ⟨rfl, rfl⟩ := h
      refine ⟨Nat.le_refl _, by simp, by assumption, ?_, b, ?_⟩
      · have := runLength_le b (b :: l); simpa using this
      · have := runLength_take b (b :: l); simpa using this
    · obtain ⟨h1, h2, h3, h4, b', h5⟩ := ih _ _ _ h
      have e : o - off = (o - (off + 1)) + 1 := by omega
      refine ⟨by omega, by simp; omega, h3, ?_, b', ?_⟩
      · rw [e, List.drop_succ_cons]; exact h4
      · rw [e, List.drop_succ_cons]; exact h5

theorem crleGetSegment_spec (fl : Bool) (data : Bytes) (hne : data ≠ []) :
    (crleGetSegment fl data = none ∧ fl = false) ∨
    ∃ rep seg rest, crleGetSegment fl data = some (rep, seg, rest) ∧ data = seg ++ rest ∧ seg ≠ [] ∧
      (rep = true → ∃ b, seg = List.replicate seg.length b) := by
  unfold crleGetSegment
  split
  · split
    · exact Or.inr ⟨_, _, _, rfl, by simp, hne, by simp⟩
    · next h => exact Or.inl ⟨rfl, by simpa using h⟩
  · next o n h =>
    obtain ⟨h1, h2, h3, h4, b, h5⟩ := findRepeated_spec _ _ _ _ h
    split
    · refine Or.inr ⟨_, _, _, rfl, by simp, ?_, by simp⟩
      simp; exact ⟨by omega, hne⟩
    · next ho =>
      have : o = 0 := by omega
      subst this
      simp at h4 h5
      split
      · refine Or.inr ⟨_, _, _, rfl, by simp, ?_, ?_⟩
        · simp; exact ⟨by omega, hne⟩
        · intro _
          refine ⟨b, ?_⟩
          simp only [List.length_take]
          rw [Nat.min_eq_left h4, h5]
      · next h6 =>
        refine Or.inl ⟨rfl, ?_⟩
        simp only [not_or] at h6
        simpa using h6.2

theorem crleCompressSegment_spec (fl : Bool) (s : CrleC) :
    (crleCompressSegment fl s = (s, []) ∧ (fl = true → s.data = [])) ∨
    ∃ s' out seg, crleCompressSegment fl s = (s', out) ∧ s.data = seg ++ s'.data ∧ seg ≠ [] ∧ out ≠ [] ∧
      0 < s'.written ∧ (∀ inp o, CrleDec 0 inp o → CrleDec 0 (out ++ inp) (seg ++ o)) := by
  unfold crleCompressSegment
  split
  · next h => exact Or.inl ⟨rfl, fun _ => h⟩
  · next hne =>
    rcases crleGetSegment_spec fl s.data hne with ⟨h1, h2⟩ | ⟨rep, seg, rest, h1, h2, h3, h4⟩
    · rw [h1]; exact Or.inl ⟨rfl, by simp [h2]⟩
    · rw [h1]
      have hlen : 0 < seg.length := List.length_pos_iff.2 h3
      refine Or.inr ⟨_, _, seg, rfl, h2, h3, ?_, ?_, ?_⟩
      · split <;> simp
      · simp only; split <;> simp <;> omega
      · intro inp o h
        cases rep with
        | true =>
          obtain ⟨b, hb⟩ := h4 rfl
          simp only [if_true, List.cons_append]
          have : seg.take 1 = [b] := by
            rw [hb]
            cases hn : seg.length with
            | zero => omega
            | succ n => simp [List.replicate_succ]
          rw [this]
          have hd := CrleDec.repeated (n := seg.length) (b := b) (inp := crlePackSize seg.length ++ [b] ++ inp) (rest := inp) (out := o)
            (by rw [List.append_assoc]; exact crleUnpackSize_pack _ _) hlen h
          rw [← hb] at hd
          exact hd
        | false =>
          simp only [Bool.false_eq_true, if_false, List.cons_append]
          refine CrleDec.scattered (n := seg.length) (rest := seg ++ inp) ?_ hlen ?_
          · rw [List.append_assoc]; exact crleUnpackSize_pack _ _
          · have := h.mkLits (a := seg)
            simpa using this

theorem crleFlushLoop_dec (fuel : Nat) : ∀ s : CrleC, s.data.length < fuel → CrleDec 0 (crleFlushLoop fuel s) s.data := by
  induction fuel with
  | zero => intro s h; omega
  | succ fuel ih =>
    intro s hf
    rcases crleCompressSegment_spec true s with ⟨h1, h2⟩ | ⟨s', out, seg, h1, h2, h3, h4, h5, h6⟩
    · simp only [crleFlushLoop, h1, if_true]
      rw [h2 rfl]; exact .done
    · simp only [crleFlushLoop, h1, if_neg h4]
      rw [h2]
      apply h6
      apply ih
      have hlen : 0 < seg.length := List.length_pos_iff.2 h3
      rw [h2] at hf; simp at hf; omega

theorem crle_go_dec (cs : List Bytes) : ∀ s : CrleC, (0 < s.written ∨ s.data ++ cs.flatten ≠ []) →
    CrleDec 0 (Compressor.run.go crleCompressor s cs) (s.data ++ cs.flatten) := by
  induction cs with
  | nil =>
    intro s h
    simp only [Compressor.run.go, crleCompressor, List.flatten_nil, List.append_nil] at h ⊢
    rw [if_neg]
    · exact crleFlushLoop_dec _ _ (by omega)
    · rintro ⟨h1, h2⟩
      rcases h with h | h
      · omega
      · exact h (List.eq_nil_of_length_eq_zero h2)
  | cons c cs ih =>
    intro s h
    have hgo : Compressor.run.go crleCompressor s (c :: cs) =
      (crleCompressSegment false { s with data := s.data ++ c }).2 ++
        Compressor.run.go crleCompressor (crleCompressSegment false { s with data := s.data ++ c }).1 cs := rfl
    rw [hgo]
    simp only [List.flatten_cons, ← List.append_assoc] at h ⊢
    rcases crleCompressSegment_spec false { s with data := s.data ++ c } with ⟨h1, h2⟩ | ⟨s', out, seg, h1, h2, h3, h4, h5, h6⟩
    · rw [h1]
      exact ih { s with data := s.data ++ c } h
    · rw [h1]
      simp only at h2
      rw [h2, List.append_assoc]
      exact h6 _ _ (ih s' (Or.inl h5))

def crleLossless : Lossless crleCodec where
  owes := fun st file out => st.indataLeft = file.length ∧ ∃ o', out = st.outdata ++ o' ∧
    CrleDec st.scatteredLeft (st.indata ++ file) o' ∧ (∃ l, crleSegment st.indata st.scatteredLeft = .more l)
  measure := fun _ file => file.length
  eof_iff := by
    intro st file out ⟨h1, o', h2, h3, _⟩
    simp only [crleCodec, crleDecompressor, CrleD.eof, h1, h2]
    have := h3.nil_iff
    simp at this ⊢
    grind
  step := by
    intro st file out size ⟨h1, o', h2, h3, l, h4⟩ hne hs
    simp only [crleCodec, crleDecompressor] at *
    have heof : CrleD.eof st = false := by
      have := h3.nil_iff
      simp [CrleD.eof, h1]
      intro hf ho hi
      simp [hf, hi] at this
      simp [this, ho] at h2
      exact hne h2
    simp only [heof, Bool.not_false, Bool.and_true, Bool.false_eq_true, if_false]
    have hin : st.outdata.isEmpty = true → file ≠ [] := by
      intro h hf
      simp at h
      simp [hf] at h3
      have : o' ≠ [] := by intro h'; simp [h, h'] at h2; exact hne h2
      exact h3.not_stuck this l h4
    refine ⟨hin, ?_⟩
    generalize hd : (if st.outdata.isEmpty = true then List.take 4096 file else []) = d
    generalize hf : (if st.outdata.isEmpty = true then List.drop 4096 file else file) = file'
    have hdf : d ++ file' = file := by
      rw [← hd, ← hf]; split <;> simp
    have htake : d.take st.indataLeft = d := by
      apply List.take_of_length_le
      rw [h1, ← hdf]; simp
    rw [htake]
    rw [← hdf, ← List.append_assoc] at h3
    obtain ⟨out1, rest, k', o1, g1, g2, g3, g4⟩ := crleSegments_ok file' ((st.indata ++ d).length + 1) (st.indata ++ d) _ _ (by omega) h3
    rw [g1]
    simp only [bind, Except.bind, pure, Except.pure]
    refine ⟨_, _, (st.outdata ++ out1).drop size ++ o1, rfl, ?_, ?_, ⟨?_, o1, rfl, g3, g4⟩, ?_⟩
    · rw [← List.append_assoc, List.take_append_drop, h2, g2, List.append_assoc]
    · simp; omega
    · simp only [h1, ← hdf]; simp
    · intro h0
      simp at h0
      have hout : st.outdata = [] := by
        rcases h0 with h0 | h0
        · omega
        · exact h0.1
      have : file ≠ [] := hin (by simp [hout])
      rw [← hf]
      simp only [hout, List.isEmpty_nil, if_true, List.length_drop]
      have := List.length_pos_iff.2 this
      omega
  init := by
    intro chunks hne
    refine ⟨rfl, chunks.flatten, rfl, ?_, 0, ?_⟩
    · have := crle_go_dec chunks {} (Or.inr (by simpa using hne))
      exact this
    · simp [crleCodec, crleSegment]

end Detools
