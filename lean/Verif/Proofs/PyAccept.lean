import Verif.Proofs.PyRecords
import Verif.Proofs.Records
import Verif.Proofs.Crle

namespace Detools

/-! ### CRLE streams cut anywhere, possibly with empty segments -/

/-- What the decoder gets out of a stream that may end anywhere. -/
inductive CrleStream : Nat → Bytes → Bytes → Prop
  | stop {k} : CrleStream k [] []
  | lit {k b inp out} : CrleStream k inp out → CrleStream (k + 1) (b :: inp) (b :: out)
  | scattered {n inp rest out} : crleUnpackSize 0 0 inp = some (n, rest) →
      CrleStream n rest out → CrleStream 0 (0 :: inp) out
  | repeated {n b inp rest out} : crleUnpackSize 0 0 inp = some (n, b :: rest) →
      CrleStream 0 rest out → CrleStream 0 (1 :: inp) (List.replicate n b ++ out)
  | cutScattered {inp} : crleUnpackSize 0 0 inp = none → CrleStream 0 (0 :: inp) []
  | cutRepeated {inp} : crleUnpackSize 0 0 inp = none → CrleStream 0 (1 :: inp) []
  | cutByte {n inp} : crleUnpackSize 0 0 inp = some (n, []) → CrleStream 0 (1 :: inp) []

theorem CrleStream.lits {a : Bytes} : ∀ {k : Nat} {b out : Bytes}, CrleStream k (a ++ b) out → a.length ≤ k →
    ∃ out', out = a ++ out' ∧ CrleStream (k - a.length) b out' := by
  induction a with
  | nil => intro k b out h _; exact ⟨out, rfl, by simpa using h⟩
  | cons x a ih =>
    intro k b out h hk
    cases k with
    | zero => simp at hk
    | succ k =>
      cases h with
      | lit h =>
        obtain ⟨o', h1, h2⟩ := ih h (by simpa using hk)
        exact ⟨o', by simp [h1], by simpa using h2⟩

theorem crleUnpackSize_none {a b : Bytes} (h : crleUnpackSize 0 0 (a ++ b) = none) : crleUnpackSize 0 0 a = none := by
  cases hu : crleUnpackSize 0 0 a with
  | none => rfl
  | some p => rw [crleUnpackSize_append _ _ _ _ _ b hu] at h; cases h

theorem crleSegments_stream (file : Bytes) : ∀ (fuel : Nat) (inp : Bytes) (k : Nat) (o : Bytes), inp.length < fuel →
    CrleStream k (inp ++ file) o →
    ∃ out1 rest k' o', crleSegments fuel inp k = .ok (out1, rest, k') ∧ o = out1 ++ o' ∧
      CrleStream k' (rest ++ file) o' ∧ (∃ l, crleSegment rest k' = .more l) := by
  intro fuel
  induction fuel with
  | zero => intro inp k o h; omega
  | succ fuel ih =>
    intro inp k o hf h
    have stuck : ∀ k', k' = k → crleSegment inp k = .more k' →
      ∃ out1 rest k' o', crleSegments (fuel + 1) inp k = .ok (out1, rest, k') ∧ o = out1 ++ o' ∧
      CrleStream k' (rest ++ file) o' ∧ (∃ l, crleSegment rest k' = .more l) := by
      intro k' hk hm
      subst hk
      exact ⟨[], inp, k', o, by simp [crleSegments, hm], rfl, h, k', hm⟩
    have go : ∀ data rest k' o', crleSegment inp k = .seg data rest k' → rest.length < fuel → o = data ++ o' →
      CrleStream k' (rest ++ file) o' →
      ∃ out1 rest k' o', crleSegments (fuel + 1) inp k = .ok (out1, rest, k') ∧ o = out1 ++ o' ∧
      CrleStream k' (rest ++ file) o' ∧ (∃ l, crleSegment rest k' = .more l) := by
      intro data rest k' o' hs hl ho hd
      obtain ⟨out1, rest1, k1, o1, h1, h2, h3, h4⟩ := ih rest k' o' hl hd
      refine ⟨data ++ out1, rest1, k1, o1, ?_, by simp [ho, h2], h3, h4⟩
      simp [crleSegments, hs, h1, bind, Except.bind, pure, Except.pure]
    cases inp with
    | nil =>
      by_cases hk : k = 0
      · subst hk; exact stuck 0 rfl (by simp [crleSegment])
      · exact stuck k rfl (by simp [crleSegment, hk])
    | cons x t =>
      simp only [List.cons_append] at h
      simp only [List.length_cons] at hf
      cases h with
      | @lit k b inp out h =>
        by_cases hle : t.length ≤ k
        · obtain ⟨o', h1, h2⟩ := h.lits hle
          refine go (x :: t) [] (k - t.length) o' ?_ (by simp; omega) (by simp [h1]) (by simpa using h2)
          unfold crleSegment
          rw [if_neg (by omega), if_neg (by simp)]
          have : min (x :: t).length (k + 1) = t.length + 1 := by simp; omega
          rw [this]
          simp
        · have hsplit : t ++ file = t.take k ++ (t.drop k ++ file) := by
            rw [← List.append_assoc, List.take_append_drop]
          rw [hsplit] at h
          have hlk : (t.take k).length = k := by simp; omega
          obtain ⟨o', h1, h2⟩ := h.lits (by omega)
          rw [hlk] at h2
          refine go (x :: t.take k) (t.drop k) 0 o' ?_ (by simp; omega) (by simp [h1]) (by simpa using h2)
          unfold crleSegment
          rw [if_neg (by omega), if_neg (by simp)]
          have : min (x :: t).length (k + 1) = k + 1 := by simp; omega
          rw [this]
          simp
      | @scattered n inp rest out hu h =>
        cases hu' : crleUnpackSize 0 0 t with
        | none => exact stuck 0 rfl (by simp [crleSegment, hu'])
        | some p =>
          obtain ⟨n', rest'⟩ := p
          have := crleUnpackSize_append _ _ _ _ _ file hu'
          rw [this] at hu
          simp at hu
          obtain ⟨rfl, rfl⟩ := hu
          have hlt := crleUnpackSize_length _ _ _ _ _ hu'
          by_cases hgt : n' > rest'.length
          · obtain ⟨o', h1, h2⟩ := h.lits (by omega)
            exact go rest' [] (n' - rest'.length) o' (by simp [crleSegment, hu', hgt]) (by simp; omega) h1 (by simpa using h2)
          · have hsplit : rest' ++ file = rest'.take n' ++ (rest'.drop n' ++ file) := by
              rw [← List.append_assoc, List.take_append_drop]
            rw [hsplit] at h
            have hlk : (rest'.take n').length = n' := by simp; omega
            obtain ⟨o', h1, h2⟩ := h.lits (by omega)
            rw [hlk] at h2
            exact go (rest'.take n') (rest'.drop n') 0 o' (by simp [crleSegment, hu', hgt]) (by simp; omega) h1 (by simpa using h2)
      | @repeated n b inp rest out hu h =>
        cases hu' : crleUnpackSize 0 0 t with
        | none => exact stuck 0 rfl (by simp [crleSegment, hu'])
        | some p =>
          obtain ⟨n', rest'⟩ := p
          have := crleUnpackSize_append _ _ _ _ _ file hu'
          rw [this] at hu
          simp at hu
          obtain ⟨rfl, hr⟩ := hu
          have hlt := crleUnpackSize_length _ _ _ _ _ hu'
          cases rest' with
          | nil => exact stuck 0 rfl (by simp [crleSegment, hu'])
          | cons c rest' =>
            simp at hr
            obtain ⟨rfl, rfl⟩ := hr
            exact go (List.replicate n' c) rest' 0 out (by simp [crleSegment, hu']) (by simp at hlt; omega) rfl h
      | cutScattered hu => exact stuck 0 rfl (by simp [crleSegment, crleUnpackSize_none hu])
      | cutRepeated hu => exact stuck 0 rfl (by simp [crleSegment, crleUnpackSize_none hu])
      | @cutByte n inp hu =>
        cases hu' : crleUnpackSize 0 0 t with
        | none => exact stuck 0 rfl (by simp [crleSegment, hu'])
        | some p =>
          obtain ⟨n', rest'⟩ := p
          have := crleUnpackSize_append _ _ _ _ _ file hu'
          rw [this] at hu
          simp at hu
          obtain ⟨rfl, rfl, rfl⟩ := hu
          exact stuck 0 rfl (by simp [crleSegment, hu'])

/-- Nothing comes out of a stream the decoder is stuck on. -/
theorem CrleStream.stuck_out {k inp o l} (h : CrleStream k inp o) (hs : crleSegment inp k = .more l) : o = [] := by
  cases h with
  | stop => rfl
  | lit h => simp [crleSegment] at hs
  | scattered hu h =>
    simp only [crleSegment, if_pos, hu] at hs
    split at hs <;> simp at hs
  | repeated hu h => simp [crleSegment, hu] at hs
  | cutScattered _ => rfl
  | cutRepeated _ => rfl
  | cutByte _ => rfl

def crleStreamSupply : Supply crleDecompressor where
  has := fun st file out => st.indataLeft = file.length ∧ ∃ o', out = st.outdata ++ o' ∧
    CrleStream st.scatteredLeft (st.indata ++ file) o' ∧ (∃ l, crleSegment st.indata st.scatteredLeft = .more l)
  measure := fun _ file => file.length
  noEof := by
    intro st file q ⟨h1, o', h2, h3, l, h4⟩ hne
    have : ¬ CrleD.eof st = true := by
      intro he
      simp [CrleD.eof, h1] at he
      obtain ⟨⟨e1, e2⟩, e3⟩ := he
      subst e1
      simp [e3] at h3 h4
      rw [h3.stuck_out h4, e2] at h2
      exact hne h2
    simpa [crleDecompressor] using this
  step := by
    intro st file out size ⟨h1, o', h2, h3, l, h4⟩ hne hs
    simp only [crleDecompressor] at *
    have heof : CrleD.eof st = false := by
      cases he : CrleD.eof st with
      | false => rfl
      | true =>
        simp [CrleD.eof, h1] at he
        obtain ⟨⟨e1, e2⟩, e3⟩ := he
        subst e1
        simp [e3] at h3 h4
        rw [h3.stuck_out h4, e2] at h2
        exact absurd h2 hne
    simp only [heof, Bool.not_false, Bool.and_true, Bool.false_eq_true, if_false]
    have hin : st.outdata.isEmpty = true → file ≠ [] := by
      intro h hf
      simp at h
      simp [hf] at h3
      rw [h3.stuck_out h4, h] at h2
      exact hne h2
    refine ⟨hin, ?_⟩
    generalize hd : (if st.outdata.isEmpty = true then List.take 4096 file else []) = d
    generalize hf : (if st.outdata.isEmpty = true then List.drop 4096 file else file) = file'
    have hdf : d ++ file' = file := by
      rw [← hd, ← hf]; split <;> simp
    have htake : d.take st.indataLeft = d := by
      apply List.take_of_length_le
      rw [h1, ← hdf]; simp
    rw [htake]
    rw [← hdf, ← List.append_assoc] at h3
    obtain ⟨out1, rest, k', o1, g1, g2, g3, g4⟩ := crleSegments_stream file' ((st.indata ++ d).length + 1) (st.indata ++ d) _ _ (by omega) h3
    rw [g1]
    simp only [bind, Except.bind, pure, Except.pure]
    refine ⟨_, _, (st.outdata ++ out1).drop size ++ o1, rfl, ?_, ?_, ⟨?_, o1, rfl, g3, g4⟩, ?_⟩
    · rw [← List.append_assoc, List.take_append_drop, h2, g2, List.append_assoc]
    · simp; omega
    · simp only [h1, ← hdf]; simp
    · intro h0
      simp at h0
      have hout : st.outdata = [] := by
        rcases h0 with h0 | h0
        · omega
        · exact h0.1
      have : file ≠ [] := hin (by simp [hout])
      rw [← hf]
      simp only [hout, List.isEmpty_nil, if_true, List.length_drop]
      have := List.length_pos_iff.2 this
      omega
  dry := by
    intro st file size ⟨h1, o', h2, h3, l, h4⟩ hs
    simp only [crleDecompressor] at *
    simp at h2
    obtain ⟨ho, rfl⟩ := h2
    by_cases he : CrleD.eof st = true
    · exact .inl he
    · have heof : CrleD.eof st = false := by simpa using he
      right
      simp only [heof, ho, List.isEmpty_nil, Bool.not_false, Bool.and_true, Bool.false_eq_true, if_false, true_and, if_true]
      by_cases hfile : file = []
      · exact .inl hfile
      · right; right
        have htake : (file.take 4096).take st.indataLeft = file.take 4096 := by
          apply List.take_of_length_le
          rw [h1]; simp; omega
        rw [htake]
        rw [← List.take_append_drop 4096 file, ← List.append_assoc] at h3
        obtain ⟨out1, rest, k', o1, g1, g2, g3, g4⟩ :=
          crleSegments_stream (file.drop 4096) ((st.indata ++ file.take 4096).length + 1) (st.indata ++ file.take 4096) _ _ (by omega) h3
        simp at g2
        obtain ⟨rfl, rfl⟩ := g2
        rw [g1]
        simp only [bind, Except.bind, pure, Except.pure]
        refine ⟨_, by simp only [List.append_nil, List.take_nil]; rfl, ⟨?_, [], ?_, g3, g4⟩, ?_⟩
        · simp only [h1, List.length_take, List.length_drop]; omega
        · simp
        · have := List.length_pos_iff.2 hfile
          simp only [List.length_drop]
          omega

theorem CrleDec.stream {k inp out} (h : CrleDec k inp out) : CrleStream k inp out := by
  induction h with
  | done => exact .stop
  | lit _ ih => exact .lit ih
  | scattered h1 _ _ ih => exact .scattered h1 ih
  | repeated h1 _ _ ih => exact .repeated h1 ih

theorem crleUnpackSize_cut {a : Bytes} : ∀ {v o n : Nat} {rest p : Bytes}, crleUnpackSize v o (a ++ p) = some (n, rest) →
    crleUnpackSize v o a = none ∨ ∃ r, crleUnpackSize v o a = some (n, r) ∧ rest = r ++ p := by
  intro v o n rest p h
  cases hu : crleUnpackSize v o a with
  | none => exact .inl rfl
  | some q =>
    obtain ⟨m, r⟩ := q
    rw [crleUnpackSize_append _ _ _ _ _ p hu] at h
    simp at h
    exact .inr ⟨r, by rw [h.1], h.2.symm⟩

/-- A complete stream cut short loses output. -/
theorem CrleDec.cut {k full out} (h : CrleDec k full out) : ∀ (inp ext : Bytes), full = inp ++ ext → ext ≠ [] →
    ∃ o lost, out = o ++ lost ∧ lost ≠ [] ∧ CrleStream k inp o := by
  induction h with
  | done => intro inp ext h hne; simp at h; exact absurd h.2 hne
  | @lit k b full out h ih =>
    intro inp ext he hne
    cases inp with
    | nil => exact ⟨[], b :: out, rfl, by simp, .stop⟩
    | cons x t =>
      simp at he
      obtain ⟨rfl, he⟩ := he
      obtain ⟨o, lost, h1, h2, h3⟩ := ih t ext he hne
      exact ⟨b :: o, lost, by simp [h1], h2, .lit h3⟩
  | @scattered n full rest out hu hn h ih =>
    intro inp ext he hne
    cases inp with
    | nil => exact ⟨[], out, rfl, h.pos hn, .stop⟩
    | cons x t =>
      simp at he
      obtain ⟨rfl, rfl⟩ := he
      rcases crleUnpackSize_cut hu with h0 | ⟨r, h0, rfl⟩
      · exact ⟨[], out, rfl, h.pos hn, .cutScattered h0⟩
      · obtain ⟨o, lost, h1, h2, h3⟩ := ih r ext rfl hne
        exact ⟨o, lost, h1, h2, .scattered h0 h3⟩
  | @repeated n b full rest out hu hn h ih =>
    have hrep : List.replicate n b ++ out ≠ [] := by simp; omega
    intro inp ext he hne
    cases inp with
    | nil => exact ⟨[], _, rfl, hrep, .stop⟩
    | cons x t =>
      simp at he
      obtain ⟨rfl, rfl⟩ := he
      rcases crleUnpackSize_cut hu with h0 | ⟨r, h0, hr⟩
      · exact ⟨[], _, rfl, hrep, .cutRepeated h0⟩
      · cases r with
        | nil => exact ⟨[], _, rfl, hrep, .cutByte h0⟩
        | cons c r =>
          simp at hr
          obtain ⟨rfl, rfl⟩ := hr
          obtain ⟨o, lost, h1, h2, h3⟩ := ih r ext rfl hne
          exact ⟨List.replicate n b ++ o, lost, by simp [h1], h2, .repeated h0 h3⟩

/-! ### The whole body -/

theorem body_supply (codec : PyCodec) (L : Supply codec.decomp) (formats : Int → Option DataFormat)
    (from_ : PyFile) (hpos : from_.pos = 0) (rest : Bytes) (toSize : Int) (q : Bytes)
    (hO : L.has (codec.initDecomp rest.length) rest q)
    (hdf : ∀ d len b, unpackSizeWithLength q = .ok (d, len, b) → d ≤ 0) :
    (∃ d len b recs r out, unpackSizeWithLength q = .ok (d, len, b) ∧ Recs toSize b recs r ∧
      rebuild from_.clampSeek from_.data 0 recs = some out ∧
      ∃ F st file, L.has st file r ∧ ∀ fuel, F ≤ fuel → applySequentialBody codec formats fuel from_ rest toSize =
        ⟨out, if codec.decomp.eof st then .ok toSize else .error (.error "End of patch not found.")⟩) ∨
    ((∀ d len b recs r, unpackSizeWithLength q = .ok (d, len, b) → Recs toSize b recs r →
        rebuild from_.clampSeek from_.data 0 recs = none) ∧
      FailsW fun fuel => applySequentialBody codec formats fuel from_ rest toSize) := by
  have hu := PatchReader.unpackSize_supply L { st := codec.initDecomp rest.length, file := rest } q hO
  cases hq : unpackSizeWithLength q with
  | error e0 =>
    right
    refine ⟨fun d len b recs r h => (by cases h), ?_⟩
    rw [hq] at hu
    obtain ⟨F, e, he, hF⟩ := hu
    refine ⟨F, [], e, he, fun fuel hf => ?_⟩
    simp only [applySequentialBody, createDataFormatReaders, hF fuel hf, bind, Except.bind, W.bind, W.lift]
  | ok p =>
    obtain ⟨d, len, b⟩ := p
    rw [hq] at hu
    obtain ⟨F1, r1, hF1, hO1⟩ := hu
    have hd := hdf d len b hq
    have hcr : ∀ fuel, F1 ≤ fuel → createDataFormatReaders formats fuel
        ({ st := codec.initDecomp rest.length, file := rest } : PatchReader codec.decomp) from_ toSize =
        .ok { reader := r1, from_ := from_, dfdiff := none } := by
      intro fuel hf
      simp only [createDataFormatReaders, hF1 fuel hf, bind, Except.bind, pure, Except.pure]
      rw [if_neg (by omega)]
    rcases applyLoop_supply L b.length { reader := r1, from_ := from_, dfdiff := none } b 0 toSize (Nat.le_refl _) rfl hO1 with
      ⟨recs, r, out, hr, hb, F2, s', hF2, hO2⟩ | ⟨hno, hF⟩
    · left
      simp only [hpos] at hb
      rw [Int.sub_zero] at hr
      refine ⟨d, len, b, recs, r, out, rfl, hr, hb, max F1 F2, s'.reader.st, s'.reader.file, hO2, fun fuel hf => ?_⟩
      simp only [applySequentialBody, hcr fuel (by omega), W.lift_bind_ok, hF2 fuel (by omega), W.mk_bind_ok]
      split <;> simp [W.pure_eq, W.lift]
    · right
      refine ⟨fun d' len' b' recs r h hr => ?_, ?_⟩
      · cases h
        have := hno recs r (by rw [Int.sub_zero]; exact hr)
        simpa only [hpos] using this
      · simp only [applySequentialBody]
        refine FailsW.bind_right (o := []) (a := { reader := r1, from_ := from_, dfdiff := none }) ⟨F1, fun fuel hf => by rw [hcr fuel hf]; rfl⟩ ?_
        exact hF.bind_left

end Detools
