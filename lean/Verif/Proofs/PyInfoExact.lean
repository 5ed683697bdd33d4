import Verif.Proofs.PyInfo
import Verif.Proofs.PyAccept

namespace Detools

/-- Enough fuel leads to an error other than the timeout of the model. -/
def FailsE (x : Nat → Except PyErr α) : Prop := ∃ F e, e ≠ PyErr.timeout ∧ ∀ fuel, F ≤ fuel → x fuel = .error e

theorem FailsE.const {e : PyErr} (he : e ≠ .timeout) : FailsE fun _ => (.error e : Except PyErr α) := ⟨0, e, he, fun _ _ => rfl⟩

theorem FailsE.bind_left {x : Nat → Except PyErr α} {f : Nat → α → Except PyErr β} (h : FailsE x) : FailsE fun fuel => x fuel >>= f fuel := by
  obtain ⟨F, e, he, hF⟩ := h
  exact ⟨F, e, he, fun fuel hf => by simp only [hF fuel hf, bind, Except.bind]⟩

theorem FailsE.bind_right {x : Nat → Except PyErr α} {f : Nat → α → Except PyErr β} {a} (hx : ∃ F, ∀ fuel, F ≤ fuel → x fuel = .ok a)
    (h : FailsE fun fuel => f fuel a) : FailsE fun fuel => x fuel >>= f fuel := by
  obtain ⟨F1, hx⟩ := hx
  obtain ⟨F, e, he, hF⟩ := h
  refine ⟨max F1 F, e, he, fun fuel hf => ?_⟩
  have := hF fuel (by omega)
  simp only at this
  simp only [hx fuel (by omega), bind, Except.bind, this]

theorem FailsE.succ {x : Nat → Except PyErr α} (h : FailsE fun k => x (k + 1)) : FailsE x := by
  obtain ⟨F, e, he, hF⟩ := h
  refine ⟨F + 1, e, he, fun fuel hf => ?_⟩
  obtain ⟨k, rfl⟩ : ∃ k, fuel = k + 1 := ⟨fuel - 1, by omega⟩
  exact hF k (by omega)

theorem PatchReader.unpackLoopLen_supply {D : Decompressor} (L : Supply D) (bs : Bytes) :
    ∀ (r : PatchReader D) (value offset : Nat), L.has r.st r.file bs →
    match Detools.unpackLoop value offset bs with
    | .ok (v, o, rest) =>
      ∃ F r', (∀ fuel rf, F ≤ fuel → F ≤ rf → PatchReader.unpackLoopLen rf fuel r value offset = .ok (v, o, r')) ∧
        L.has r'.st r'.file rest
    | .error _ => ∃ F e, e ≠ .timeout ∧ ∀ fuel rf, F ≤ fuel → F ≤ rf → PatchReader.unpackLoopLen rf fuel r value offset = .error e := by
  induction bs with
  | nil =>
    intro r value offset hO
    obtain ⟨F, e, he, hF⟩ := PatchReader.readByte_supply L r [] hO
    refine ⟨F + 1, e, he, fun fuel rf h1 h2 => ?_⟩
    obtain ⟨k, rfl⟩ : ∃ k, fuel = k + 1 := ⟨fuel - 1, by omega⟩
    simp only [PatchReader.unpackLoopLen, hF rf (by omega), bind, Except.bind]
  | cons b bs ih =>
    intro r value offset hO
    obtain ⟨F1, r1, h1, hO1⟩ := PatchReader.readByte_supply L r (b :: bs) hO
    simp only [Detools.unpackLoop]
    by_cases hb : b &&& 0x80 ≠ 0
    · rw [if_pos hb]
      have := ih r1 (value ||| ((b.toNat &&& 0x7f) <<< offset)) (offset + 7) hO1
      cases hu : Detools.unpackLoop (value ||| ((b.toNat &&& 0x7f) <<< offset)) (offset + 7) bs with
      | error e0 =>
        rw [hu] at this
        obtain ⟨F2, e, he, h2⟩ := this
        refine ⟨max F1 (F2 + 1), e, he, ?_⟩
        intro fuel rf hf hrf
        obtain ⟨k, rfl⟩ : ∃ k, fuel = k + 1 := ⟨fuel - 1, by omega⟩
        simp only [PatchReader.unpackLoopLen, h1 rf (by omega), bind, Except.bind, if_pos hb]
        exact h2 k rf (by omega) (by omega)
      | ok p =>
        obtain ⟨v, o, rest⟩ := p
        rw [hu] at this
        obtain ⟨F2, r2, h2, hO2⟩ := this
        refine ⟨max F1 (F2 + 1), r2, ?_, hO2⟩
        intro fuel rf hf hrf
        obtain ⟨k, rfl⟩ : ∃ k, fuel = k + 1 := ⟨fuel - 1, by omega⟩
        simp only [PatchReader.unpackLoopLen, h1 rf (by omega), bind, Except.bind, if_pos hb]
        exact h2 k rf (by omega) (by omega)
    · rw [if_neg hb]
      refine ⟨F1 + 1, r1, ?_, hO1⟩
      intro fuel rf hf hrf
      obtain ⟨k, rfl⟩ : ∃ k, fuel = k + 1 := ⟨fuel - 1, by omega⟩
      simp only [PatchReader.unpackLoopLen, h1 rf (by omega), bind, Except.bind, if_neg hb]

theorem PatchReader.unpackSizeWithLength_supply {D : Decompressor} (L : Supply D) (r : PatchReader D) (bs : Bytes)
    (hO : L.has r.st r.file bs) :
    match Detools.unpackSizeWithLength bs with
    | .ok (v, n, rest) => ∃ F r', (∀ fuel, F ≤ fuel → r.unpackSizeWithLength fuel = .ok (v, n, r')) ∧ L.has r'.st r'.file rest
    | .error _ => FailsE fun fuel => r.unpackSizeWithLength fuel := by
  cases bs with
  | nil =>
    obtain ⟨F, e, he, hF⟩ := PatchReader.readByte_supply L r [] hO
    exact ⟨F, e, he, fun fuel h => by simp only [PatchReader.unpackSizeWithLength, hF fuel h, bind, Except.bind]⟩
  | cons b bs =>
    obtain ⟨F1, r1, h1, hO1⟩ := PatchReader.readByte_supply L r (b :: bs) hO
    simp only [Detools.unpackSizeWithLength, bind, Except.bind, pure, Except.pure]
    by_cases hb : b &&& 0x80 ≠ 0
    · rw [if_pos hb]
      have := PatchReader.unpackLoopLen_supply L bs r1 (b.toNat &&& 63) 6 hO1
      cases hl : Detools.unpackLoop (b.toNat &&& 63) 6 bs with
      | error e0 =>
        rw [hl] at this
        obtain ⟨F2, e, he, h2⟩ := this
        refine ⟨max F1 F2, e, he, ?_⟩
        intro fuel hf
        simp only [PatchReader.unpackSizeWithLength, bind, Except.bind, h1 fuel (by omega), if_pos hb,
          h2 fuel fuel (by omega) (by omega)]
      | ok p =>
        obtain ⟨v', o', rest'⟩ := p
        rw [hl] at this
        obtain ⟨F2, r2, h2, hO2⟩ := this
        refine ⟨max F1 F2, r2, ?_, hO2⟩
        intro fuel hf
        simp only [PatchReader.unpackSizeWithLength, bind, Except.bind, pure, Except.pure, h1 fuel (by omega), if_pos hb,
          h2 fuel fuel (by omega) (by omega)]
    · rw [if_neg hb]
      refine ⟨F1, r1, ?_, hO1⟩
      intro fuel hf
      simp only [PatchReader.unpackSizeWithLength, bind, Except.bind, pure, Except.pure, h1 fuel (by omega), if_neg hb]

theorem infoLoop_supply {D : Decompressor} (L : Supply D) : ∀ (N : Nat) (r : PatchReader D) (q : Bytes) (toPos toSize : Int),
    q.length ≤ N → L.has r.st r.file q →
    (∃ recs rest, InfoRecs (toSize - toPos) q recs rest ∧
      ∃ F r', (∀ fuel, F ≤ fuel → infoLoop fuel toPos toSize r = .ok (describe toSize recs, r')) ∧ L.has r'.st r'.file rest) ∨
    ((∀ recs rest, ¬ InfoRecs (toSize - toPos) q recs rest) ∧ FailsE fun fuel => infoLoop fuel toPos toSize r) := by
  intro N
  induction N using Nat.strongRecOn with
  | _ N ih =>
  intro r q toPos toSize hN hO
  by_cases hlt : toPos < toSize
  · have hnd : ∀ {recs rest}, InfoRecs (toSize - toPos) q recs rest → recs ≠ [] := by
      intro recs rest h
      cases h with
      | done h => omega
      | record => simp
    have unf : ∀ k, infoLoop (k + 1) toPos toSize r = _ := fun k => by rw [infoLoop, if_pos hlt]
    have hu := PatchReader.unpackSizeWithLength_supply L r q hO
    cases h1 : Detools.unpackSizeWithLength q with
    | error e0 =>
      rw [h1] at hu
      refine .inr ⟨fun recs rest h => ?_, FailsE.succ ?_⟩
      · cases h with
        | done h => omega
        | record _ g => rw [h1] at g; cases g
      · simp only [unf]
        exact FailsE.bind_left hu
    | ok p =>
      obtain ⟨ds, n1, q1⟩ := p
      rw [h1] at hu
      obtain ⟨Fa, ra, ha, oa⟩ := hu
      have s1 := unpackSizeWithLength_shorter h1
      by_cases c1 : toPos + ds > toSize
      · refine .inr ⟨fun recs rest h => ?_, FailsE.succ ?_⟩
        · cases h with
          | done h => omega
          | record _ g g2 => rw [h1] at g; cases g; omega
        · simp only [unf]
          refine FailsE.bind_right ⟨Fa, ha⟩ ?_
          simp only [if_pos c1]
          exact FailsE.const (by simp)
      rcases PatchReader.read_supply L ra q1 ds.toNat oa with ⟨l1, Fb, rb, hb, ob⟩ | ⟨l1, hb⟩
      · have hu2 := PatchReader.unpackSizeWithLength_supply L rb (q1.drop ds.toNat) ob
        cases h2 : Detools.unpackSizeWithLength (q1.drop ds.toNat) with
        | error e0 =>
          rw [h2] at hu2
          refine .inr ⟨fun recs rest h => ?_, FailsE.succ ?_⟩
          · cases h with
            | done h => omega
            | record _ g g2 g3 g4 =>
              rw [h1] at g
              cases g
              rw [← g3, List.drop_left, g4] at h2
              cases h2
          · simp only [unf]
            refine FailsE.bind_right ⟨Fa, ha⟩ ?_
            simp only [if_neg c1]
            refine FailsE.bind_right ⟨Fb, hb⟩ ?_
            exact FailsE.bind_left hu2
        | ok p =>
          obtain ⟨es, n2, q2⟩ := p
          rw [h2] at hu2
          obtain ⟨Fc, rc, hc, oc⟩ := hu2
          have s2 := unpackSizeWithLength_shorter h2
          by_cases c2 : toPos + ds + es > toSize
          · refine .inr ⟨fun recs rest h => ?_, FailsE.succ ?_⟩
            · cases h with
              | done h => omega
              | record _ g g2 g3 g4 g5 =>
                rw [h1] at g
                cases g
                rw [← g3, List.drop_left, g4] at h2
                cases h2
                omega
            · simp only [unf]
              refine FailsE.bind_right ⟨Fa, ha⟩ ?_
              simp only [if_neg c1]
              refine FailsE.bind_right ⟨Fb, hb⟩ ?_
              refine FailsE.bind_right ⟨Fc, hc⟩ ?_
              simp only [if_pos c2]
              exact FailsE.const (by simp)
          rcases PatchReader.read_supply L rc q2 es.toNat oc with ⟨l2, Fd, rd, hd, od⟩ | ⟨l2, hd⟩
          · have hu3 := PatchReader.unpackSizeWithLength_supply L rd (q2.drop es.toNat) od
            cases h3 : Detools.unpackSizeWithLength (q2.drop es.toNat) with
            | error e0 =>
              rw [h3] at hu3
              refine .inr ⟨fun recs rest h => ?_, FailsE.succ ?_⟩
              · cases h with
                | done h => omega
                | record _ g g2 g3 g4 g5 g6 g7 =>
                  rw [h1] at g
                  cases g
                  rw [← g3, List.drop_left, g4] at h2
                  cases h2
                  rw [← g6, List.drop_left, g7] at h3
                  cases h3
              · simp only [unf]
                refine FailsE.bind_right ⟨Fa, ha⟩ ?_
                simp only [if_neg c1]
                refine FailsE.bind_right ⟨Fb, hb⟩ ?_
                refine FailsE.bind_right ⟨Fc, hc⟩ ?_
                simp only [if_neg c2]
                refine FailsE.bind_right ⟨Fd, hd⟩ ?_
                exact FailsE.bind_left hu3
            | ok p =>
              obtain ⟨adj, n3, q3⟩ := p
              rw [h3] at hu3
              obtain ⟨Fe, re, he, oe⟩ := hu3
              have s3 := unpackSizeWithLength_shorter h3
              rw [List.length_drop] at s2 s3
              have e0 : toSize - toPos - ds - es = toSize - (toPos + ds + es) := by omega
              rcases ih q3.length (by omega) re q3 (toPos + ds + es) toSize (Nat.le_refl _) oe with ⟨recs, rest, hR, Fg, rg, hg, og⟩ | ⟨hno, hg⟩
              · left
                refine ⟨⟨ds, q1.take ds.toNat, es, q2.take es.toNat, adj, n1, n2, n3⟩ :: recs, rest, ?_,
                  max Fa (max Fb (max Fc (max Fd (max Fe Fg)))) + 1, rg, ?_, og⟩
                · refine .record (b1 := q1.drop ds.toNat) (b2 := q2.drop es.toNat) (b3 := q3) (by omega) ?_ (by show ds ≤ _; omega) ?_ ?_
                    (by show es ≤ toSize - toPos - ds; omega) ?_ h3 ?_
                  · rw [List.take_append_drop]; exact h1
                  · show (q1.take ds.toNat).length = ds.toNat
                    rw [List.length_take]; omega
                  · rw [List.take_append_drop]; exact h2
                  · show (q2.take es.toNat).length = es.toNat
                    rw [List.length_take]; omega
                  · show InfoRecs (toSize - toPos - ds - es) _ _ _
                    rw [e0]; exact hR
                · intro fuel hf
                  obtain ⟨k, rfl⟩ : ∃ k, fuel = k + 1 := ⟨fuel - 1, by omega⟩
                  rw [unf]
                  simp only [bind, Except.bind, pure, Except.pure, ha k (by omega), c1, if_false, hb k (by omega), hc k (by omega), c2, hd k (by omega),
                    he k (by omega), hg k (by omega), describe, List.map_cons, List.sum_cons]
              · right
                refine ⟨fun recs rest h => ?_, FailsE.succ ?_⟩
                · cases h with
                  | done h => omega
                  | record _ g g2 g3 g4 g5 g6 g7 g8 =>
                    rw [h1] at g
                    cases g
                    rw [← g3, List.drop_left, g4] at h2
                    cases h2
                    rw [← g6, List.drop_left, g7] at h3
                    cases h3
                    rw [e0] at g8
                    exact hno _ _ g8
                · simp only [unf]
                  refine FailsE.bind_right ⟨Fa, ha⟩ ?_
                  simp only [if_neg c1]
                  refine FailsE.bind_right ⟨Fb, hb⟩ ?_
                  refine FailsE.bind_right ⟨Fc, hc⟩ ?_
                  simp only [if_neg c2]
                  refine FailsE.bind_right ⟨Fd, hd⟩ ?_
                  refine FailsE.bind_right ⟨Fe, he⟩ ?_
                  exact FailsE.bind_left hg
          · refine .inr ⟨fun recs rest h => ?_, FailsE.succ ?_⟩
            · cases h with
              | done h => omega
              | record _ g g2 g3 g4 g5 g6 =>
                rw [h1] at g
                cases g
                rw [← g3, List.drop_left, g4] at h2
                cases h2
                rw [List.length_append] at l2
                omega
            · simp only [unf]
              refine FailsE.bind_right ⟨Fa, ha⟩ ?_
              simp only [if_neg c1]
              refine FailsE.bind_right ⟨Fb, hb⟩ ?_
              refine FailsE.bind_right ⟨Fc, hc⟩ ?_
              simp only [if_neg c2]
              exact FailsE.bind_left hd
      · refine .inr ⟨fun recs rest h => ?_, FailsE.succ ?_⟩
        · cases h with
          | done h => omega
          | record _ g g2 g3 =>
            rw [h1] at g
            cases g
            rw [List.length_append] at l1
            omega
        · simp only [unf]
          refine FailsE.bind_right ⟨Fa, ha⟩ ?_
          simp only [if_neg c1]
          exact FailsE.bind_left hb
  · left
    refine ⟨[], q, .done (by omega), 0, r, fun fuel _ => ?_, hO⟩
    cases fuel <;> (unfold infoLoop; rw [if_neg hlt]; rfl)


theorem InfoRecs.unique {left : Int} {q : Bytes} {rs : List Rec} {rest : Bytes} (h : InfoRecs left q rs rest) :
    ∀ {rs' rest'}, InfoRecs left q rs' rest' → rs = rs' ∧ rest = rest' := by
  induction h with
  | done h =>
    intro rs' rest' h'
    cases h' with
    | done _ => exact ⟨rfl, rfl⟩
    | record h' => omega
  | @record left body b1 b2 b3 rest r rs h1 h2 h3 h4 h5 h6 h7 h8 _ ih =>
    intro rs' rest' h'
    cases h' with
    | done h' => omega
    | @record _ _ b1' b2' b3' _ r' rs' g1 g2 g3 g4 g5 g6 g7 g8 g9 =>
      rw [h2] at g2
      simp only [Except.ok.injEq, Prod.mk.injEq] at g2
      obtain ⟨e1, e2, e3⟩ := g2
      obtain ⟨e4, rfl⟩ := List.append_inj e3 (by rw [h4, g4, e1])
      rw [h5] at g5
      simp only [Except.ok.injEq, Prod.mk.injEq] at g5
      obtain ⟨e5, e6, e7⟩ := g5
      obtain ⟨e8, rfl⟩ := List.append_inj e7 (by rw [h7, g7, e5])
      rw [h8] at g8
      simp only [Except.ok.injEq, Prod.mk.injEq] at g8
      obtain ⟨e9, e10, rfl⟩ := g8
      rw [← e1, ← e5] at g9
      obtain ⟨rfl, rfl⟩ := ih g9
      refine ⟨?_, rfl⟩
      congr 1
      cases r; cases r'
      simp only at *
      simp only [Rec.mk.injEq]
      exact ⟨e1, e4, e5, e8, e9, e2, e6, e10⟩

theorem InfoRecs.recs {left : Int} {q : Bytes} {rs : List Rec} {rest : Bytes} (h : InfoRecs left q rs rest)
    (hn : ∀ x ∈ rs, 0 ≤ x.diffSize ∧ 0 ≤ x.extraSize) : Recs left q rs rest := by
  induction h with
  | done h => exact .done h
  | @record left body b1 b2 b3 rest r rs h1 h2 h3 h4 h5 h6 h7 h8 _ ih =>
    obtain ⟨n1, n2⟩ := hn r (by simp)
    have := ih (fun x hx => hn x (by simp [hx]))
    refine .record h1 h2 h3 h4 h5 (by omega) h7 h8 ?_
    rw [show left - (r.diff.length : Int) - r.extra.length = left - r.diffSize - r.extraSize by omega]
    exact this

theorem Recs.infoRecs {left : Int} {q : Bytes} {rs : List Rec} {rest : Bytes} (h : Recs left q rs rest)
    (hn : ∀ x ∈ rs, 0 ≤ x.diffSize ∧ 0 ≤ x.extraSize) : InfoRecs left q rs rest := by
  induction h with
  | done h => exact .done h
  | @record left body b1 b2 b3 rest r rs h1 h2 h3 h4 h5 h6 h7 h8 _ ih =>
    obtain ⟨n1, n2⟩ := hn r (by simp)
    have := ih (fun x hx => hn x (by simp [hx]))
    refine .record h1 h2 h3 h4 h5 (by omega) h7 h8 ?_
    rw [← show left - (r.diff.length : Int) - r.extra.length = left - r.diffSize - r.extraSize by omega]
    exact this

/-- A decompressor that delivers `body`. -/
theorem infoSequential_exact (lib : Lib) (dfInfo : Int → Bytes → Except PyErr Unit) (c : Compression) (L : Delivers (lib.codecOf c).decomp)
    (patch rest body : Bytes) (toSize : Int) (hh : readHeaderSequential patch = .ok (c, toSize, rest)) (h0 : toSize ≠ 0)
    (hO : L.owes ((lib.codecOf c).initDecomp rest.length) rest body)
    (hdf : ∀ d len b, Detools.unpackSizeWithLength body = .ok (d, len, b) → d ≤ 0) :
    (∃ d len b recs, Detools.unpackSizeWithLength body = .ok (d, len, b) ∧ InfoRecs toSize b recs [] ∧
      ∃ F, ∀ fuel, F ≤ fuel → infoSequential lib dfInfo fuel patch = .ok ⟨patch.length, c, d, none, describe toSize recs⟩) ∨
    ((∀ d len b recs, Detools.unpackSizeWithLength body = .ok (d, len, b) → ¬ InfoRecs toSize b recs []) ∧
      FailsE fun fuel => infoSequential lib dfInfo fuel patch) := by
  have hu := PatchReader.unpackSize_supply L.supply { st := (lib.codecOf c).initDecomp rest.length, file := rest } body hO
  have unf : ∀ fuel, infoSequential lib dfInfo fuel patch = (do
      let (dfpatchSize, dataFormat, reader) ← infoDataFormat dfInfo fuel
        ({ st := (lib.codecOf c).initDecomp rest.length, file := rest } : PatchReader (lib.codecOf c).decomp)
      let (info, reader) ← infoLoop fuel 0 toSize reader
      if ¬ (lib.codecOf c).decomp.eof reader.st then .error (.error "End of patch not found.")
      else return ⟨patch.length, c, dfpatchSize, dataFormat, info⟩) := by
    intro fuel
    unfold infoSequential
    rw [hh]
    simp only [bind, Except.bind, if_neg h0]
  cases h1 : Detools.unpackSizeWithLength body with
  | error e0 =>
    rw [h1] at hu
    refine .inr ⟨fun d len b recs h => absurd h (by simp), ?_⟩
    obtain ⟨F, e, he, hF⟩ := hu
    refine ⟨F, e, he, fun fuel hf => ?_⟩
    show infoSequential lib dfInfo fuel patch = _
    rw [unf]
    simp only [infoDataFormat, hF fuel hf, bind, Except.bind]
  | ok p =>
    obtain ⟨d, len, b⟩ := p
    rw [h1] at hu
    obtain ⟨F1, r1, e1, o1⟩ := hu
    have hd := hdf d len b h1
    have e1' : ∀ fuel, F1 ≤ fuel → infoDataFormat dfInfo fuel
        ({ st := (lib.codecOf c).initDecomp rest.length, file := rest } : PatchReader (lib.codecOf c).decomp) = .ok (d, none, r1) := by
      intro fuel hf
      simp only [infoDataFormat, e1 fuel hf, bind, Except.bind, pure, Except.pure]
      rw [if_neg (by omega)]
    rcases infoLoop_supply L.supply b.length r1 b 0 toSize (Nat.le_refl _) o1 with ⟨recs, rest', hR, F2, r2, e2, o2⟩ | ⟨hno, hF⟩
    · rw [Int.sub_zero] at hR
      by_cases hr : rest' = []
      · subst hr
        refine .inl ⟨d, len, b, recs, rfl, hR, max F1 F2, fun fuel hf => ?_⟩
        rw [unf]
        simp only [bind, Except.bind, pure, Except.pure, e1' fuel (by omega), e2 fuel (by omega)]
        rw [if_neg (by rw [(L.eof_iff o2).2 rfl]; simp)]
      · right
        refine ⟨fun d' len' b' recs' h hR' => ?_, max F1 F2, .error "End of patch not found.", by simp, fun fuel hf => ?_⟩
        · cases h
          exact hr (hR.unique hR').2
        · show infoSequential lib dfInfo fuel patch = _
          rw [unf]
          simp only [bind, Except.bind, pure, Except.pure, e1' fuel (by omega), e2 fuel (by omega)]
          rw [if_pos]
          intro he
          exact hr ((L.eof_iff o2).1 he)
    · right
      refine ⟨fun d' len' b' recs' h hR' => ?_, ?_⟩
      · cases h
        exact hno _ _ (by rw [Int.sub_zero]; exact hR')
      · simp only [unf]
        refine FailsE.bind_right ⟨F1, e1'⟩ ?_
        exact FailsE.bind_left hF

end Detools
