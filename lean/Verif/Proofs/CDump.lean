import Verif.Model.CDump
import Verif.Proofs.CBound
import Verif.Proofs.CSeqFailed
/-
Dump and restore of the sequential C API.
-/
namespace Detools

variable [Build]

/-! The state of the files agrees with the object. -/

structure DInv (s : ApplyPatch) (w : World Files) : Prop where
  start : s.state = .init → s.fromOffset = 0 ∧ w.arg.pos = 0
  pos : s.state ≠ .failed → s.fromOffset = w.arg.pos ∧ 0 ≤ w.arg.pos ∧ w.arg.pos < 2 ^ 31
  comp : s.state ≠ .init → s.state ≠ .failed → s.compression = 1 ∨ s.compression = 0 ∨ s.compression = 2 ∨ s.compression = 4
  out : s.toOffset = sz w.arg.out.length

omit [Build] in
theorem DInv.quiet {s s' : ApplyPatch} {w w' : World Files} (h : DInv s w) (hw : w'.arg = w.arg)
    (h0 : s'.state = s.state) (h1 : s'.fromOffset = s.fromOffset)
    (h2 : s'.toOffset = s.toOffset) (h3 : s'.compression = s.compression) : DInv s' w' := by
  refine ⟨?_, ?_, ?_, ?_⟩
  · rw [h0, h1, hw]; exact h.start
  · rw [h0, h1, hw]; exact h.pos
  · rw [h0, h3]; exact h.comp
  · rw [h2, hw]; exact h.out

omit [Build] in
theorem DInv.next {s s' : ApplyPatch} {w w' : World Files} (h : DInv s w) (hw : w'.arg = w.arg) (hs : s.state ≠ .init) (hs' : s.state ≠ .failed)
    (h0 : s'.state ≠ .init) (h1 : s'.fromOffset = s.fromOffset)
    (h2 : s'.toOffset = s.toOffset) (h3 : s'.compression = s.compression) : DInv s' w' := by
  refine ⟨fun h => absurd h h0, fun _ => ?_, fun _ _ => ?_, ?_⟩
  · rw [h1, hw]; exact h.pos hs'
  · rw [h3]; exact h.comp hs hs'
  · rw [h2, hw]; exact h.out

omit [Build] in
theorem DInv.fail {s : ApplyPatch} {w : World Files} (h : s.toOffset = sz w.arg.out.length) : DInv { s with state := .failed } w :=
  ⟨(fun h => by cases h), (fun h => absurd rfl h), (fun _ h => absurd rfl h), h⟩

theorem CReader.init_comp {p c : Nat} {r : CReader} (h : CReader.init p c = some r) : c = 1 ∨ c = 0 ∨ c = 2 ∨ c = 4 := by
  unfold CReader.init at h
  split at h
  · omega
  · split at h
    · omega
    · split at h
      · omega
      · split at h
        · omega
        · cases h

theorem init_dump {s : ApplyPatch} {w : World Files} (hd : DInv s w) (hs : s.state = .init) {res s' w'}
    (he : processInit s w = .ok (res, s', w')) : s'.toOffset = sz w'.arg.out.length ∧ (¬ res < 0 → DInv s' w') := by
  obtain ⟨b1, b2⟩ := hd.start hs
  have keep : ∀ {s1 : ApplyPatch}, s1.state = s.state → s1.fromOffset = s.fromOffset → s1.toOffset = s.toOffset →
      s1.toOffset = sz w.arg.out.length ∧ (¬ res < 0 → DInv s1 w) := by
    intro s1 k1 k2 k3
    refine ⟨by rw [k3]; exact hd.out, fun _ => ⟨?_, ?_, ?_, by rw [k3]; exact hd.out⟩⟩
    · intro _; rw [k2]; exact ⟨b1, b2⟩
    · intro _; rw [k2]; exact hd.pos (by rw [hs]; decide)
    · intro h _; exact absurd (k1.trans hs) h
  unfold processInit at he
  cases hi : s.initState with
  | fixedHeader =>
    simp only [hi, processInitFixedHeader, Bind.bind, Except.bind] at he
    split at he
    · cases he
    · split at he
      · cases he; exact keep rfl rfl rfl
      · split at he
        · cases he; exact keep rfl rfl rfl
        · cases he; exact keep rfl rfl rfl
  | toSize =>
    simp only [hi, processInitToSize, Bind.bind, Except.bind] at he
    split at he
    · cases he
    · split at he
      · cases he; exact keep rfl rfl rfl
      · cases he; exact keep rfl rfl rfl
      · split at he
        · cases he; exact keep rfl rfl rfl
        · rename_i r hr
          split at he
          · cases he; exact keep rfl rfl rfl
          · split at he
            · cases he
              exact ⟨hd.out, fun _ => ⟨(fun h => by cases h), fun _ => hd.pos (by rw [hs]; decide), fun _ _ => CReader.init_comp hr, hd.out⟩⟩
            · cases he
              exact ⟨hd.out, fun _ => ⟨(fun h => by cases h), fun _ => hd.pos (by rw [hs]; decide), fun _ _ => CReader.init_comp hr, hd.out⟩⟩

omit [Build] in
theorem write_dump (fr : Bytes) (E : SeqEnv Files) (hE : E = fileEnv fr) {s : ApplyPatch} {w : World Files} (hd : DInv s w) (hs : s.state ≠ .init) (hf : s.state ≠ .failed) {to : Bytes}
    {res s' w'} (he : processWrite E s w to = .ok (res, s', w')) : s'.toOffset = sz w'.arg.out.length ∧ (¬ res < 0 → DInv s' w') := by
  have hout : sz (s.toOffset + to.length) = sz (w.arg.out ++ to).length := by
    rw [hd.out, List.length_append]
    unfold sz
    omega
  subst hE
  unfold processWrite at he
  simp only [fileEnv, ne_eq, not_true, if_false] at he
  · cases he
    exact ⟨hout, fun _ => ⟨fun h => absurd h hs, fun _ => hd.pos hf, fun _ _ => hd.comp hs hf, hout⟩⟩

theorem once_dump (fr : Bytes) (E : SeqEnv Files) (hE : E = fileEnv fr) (hfr : fr.length < 2 ^ 31) {s : ApplyPatch} {w : World Files} (hd : DInv s w) {res s' w'}
    (he : processOnce E s w = .ok (res, s', w')) : DInv s' w' := by
  obtain ⟨rd, sk, wr⟩ := E
  have hrd : rd = (fileEnv fr).fromRead := congrArg SeqEnv.fromRead hE
  have hsk : sk = (fileEnv fr).fromSeek := congrArg SeqEnv.fromSeek hE
  unfold processOnce at he
  split at he
  · cases he; exact hd
  · cases hsw : processSwitch ⟨rd, sk, wr⟩ s w with
    | error u => rw [hsw] at he; cases he
    | ok v =>
      obtain ⟨r1, s1, w1⟩ := v
      rw [hsw] at he
      simp only [Bind.bind, Except.bind] at he
      have key : s1.toOffset = sz w1.arg.out.length ∧ (¬ r1 < 0 → DInv s1 w1) := by
        clear he
        have both : ∀ {s1 : ApplyPatch} {w1 : World Files} {r1 : Int}, DInv s1 w1 → s1.toOffset = sz w1.arg.out.length ∧ (¬ r1 < 0 → DInv s1 w1) :=
          fun h => ⟨h.out, fun _ => h⟩
        have hsize : ∀ next, next ≠ .init → s.state ≠ .init → s.state ≠ .failed → processSize s w next = .ok (r1, s1, w1) →
            s1.toOffset = sz w1.arg.out.length ∧ (¬ r1 < 0 → DInv s1 w1) := by
          intro next hn h1 h2 hp
          simp only [processSize, Bind.bind, Except.bind] at hp
          split at hp
          · cases hp
          · rename_i e
            split at hp
            · obtain ⟨_, f2, _, f4⟩ := unpack_frame e
              obtain ⟨q1, q2⟩ := unpack_frame2 e
              cases hp; exact both (hd.quiet rfl f4 q1 f2 q2)
            · obtain ⟨_, f2, _, f4⟩ := unpack_frame e
              obtain ⟨q1, q2⟩ := unpack_frame2 e
              cases hp; exact both (hd.quiet rfl f4 q1 f2 q2)
            · obtain ⟨_, f2, _, f4⟩ := unpack_frame e
              obtain ⟨q1, q2⟩ := unpack_frame2 e
              split at hp
              · cases hp; exact both (hd.quiet rfl f4 q1 f2 q2)
              · cases hp; exact both (hd.next rfl h1 h2 hn q1 f2 q2)
        have hdata : ∀ next diff, next ≠ .init → s.state ≠ .init → s.state ≠ .failed → processData ⟨rd, sk, wr⟩ s w next diff = .ok (r1, s1, w1) →
            s1.toOffset = sz w1.arg.out.length ∧ (¬ r1 < 0 → DInv s1 w1) := by
          intro next diff hn h1 h2 hp
          obtain ⟨p1, p2, p3⟩ := hd.pos h2
          unfold processData at hp
          by_cases hz : min dataCap s.chunkSize = 0
          · simp only [hz, if_true] at hp
            cases hp; exact both (hd.next rfl h1 h2 hn rfl rfl rfl)
          · simp only [hz, if_false] at hp
            cases hr : s.reader with
            | none => rw [hr] at hp; cases hp
            | some r =>
              rw [hr] at hp
              simp only [Bind.bind, Except.bind] at hp
              cases hdd : r.decompress s.chunk dataCap (min dataCap s.chunkSize) with
              | error u => rw [hdd] at hp; cases hp
              | ok v =>
                obtain ⟨d, r', c'⟩ := v
                rw [hdd] at hp
                match d, hp with
                | .more, hp => cases hp; exact both (hd.quiet rfl rfl rfl rfl rfl)
                | .fail e, hp => cases hp; exact both (hd.quiet rfl rfl rfl rfl rfl)
                | .ok to, hp =>
                  cases diff with
                  | false =>
                    simp only [Bool.false_eq_true, if_false] at hp
                    exact write_dump fr _ hE (s := { s with reader := some r', chunk := c' }) (hd.quiet rfl rfl rfl rfl rfl) h1 h2 hp
                  | true =>
                    simp only [if_true] at hp
                    by_cases hcond : to.length = 0 ∨ w.arg.pos + to.length ≤ fr.length
                    · have hread : rd w.arg to.length = (0, (fr.drop w.arg.pos.toNat).take to.length, { w.arg with pos := w.arg.pos + to.length }) := by rw [hrd]; exact if_pos hcond
                      rw [hread] at hp
                      simp only [ne_eq, not_true, if_false] at hp
                      split at hp
                      · cases hp
                      · refine write_dump fr _ hE (s := { s with reader := some r', chunk := c', fromOffset := _ })
                          (w := { arg := { w.arg with pos := w.arg.pos + to.length }, trace := _ }) ?_ h1 h2 hp
                        have hw : wrapInt (s.fromOffset + to.length) = w.arg.pos + to.length := by
                          unfold wrapInt
                          rw [p1]
                          omega
                        refine ⟨fun h => absurd h h1, fun _ => ⟨hw, ?_, ?_⟩, fun _ _ => hd.comp h1 h2, hd.out⟩
                        · show 0 ≤ w.arg.pos + to.length; omega
                        · show w.arg.pos + to.length < 2 ^ 31; omega
                    · have hread : rd w.arg to.length = (FILE_READ_FAILED, [], w.arg) := by rw [hrd]; exact if_neg hcond
                      rw [hread] at hp
                      simp only [ne_eq] at hp
                      rw [if_pos (by decide)] at hp
                      cases hp
                      exact ⟨hd.out, fun h => absurd (by decide) h⟩
        unfold processSwitch at hsw
        cases hs : s.state with
        | init => rw [hs] at hsw; exact init_dump hd hs hsw
        | dfpatchSize =>
          rw [hs] at hsw
          simp only [processDfpatchSize, Bind.bind, Except.bind] at hsw
          split at hsw
          · cases hsw
          · rename_i e
            split at hsw
            · obtain ⟨_, f2, _, f4⟩ := unpack_frame e
              obtain ⟨q1, q2⟩ := unpack_frame2 e
              cases hsw; exact both (hd.quiet rfl f4 q1 f2 q2)
            · obtain ⟨_, f2, _, f4⟩ := unpack_frame e
              obtain ⟨q1, q2⟩ := unpack_frame2 e
              cases hsw; exact both (hd.quiet rfl f4 q1 f2 q2)
            · obtain ⟨_, f2, _, f4⟩ := unpack_frame e
              obtain ⟨q1, q2⟩ := unpack_frame2 e
              split at hsw
              · cases hsw; exact both (hd.quiet rfl f4 q1 f2 q2)
              · cases hsw; exact both (hd.next rfl (by rw [hs]; decide) (by rw [hs]; decide) (fun h => by cases h) q1 f2 q2)
        | diffSize => rw [hs] at hsw; exact hsize _ (by decide) (by rw [hs]; decide) (by rw [hs]; decide) hsw
        | extraSize => rw [hs] at hsw; exact hsize _ (by decide) (by rw [hs]; decide) (by rw [hs]; decide) hsw
        | diffData => rw [hs] at hsw; exact hdata _ _ (by decide) (by rw [hs]; decide) (by rw [hs]; decide) hsw
        | extraData => rw [hs] at hsw; exact hdata _ _ (by decide) (by rw [hs]; decide) (by rw [hs]; decide) hsw
        | adjustment =>
          rw [hs] at hsw
          have h1 : s.state ≠ .init := by rw [hs]; decide
          have h2 : s.state ≠ .failed := by rw [hs]; decide
          obtain ⟨p1, p2, p3⟩ := hd.pos h2
          simp only [processAdjustment, Bind.bind, Except.bind] at hsw
          split at hsw
          · cases hsw
          · rename_i e
            split at hsw
            · obtain ⟨_, f2, _, f4⟩ := unpack_frame e
              obtain ⟨q1, q2⟩ := unpack_frame2 e
              cases hsw; exact both (hd.quiet rfl f4 q1 f2 q2)
            · obtain ⟨_, f2, _, f4⟩ := unpack_frame e
              obtain ⟨q1, q2⟩ := unpack_frame2 e
              cases hsw; exact both (hd.quiet rfl f4 q1 f2 q2)
            · rename_i off s2
              obtain ⟨_, f2, _, f4⟩ := unpack_frame e
              obtain ⟨q1, q2⟩ := unpack_frame2 e
              by_cases hcond : w.arg.pos + off < 0
              · have hseek : sk w.arg off = (-1, w.arg) := by rw [hsk]; exact if_pos hcond
                rw [hseek] at hsw
                simp only [ne_eq] at hsw
                rw [if_pos (by decide)] at hsw
                cases hsw
                exact ⟨by rw [f2]; exact hd.out, fun h => absurd (by decide) h⟩
              · have hseek : sk w.arg off = (0, { w.arg with pos := w.arg.pos + off }) := by rw [hsk]; exact if_neg hcond
                rw [hseek] at hsw
                simp only [ne_eq, not_true, if_false] at hsw
                split at hsw
                · cases hsw
                · rename_i hov
                  rw [q1, p1] at hov
                  have fin : ∀ {st : SeqPhase} {tr}, st ≠ .init → st ≠ .failed → DInv { s2 with fromOffset := s2.fromOffset + off, state := st }
                      { arg := { w.arg with pos := w.arg.pos + off }, trace := tr } := by
                    intro st tr g1 g2
                    refine ⟨fun h => absurd h g1, fun _ => ⟨?_, ?_, ?_⟩, fun _ _ => ?_, ?_⟩
                    · show s2.fromOffset + off = w.arg.pos + off
                      rw [q1, p1]
                    · show 0 ≤ w.arg.pos + off; omega
                    · show w.arg.pos + off < 2 ^ 31; omega
                    · show s2.compression = 1 ∨ _; rw [q2]; exact hd.comp h1 h2
                    · show s2.toOffset = _; rw [f2]; exact hd.out
                  split at hsw
                  · cases hsw; exact both (fin (by decide) (by decide))
                  · cases hsw; exact both (fin (by decide) (by decide))
        | done => rw [hs] at hsw; cases hsw; exact both hd
        | failed => rw [hs] at hsw; cases hsw; exact both hd
      split at he
      · cases he; exact DInv.fail key.1
      · cases he; exact key.2 (by assumption)

/-! The header accumulators are dead after the header. -/

/-- `s` with other (dead) header members. -/
def ApplyPatch.withInit (s : ApplyPatch) (i : InitPhase) (z : SizeAcc) : ApplyPatch := { s with initState := i, size := z }

omit [Build] in
theorem withInit_state (s : ApplyPatch) (i z) : (s.withInit i z).state = s.state := rfl
omit [Build] in
theorem withInit_patchSize (s : ApplyPatch) (i z) : (s.withInit i z).patchSize = s.patchSize := rfl
omit [Build] in
theorem withInit_patchOffset (s : ApplyPatch) (i z) : (s.withInit i z).patchOffset = s.patchOffset := rfl
omit [Build] in
theorem withInit_compression (s : ApplyPatch) (i z) : (s.withInit i z).compression = s.compression := rfl
omit [Build] in
theorem withInit_toOffset (s : ApplyPatch) (i z) : (s.withInit i z).toOffset = s.toOffset := rfl
omit [Build] in
theorem withInit_toSize (s : ApplyPatch) (i z) : (s.withInit i z).toSize = s.toSize := rfl
omit [Build] in
theorem withInit_fromOffset (s : ApplyPatch) (i z) : (s.withInit i z).fromOffset = s.fromOffset := rfl
omit [Build] in
theorem withInit_chunkSize (s : ApplyPatch) (i z) : (s.withInit i z).chunkSize = s.chunkSize := rfl
omit [Build] in
theorem withInit_readerSize (s : ApplyPatch) (i z) : (s.withInit i z).readerSize = s.readerSize := rfl
omit [Build] in
theorem withInit_reader (s : ApplyPatch) (i z) : (s.withInit i z).reader = s.reader := rfl
omit [Build] in
theorem withInit_chunk (s : ApplyPatch) (i z) : (s.withInit i z).chunk = s.chunk := rfl

/-- Results that differ only in the dead members and in the record of callbacks. -/
def OutRel (i : InitPhase) (z : SizeAcc) : C (SeqRes σ) → C (SeqRes σ) → Prop
  | .error u, .error u' => u = u'
  | .ok (r, s, w), .ok (r', s', w') => r' = r ∧ s' = s.withInit i z ∧ w'.arg = w.arg ∧ s.state ≠ .init
  | _, _ => False

omit [Build] in
theorem ite_rel {i z} {c : Prop} [Decidable c] {a a' b b' : C (SeqRes σ)} (h1 : OutRel i z a a') (h2 : OutRel i z b b') :
    OutRel i z (if c then a else b) (if c then a' else b') := by
  by_cases h : c
  · rw [if_pos h, if_pos h]; exact h1
  · rw [if_neg h, if_neg h]; exact h2

theorem unpackSize_withInit (s : ApplyPatch) (i z) : (s.withInit i z).unpackSize = s.unpackSize.map fun (v, s) => (v, s.withInit i z) := by
  unfold ApplyPatch.unpackSize
  simp only [withInit_state, withInit_patchSize, withInit_patchOffset, withInit_compression, withInit_toOffset, withInit_toSize, withInit_fromOffset, withInit_chunkSize, withInit_readerSize, withInit_reader, withInit_chunk]
  cases s.reader with
  | none => rfl
  | some r =>
    simp only [Bind.bind, Except.bind]
    cases patchReaderUnpackSize r s.chunk s.readerSize with
    | error u => rfl
    | ok v => rfl

omit [Build] in
theorem write_rel (E : SeqEnv σ) (s : ApplyPatch) (hs : s.state ≠ .init) {w w' : World σ} (hw : w'.arg = w.arg) (to : Bytes) (i z) :
    OutRel i z (processWrite E s w to) (processWrite E (s.withInit i z) w' to) := by
  unfold processWrite
  simp only [hw]
  refine ite_rel ?_ ?_
  · exact ⟨rfl, rfl, rfl, hs⟩
  · exact ⟨rfl, rfl, rfl, hs⟩

theorem switch_rel (E : SeqEnv σ) (s : ApplyPatch) (hs : s.state ≠ .init) {w w' : World σ} (hw : w'.arg = w.arg) (i z) :
    OutRel i z (processSwitch E s w) (processSwitch E (s.withInit i z) w') := by
  have hsize : ∀ next, next ≠ .init → OutRel i z (processSize s w next) (processSize (s.withInit i z) w' next) := by
    intro next hn
    unfold processSize
    rw [unpackSize_withInit]
    cases he : s.unpackSize with
    | error u => exact rfl
    | ok v =>
      obtain ⟨v, s1⟩ := v
      have h1 : s1.state ≠ .init := by rw [(unpack_frame he).2.2.2]; exact hs
      cases v with
      | more => exact ⟨rfl, rfl, hw, h1⟩
      | fail e => exact ⟨rfl, rfl, hw, h1⟩
      | value n =>
        simp only [Except.map, Bind.bind, Except.bind]
        simp only [withInit_state, withInit_patchSize, withInit_patchOffset, withInit_compression, withInit_toOffset, withInit_toSize, withInit_fromOffset, withInit_chunkSize, withInit_readerSize, withInit_reader, withInit_chunk]
        refine ite_rel ?_ ?_
        · exact ⟨rfl, rfl, hw, h1⟩
        · exact ⟨rfl, rfl, hw, hn⟩
  have hdata : ∀ next diff, next ≠ .init → OutRel i z (processData E s w next diff) (processData E (s.withInit i z) w' next diff) := by
    intro next diff hn
    unfold processData
    simp only [withInit_state, withInit_patchSize, withInit_patchOffset, withInit_compression, withInit_toOffset, withInit_toSize, withInit_fromOffset, withInit_chunkSize, withInit_readerSize, withInit_reader, withInit_chunk]
    refine ite_rel ?_ ?_
    · exact ⟨rfl, rfl, hw, hn⟩
    · cases s.reader with
      | none => exact rfl
      | some r =>
        simp only [Bind.bind, Except.bind]
        cases r.decompress s.chunk dataCap (min dataCap s.chunkSize) with
        | error u => exact rfl
        | ok v =>
          obtain ⟨d, r', c'⟩ := v
          cases d with
          | more => exact ⟨rfl, rfl, hw, hs⟩
          | fail e => exact ⟨rfl, rfl, hw, hs⟩
          | ok to =>
            cases diff with
            | false => exact write_rel E { s with reader := some r', chunk := c' } hs hw to i z
            | true =>
              simp only [if_true, hw]
              refine ite_rel ?_ ?_
              · exact ⟨rfl, rfl, rfl, hs⟩
              · refine ite_rel ?_ ?_
                · exact rfl
                · exact write_rel E { s with reader := some r', chunk := c', fromOffset := _ } hs (by rfl) _ i z
  unfold processSwitch
  simp only [withInit_state, withInit_patchSize, withInit_patchOffset, withInit_compression, withInit_toOffset, withInit_toSize, withInit_fromOffset, withInit_chunkSize, withInit_readerSize, withInit_reader, withInit_chunk]
  cases h : s.state with
  | init => exact absurd h hs
  | dfpatchSize =>
    simp only [processDfpatchSize]
    rw [unpackSize_withInit]
    cases he : s.unpackSize with
    | error u => exact rfl
    | ok v =>
      obtain ⟨v, s1⟩ := v
      have h1 : s1.state ≠ .init := by rw [(unpack_frame he).2.2.2]; exact hs
      cases v with
      | more => exact ⟨rfl, rfl, hw, h1⟩
      | fail e => exact ⟨rfl, rfl, hw, h1⟩
      | value n =>
        simp only [Except.map, Bind.bind, Except.bind]
        refine ite_rel ?_ ?_
        · exact ⟨rfl, rfl, hw, h1⟩
        · exact ⟨rfl, rfl, hw, (fun h => by cases h)⟩
  | diffSize => exact hsize _ (by decide)
  | extraSize => exact hsize _ (by decide)
  | diffData => exact hdata _ _ (by decide)
  | extraData => exact hdata _ _ (by decide)
  | adjustment =>
    simp only [processAdjustment]
    rw [unpackSize_withInit]
    cases he : s.unpackSize with
    | error u => exact rfl
    | ok v =>
      obtain ⟨v, s1⟩ := v
      have h1 : s1.state ≠ .init := by rw [(unpack_frame he).2.2.2]; exact hs
      cases v with
      | more => exact ⟨rfl, rfl, hw, h1⟩
      | fail e => exact ⟨rfl, rfl, hw, h1⟩
      | value n =>
        simp only [Except.map, Bind.bind, Except.bind, hw]
        simp only [withInit_state, withInit_patchSize, withInit_patchOffset, withInit_compression, withInit_toOffset, withInit_toSize, withInit_fromOffset, withInit_chunkSize, withInit_readerSize, withInit_reader, withInit_chunk]
        refine ite_rel ?_ ?_
        · exact ⟨rfl, rfl, rfl, h1⟩
        · refine ite_rel ?_ ?_
          · exact rfl
          · refine ite_rel ?_ ?_
            · exact ⟨rfl, rfl, rfl, (fun h => by cases h)⟩
            · exact ⟨rfl, rfl, rfl, (fun h => by cases h)⟩
  | done => exact ⟨rfl, rfl, hw, hs⟩
  | failed => exact ⟨rfl, rfl, hw, hs⟩

theorem once_rel (E : SeqEnv σ) (s : ApplyPatch) (hs : s.state ≠ .init) {w w' : World σ} (hw : w'.arg = w.arg) (i z) :
    OutRel i z (processOnce E s w) (processOnce E (s.withInit i z) w') := by
  unfold processOnce
  simp only [withInit_state]
  refine ite_rel ?_ ?_
  · exact ⟨rfl, rfl, hw, hs⟩
  · have := switch_rel E s hs hw i z
    cases h1 : processSwitch E s w with
    | error u =>
      cases h2 : processSwitch E (s.withInit i z) w' with
      | error u' => rw [h1, h2] at this; exact this
      | ok v => rw [h1, h2] at this; exact this.elim
    | ok v =>
      cases h2 : processSwitch E (s.withInit i z) w' with
      | error u' => rw [h1, h2] at this; exact this.elim
      | ok v' =>
        rw [h1, h2] at this
        obtain ⟨r, s1, w1⟩ := v
        obtain ⟨r', s1', w1'⟩ := v'
        obtain ⟨rfl, rfl, h3, h4⟩ := this
        simp only [Bind.bind, Except.bind]
        refine ite_rel ?_ ?_
        · exact ⟨rfl, rfl, h3, (fun h => by cases h)⟩
        · exact ⟨rfl, rfl, h3, h4⟩

theorem processLoop_rel (E : SeqEnv σ) (i z) : ∀ (fuel : Nat) (res : Int) (s : ApplyPatch) (_ : s.state ≠ .init) {w w' : World σ} (_ : w'.arg = w.arg),
    OutRel i z (processLoop E fuel res s w) (processLoop E fuel res (s.withInit i z) w')
  | 0, _, _, _, _, _, _ => rfl
  | fuel + 1, res, s, hs, w, w', hw => by
    unfold processLoop
    simp only [withInit_chunk]
    refine ite_rel ?_ ?_
    · have := once_rel E s hs hw i z
      cases h1 : processOnce E s w with
      | error u =>
        cases h2 : processOnce E (s.withInit i z) w' with
        | error u' => rw [h1, h2] at this; exact this
        | ok v => rw [h1, h2] at this; exact this.elim
      | ok v =>
        cases h2 : processOnce E (s.withInit i z) w' with
        | error u' => rw [h1, h2] at this; exact this.elim
        | ok v' =>
          rw [h1, h2] at this
          obtain ⟨r, s1, w1⟩ := v
          obtain ⟨r', s1', w1'⟩ := v'
          obtain ⟨rfl, rfl, h3, h4⟩ := this
          exact processLoop_rel E i z fuel _ s1 h4 h3
    · exact ⟨rfl, rfl, hw, hs⟩

theorem finalizeLoop_rel (E : SeqEnv σ) (i z) : ∀ (fuel : Nat) (s : ApplyPatch) (_ : s.state ≠ .init) {w w' : World σ} (_ : w'.arg = w.arg),
    OutRel i z (finalizeLoop E fuel s w) (finalizeLoop E fuel (s.withInit i z) w')
  | 0, _, _, _, _, _ => rfl
  | fuel + 1, s, hs, w, w', hw => by
    unfold finalizeLoop
    have := once_rel E s hs hw i z
    cases h1 : processOnce E s w with
    | error u =>
      cases h2 : processOnce E (s.withInit i z) w' with
      | error u' => rw [h1, h2] at this; exact this
      | ok v => rw [h1, h2] at this; exact this.elim
    | ok v =>
      cases h2 : processOnce E (s.withInit i z) w' with
      | error u' => rw [h1, h2] at this; exact this.elim
      | ok v' =>
        rw [h1, h2] at this
        obtain ⟨r, s1, w1⟩ := v
        obtain ⟨r', s1', w1'⟩ := v'
        obtain ⟨rfl, rfl, h3, h4⟩ := this
        simp only [Bind.bind, Except.bind]
        refine ite_rel ?_ ?_
        · exact finalizeLoop_rel E i z fuel s1 h4 h3
        · exact ⟨rfl, rfl, h3, h4⟩

theorem fuel_withInit (s : ApplyPatch) (i z) : (s.withInit i z).fuel = s.fuel := by
  unfold ApplyPatch.fuel
  rfl

/-! Heatshrink readers that have not read their header. -/

theorem dec_hsNone {r : CReader} (hr : r ≠ .heatshrink none) {c : Chunk} {cap size : Nat} {d r' c'}
    (h : r.decompress c cap size = .ok (d, r', c')) : r' ≠ .heatshrink none := by
  unfold CReader.decompress at h
  cases r with
  | raw a b =>
    simp only [noneDecompress, Bind.bind, Except.bind] at h
    split at h
    · cases h; exact (fun h => by cases h)
    · split at h
      · cases h
      · split at h
        · cases h; exact (fun h => by cases h)
        · cases h; exact (fun h => by cases h)
  | lzma t =>
    simp only [Bind.bind, Except.bind] at h
    split at h
    · cases h
    · split at h
      · cases h
      · cases h; exact (fun h => by cases h)
  | crle t =>
    simp only [Bind.bind, Except.bind] at h
    split at h
    · cases h
    · cases h; exact (fun h => by cases h)
  | heatshrink t =>
    cases t with
    | none => exact absurd rfl hr
    | some t =>
      simp only [hsDecompress, Bind.bind, Except.bind] at h
      split at h
      · cases h
      · rename_i v e
        split at e
        · cases e
        · split at e
          · cases e
          · cases e; cases h; exact (fun h => by cases h)

theorem unpackSizeC_hsNone : ∀ (fuel : Nat) {r : CReader} (_ : r ≠ .heatshrink none) {c : Chunk} {a : SizeAcc} {v r' c' a'},
    unpackSizeC fuel r c a = .ok (v, r', c', a') → r' ≠ .heatshrink none
  | 0, _, _, _, _, _, _, _, _, h => by cases h
  | fuel + 1, r, hr, c, a, v, r', c', a', h => by
    unfold unpackSizeC at h
    cases hd : r.decompress c 1 1 with
    | error u => rw [hd] at h; cases h
    | ok o =>
      obtain ⟨d, r1, c1⟩ := o
      have h1 := dec_hsNone hr hd
      rw [hd] at h
      simp only [Bind.bind, Except.bind] at h
      match d, h with
      | .more, h => cases h; exact h1
      | .fail e, h => cases h; exact h1
      | .ok [], h => cases h
      | .ok (b :: _), h =>
        simp only at h
        cases hb : sizeByte a b with
        | error u => rw [hb] at h; cases h
        | ok o =>
          obtain ⟨a1, o⟩ := o
          rw [hb] at h
          cases o with
          | none => exact unpackSizeC_hsNone fuel h1 h
          | some v => cases h; exact h1

theorem unpack_hsNone {s : ApplyPatch} (hr : s.reader ≠ some (.heatshrink none)) {v s'} (h : s.unpackSize = .ok (v, s')) :
    s'.reader ≠ some (.heatshrink none) := by
  unfold ApplyPatch.unpackSize at h
  cases he : s.reader with
  | none => rw [he] at h; cases h
  | some r =>
    rw [he] at h hr
    simp only [Bind.bind, Except.bind] at h
    cases hu : patchReaderUnpackSize r s.chunk s.readerSize with
    | error u => rw [hu] at h; cases h
    | ok o =>
      obtain ⟨v1, r1, c1, a1⟩ := o
      rw [hu] at h
      cases h
      have := unpackSizeC_hsNone 6 (fun h => hr (by rw [h])) hu
      intro h
      cases h
      exact this rfl

theorem once_hsNone (E : SeqEnv σ) {s : ApplyPatch} {w : World σ} (hs : s.state ≠ .init) (hr : s.reader ≠ some (.heatshrink none)) {res s' w'}
    (he : processOnce E s w = .ok (res, s', w')) : s'.reader ≠ some (.heatshrink none) := by
  unfold processOnce at he
  split at he
  · cases he; exact hr
  · cases hsw : processSwitch E s w with
    | error u => rw [hsw] at he; cases he
    | ok v =>
      obtain ⟨r1, s1, w1⟩ := v
      have key : s1.reader ≠ some (.heatshrink none) := by
        have hsize : ∀ next, processSize s w next = .ok (r1, s1, w1) → s1.reader ≠ some (.heatshrink none) := by
          intro next hp
          simp only [processSize, Bind.bind, Except.bind] at hp
          split at hp
          · cases hp
          · rename_i e
            split at hp
            · have := unpack_hsNone hr e; cases hp; exact this
            · have := unpack_hsNone hr e; cases hp; exact this
            · split at hp
              · have := unpack_hsNone hr e; cases hp; exact this
              · have := unpack_hsNone hr e; cases hp; exact this
        have hdata : ∀ next diff, processData E s w next diff = .ok (r1, s1, w1) → s1.reader ≠ some (.heatshrink none) := by
          intro next diff hp
          unfold processData at hp
          by_cases hz : min dataCap s.chunkSize = 0
          · simp only [hz, if_true] at hp
            cases hp; exact hr
          · simp only [hz, if_false] at hp
            cases hr1 : s.reader with
            | none => rw [hr1] at hp; cases hp
            | some r =>
              rw [hr1] at hp hr
              simp only [Bind.bind, Except.bind] at hp
              cases hdd : r.decompress s.chunk dataCap (min dataCap s.chunkSize) with
              | error u => rw [hdd] at hp; cases hp
              | ok v =>
                obtain ⟨d, r', c'⟩ := v
                have h1 : some r' ≠ some (.heatshrink none) := by
                  intro h; cases h
                  exact dec_hsNone (fun h => hr (by rw [h])) hdd rfl
                have hwr : ∀ {s0 : ApplyPatch} {w0 : World σ} {to}, s0.reader = some r' → processWrite E s0 w0 to = .ok (r1, s1, w1) →
                    s1.reader ≠ some (.heatshrink none) := by
                  intro s0 w0 to h0 hw
                  unfold processWrite at hw
                  simp only at hw
                  split at hw
                  · cases hw; simp only [h0]; exact h1
                  · cases hw; simp only [h0]; exact h1
                rw [hdd] at hp
                match d, hp with
                | .more, hp => cases hp; exact h1
                | .fail e, hp => cases hp; exact h1
                | .ok to, hp =>
                  cases diff with
                  | false => exact hwr (s0 := { s with reader := some r', chunk := c' }) rfl hp
                  | true =>
                    simp only [if_true] at hp
                    split at hp
                    · cases hp; exact h1
                    · split at hp
                      · cases hp
                      · exact hwr (s0 := { s with reader := some r', chunk := c', fromOffset := _ }) rfl hp
        unfold processSwitch at hsw
        cases h : s.state with
        | init => exact absurd h hs
        | dfpatchSize =>
          rw [h] at hsw
          simp only [processDfpatchSize, Bind.bind, Except.bind] at hsw
          split at hsw
          · cases hsw
          · rename_i e
            split at hsw
            · have := unpack_hsNone hr e; cases hsw; exact this
            · have := unpack_hsNone hr e; cases hsw; exact this
            · split at hsw
              · have := unpack_hsNone hr e; cases hsw; exact this
              · have := unpack_hsNone hr e; cases hsw; exact this
        | diffSize => rw [h] at hsw; exact hsize _ hsw
        | extraSize => rw [h] at hsw; exact hsize _ hsw
        | diffData => rw [h] at hsw; exact hdata _ _ hsw
        | extraData => rw [h] at hsw; exact hdata _ _ hsw
        | adjustment =>
          rw [h] at hsw
          simp only [processAdjustment, Bind.bind, Except.bind] at hsw
          split at hsw
          · cases hsw
          · rename_i e
            split at hsw
            · have := unpack_hsNone hr e; cases hsw; exact this
            · have := unpack_hsNone hr e; cases hsw; exact this
            · split at hsw
              · have := unpack_hsNone hr e; cases hsw; exact this
              · split at hsw
                · cases hsw
                · split at hsw
                  · have := unpack_hsNone hr e; cases hsw; exact this
                  · have := unpack_hsNone hr e; cases hsw; exact this
        | done => rw [h] at hsw; cases hsw; exact hr
        | failed => rw [h] at hsw; cases hsw; exact hr
      rw [hsw] at he
      simp only [Bind.bind, Except.bind] at he
      split at he
      · cases he; exact key
      · cases he; exact key

theorem once_notInit (E : SeqEnv σ) {s : ApplyPatch} {w : World σ} (hs : s.state ≠ .init) {res s' w'}
    (he : processOnce E s w = .ok (res, s', w')) : s'.state ≠ .init := by
  have := once_rel E s hs (w := w) (w' := w) rfl s.initState s.size
  have e : s.withInit s.initState s.size = s := rfl
  rw [e, he] at this
  exact this.2.2.2

theorem init_quiet {s : ApplyPatch} {w : World σ} {res s' w'} (he : processInit s w = .ok (res, s', w')) : w' = w := by
  unfold processInit at he
  cases hi : s.initState with
  | fixedHeader =>
    simp only [hi, processInitFixedHeader, Bind.bind, Except.bind] at he
    split at he
    · cases he
    · split at he
      · cases he; rfl
      · split at he <;> (cases he; rfl)
  | toSize =>
    simp only [hi, processInitToSize, Bind.bind, Except.bind] at he
    split at he
    · cases he
    · split at he
      · cases he; rfl
      · cases he; rfl
      · split at he
        · cases he; rfl
        · split at he
          · cases he; rfl
          · split at he <;> (cases he; rfl)

/-- No callback is made while the header is read. -/
theorem once_quiet (E : SeqEnv σ) {s : ApplyPatch} {w : World σ} (h : s.state = .init → w.trace = []) {res s' w'}
    (he : processOnce E s w = .ok (res, s', w')) : s'.state = .init → w'.trace = [] := by
  intro hs'
  by_cases hs : s.state = .init
  · have hd : s.state ≠ .done := by rw [hs]; decide
    unfold processOnce at he
    rw [if_neg hd] at he
    unfold processSwitch at he
    rw [hs] at he
    cases hi : processInit s w with
    | error u => simp only [hi] at he; cases he
    | ok v =>
      obtain ⟨r1, s1, w1⟩ := v
      have hw := init_quiet hi
      simp only [hi, Bind.bind, Except.bind] at he
      split at he
      · cases he; rw [hw]; exact h hs
      · cases he; rw [hw]; exact h hs
  · exact absurd hs' (once_notInit E hs he)

theorem finalizeLoop_hsNone (E : SeqEnv σ) : ∀ (fuel : Nat) {s : ApplyPatch} {w : World σ}, s.state ≠ .init → s.reader ≠ some (.heatshrink none) →
    ∀ {out}, finalizeLoop E fuel s w = .ok out → out.2.1.reader ≠ some (.heatshrink none)
  | 0, _, _, _, _, _, h => by cases h
  | fuel + 1, s, w, hs, hr, out, h => by
    unfold finalizeLoop at h
    cases ho : processOnce E s w with
    | error u => rw [ho] at h; cases h
    | ok o =>
      obtain ⟨r1, s1, w1⟩ := o
      rw [ho] at h
      simp only [Bind.bind, Except.bind] at h
      split at h
      · exact finalizeLoop_hsNone E fuel (once_notInit E hs ho) (once_hsNone E hs hr ho) h
      · cases h; exact once_hsNone E hs hr ho

theorem processLoop_hsNone (E : SeqEnv σ) : ∀ (fuel : Nat) (res : Int) {s : ApplyPatch} {w : World σ}, s.state ≠ .init → s.reader ≠ some (.heatshrink none) →
    ∀ {out}, processLoop E fuel res s w = .ok out → out.2.1.reader ≠ some (.heatshrink none)
  | 0, _, _, _, _, _, _, h => by cases h
  | fuel + 1, res, s, w, hs, hr, out, h => by
    unfold processLoop at h
    split at h
    · cases ho : processOnce E s w with
      | error u => rw [ho] at h; cases h
      | ok o =>
        obtain ⟨r1, s1, w1⟩ := o
        rw [ho] at h
        exact processLoop_hsNone E fuel r1 (once_notInit E hs ho) (once_hsNone E hs hr ho) h
    · cases h; exact hr

/-! Calls on the original and on the restored object. -/

/-- The restored object `s2` continues like `s`: the chunk is set by every call. -/
def Restored (s s2 : ApplyPatch) : Prop := ∃ i z c, s2 = { s.withInit i z with chunk := c }

theorem process_rel (E : SeqEnv σ) {s s2 : ApplyPatch} (hR : Restored s s2) (hs : s.state ≠ .init) {w w' : World σ} (hw : w'.arg = w.arg) (p : Bytes) :
    ∃ i z, OutRel i z (applyPatchProcess E s w p) (applyPatchProcess E s2 w' p) := by
  obtain ⟨i, z, c, rfl⟩ := hR
  refine ⟨i, z, ?_⟩
  unfold applyPatchProcess
  have e1 : ({ { s.withInit i z with chunk := c } with
      patchOffset := sz ({ s.withInit i z with chunk := c }.patchOffset + p.length), chunk := { buf := p, offset := 0 } } : ApplyPatch) =
      ({ s with patchOffset := sz (s.patchOffset + p.length), chunk := { buf := p, offset := 0 } } : ApplyPatch).withInit i z := rfl
  rw [e1]
  have hs1 : ({ s with patchOffset := sz (s.patchOffset + p.length), chunk := { buf := p, offset := 0 } } : ApplyPatch).state ≠ .init := hs
  generalize ({ s with patchOffset := sz (s.patchOffset + p.length), chunk := { buf := p, offset := 0 } } : ApplyPatch) = s1 at *
  simp only [fuel_withInit]
  have := processLoop_rel E i z s1.fuel 0 s1 hs1 hw
  generalize s1.fuel = n at *
  cases h1 : processLoop E n 0 s1 w with
  | error u =>
    cases h2 : processLoop E n 0 (s1.withInit i z) w' with
    | error u' => rw [h1, h2] at this; exact this
    | ok v => rw [h1, h2] at this; exact this.elim
  | ok v =>
    cases h2 : processLoop E n 0 (s1.withInit i z) w' with
    | error u' => rw [h1, h2] at this; exact this.elim
    | ok v' =>
      rw [h1, h2] at this
      obtain ⟨r, s3, w3⟩ := v
      obtain ⟨r', s3', w3'⟩ := v'
      obtain ⟨rfl, rfl, h3, h4⟩ := this
      simp only [Bind.bind, Except.bind]
      refine ite_rel ?_ ?_
      · exact ⟨rfl, rfl, h3, h4⟩
      · exact ⟨rfl, rfl, h3, h4⟩

theorem finalize_rel (E : SeqEnv σ) {s s2 : ApplyPatch} (hR : Restored s s2) (hs : s.state ≠ .init) {w w' : World σ} (hw : w'.arg = w.arg) :
    (∃ i z, OutRel i z (applyPatchFinalize E s w) (applyPatchFinalizeRestored E s2 w')) ∨
      s.reader = some (.heatshrink none) ∧ applyPatchFinalizeRestored E s2 w' = .error .uninit := by
  obtain ⟨i, z, c, rfl⟩ := hR
  unfold applyPatchFinalize applyPatchFinalizeRestored
  have e1 : ({ { s.withInit i z with chunk := c } with chunk := { buf := [], offset := 0 } } : ApplyPatch) =
      ({ s with chunk := { buf := [], offset := 0 } } : ApplyPatch).withInit i z := rfl
  rw [e1]
  have hs1 : ({ s with chunk := { buf := [], offset := 0 } } : ApplyPatch).state ≠ .init := hs
  have hr1 : ({ s with chunk := { buf := [], offset := 0 } } : ApplyPatch).reader = s.reader := rfl
  generalize ({ s with chunk := { buf := [], offset := 0 } } : ApplyPatch) = s1 at *
  simp only [fuel_withInit]
  have := finalizeLoop_rel E i z s1.fuel s1 hs1 hw
  generalize s1.fuel = n at *
  cases h1 : finalizeLoop E n s1 w with
  | error u =>
    cases h2 : finalizeLoop E n (s1.withInit i z) w' with
    | error u' => rw [h1, h2] at this; exact .inl ⟨i, z, this⟩
    | ok v => rw [h1, h2] at this; exact this.elim
  | ok v =>
    cases h2 : finalizeLoop E n (s1.withInit i z) w' with
    | error u' => rw [h1, h2] at this; exact this.elim
    | ok v' =>
      rw [h1, h2] at this
      obtain ⟨r, s3, w3⟩ := v
      obtain ⟨r', s3', w3'⟩ := v'
      obtain ⟨rfl, rfl, h3, h4⟩ := this
      simp only [Bind.bind, Except.bind, withInit_reader, withInit_toSize]
      by_cases hh : s3.reader = some (.heatshrink none)
      · right
        refine ⟨?_, if_pos hh⟩
        by_cases h0 : s.reader = some (.heatshrink none)
        · exact h0
        · exact absurd hh (finalizeLoop_hsNone E n hs1 (by rw [hr1]; exact h0) h1)
      · left
        refine ⟨i, z, ?_⟩
        have e : ∀ {a b : C (SeqRes σ)}, (if (s3.withInit i z).reader = some (.heatshrink none) then a else b) = b := fun {a b} => if_neg hh
        show OutRel i z _ (if (s3.withInit i z).reader = some (.heatshrink none) then _ else _)
        rw [e]
        exact ⟨rfl, rfl, h3, h4⟩

theorem process_hsNone (E : SeqEnv σ) {s : ApplyPatch} {w : World σ} (hs : s.state ≠ .init) (hr : s.reader ≠ some (.heatshrink none)) {p res s' w'}
    (he : applyPatchProcess E s w p = .ok (res, s', w')) : s'.reader ≠ some (.heatshrink none) := by
  unfold applyPatchProcess at he
  have hs1 : ({ s with patchOffset := sz (s.patchOffset + p.length), chunk := { buf := p, offset := 0 } } : ApplyPatch).state ≠ .init := hs
  have hr1 : ({ s with patchOffset := sz (s.patchOffset + p.length), chunk := { buf := p, offset := 0 } } : ApplyPatch).reader ≠ some (.heatshrink none) := hr
  simp only at he
  generalize ({ s with patchOffset := sz (s.patchOffset + p.length), chunk := { buf := p, offset := 0 } } : ApplyPatch) = s1 at *
  generalize s1.fuel = n at *
  cases h1 : processLoop E n 0 s1 w with
  | error u => rw [h1] at he; cases he
  | ok v =>
    have := processLoop_hsNone E n 0 hs1 hr1 h1
    rw [h1] at he
    simp only [Bind.bind, Except.bind] at he
    split at he
    · cases he; exact this
    · cases he; exact this

theorem finalize_hsNone (E : SeqEnv σ) {s : ApplyPatch} {w : World σ} (hs : s.state ≠ .init) (hr : s.reader ≠ some (.heatshrink none)) {res s' w'}
    (he : applyPatchFinalize E s w = .ok (res, s', w')) : s'.reader ≠ some (.heatshrink none) := by
  unfold applyPatchFinalize at he
  have hs1 : ({ s with chunk := { buf := [], offset := 0 } } : ApplyPatch).state ≠ .init := hs
  have hr1 : ({ s with chunk := { buf := [], offset := 0 } } : ApplyPatch).reader ≠ some (.heatshrink none) := hr
  simp only at he
  generalize ({ s with chunk := { buf := [], offset := 0 } } : ApplyPatch) = s1 at *
  generalize s1.fuel = n at *
  cases h1 : finalizeLoop E n s1 w with
  | error u => rw [h1] at he; cases he
  | ok v =>
    have := finalizeLoop_hsNone E n hs1 hr1 h1
    rw [h1] at he
    cases he
    exact this

/-- Outcomes of the original and the restored object. -/
def RunRel : C (List Int × ApplyPatch × World σ) → C (List Int × ApplyPatch × World σ) → Prop
  | .error u, .error u' => u = u'
  | .ok (rs, s, w), .ok (rs', s', w') => rs' = rs ∧ w'.arg = w.arg ∧ Restored s s' ∧ s.state ≠ .init
  | _, _ => False

omit [Build] in
theorem RunRel.same {a b : C (List Int × ApplyPatch × World σ)} (h : RunRel a b) : SameOutcome a b := by
  cases a <;> cases b
  · exact h
  · exact h
  · exact h
  · exact ⟨h.1, h.2.1⟩

theorem runCalls_rel (E : SeqEnv σ) : ∀ (later : List Call) {s s2 : ApplyPatch} (_ : Restored s s2) (_ : s.state ≠ .init) {w w' : World σ} (_ : w'.arg = w.arg),
    RunRel (runCalls E s w later) (runCallsRestored E s2 w' later) ∨
      s.reader = some (.heatshrink none) ∧ runCallsRestored E s2 w' later = .error .uninit
  | [], _, _, hR, hs, _, _, hw => .inl ⟨rfl, hw, hR, hs⟩
  | .process p :: cs, s, s2, hR, hs, w, w', hw => by
    obtain ⟨i, z, h⟩ := process_rel E hR hs hw p
    unfold runCalls runCallsRestored
    cases h1 : applyPatchProcess E s w p with
    | error u =>
      cases h2 : applyPatchProcess E s2 w' p with
      | error u' => rw [h1, h2] at h; exact .inl h
      | ok v => rw [h1, h2] at h; exact h.elim
    | ok v =>
      cases h2 : applyPatchProcess E s2 w' p with
      | error u' => rw [h1, h2] at h; exact h.elim
      | ok v' =>
        rw [h1, h2] at h
        obtain ⟨r, s3, w3⟩ := v
        obtain ⟨r', s3', w3'⟩ := v'
        obtain ⟨rfl, rfl, h3, h4⟩ := h
        simp only [Bind.bind, Except.bind]
        rcases runCalls_rel E cs (s := s3) (s2 := s3.withInit i z) ⟨i, z, s3.chunk, rfl⟩ h4 h3 with g | ⟨g1, g2⟩
        · left
          cases k1 : runCalls E s3 w3 cs with
          | error u =>
            cases k2 : runCallsRestored E (s3.withInit i z) w3' cs with
            | error u' => rw [k1, k2] at g; exact g
            | ok v => rw [k1, k2] at g; exact g.elim
          | ok v =>
            cases k2 : runCallsRestored E (s3.withInit i z) w3' cs with
            | error u' => rw [k1, k2] at g; exact g.elim
            | ok v' =>
              rw [k1, k2] at g
              exact ⟨by rw [g.1], g.2⟩
        · right
          refine ⟨?_, by rw [g2]⟩
          by_cases h0 : s.reader = some (.heatshrink none)
          · exact h0
          · exact absurd g1 (process_hsNone E hs h0 h1)
  | .finalize :: cs, s, s2, hR, hs, w, w', hw => by
    unfold runCalls runCallsRestored
    rcases finalize_rel E hR hs hw with ⟨i, z, h⟩ | ⟨g1, g2⟩
    · cases h1 : applyPatchFinalize E s w with
      | error u =>
        cases h2 : applyPatchFinalizeRestored E s2 w' with
        | error u' => rw [h1, h2] at h; exact .inl h
        | ok v => rw [h1, h2] at h; exact h.elim
      | ok v =>
        cases h2 : applyPatchFinalizeRestored E s2 w' with
        | error u' => rw [h1, h2] at h; exact h.elim
        | ok v' =>
          rw [h1, h2] at h
          obtain ⟨r, s3, w3⟩ := v
          obtain ⟨r', s3', w3'⟩ := v'
          obtain ⟨rfl, rfl, h3, h4⟩ := h
          simp only [Bind.bind, Except.bind]
          rcases runCalls_rel E cs (s := s3) (s2 := s3.withInit i z) ⟨i, z, s3.chunk, rfl⟩ h4 h3 with g | ⟨g1, g2⟩
          · left
            cases k1 : runCalls E s3 w3 cs with
            | error u =>
              cases k2 : runCallsRestored E (s3.withInit i z) w3' cs with
              | error u' => rw [k1, k2] at g; exact g
              | ok v => rw [k1, k2] at g; exact g.elim
            | ok v =>
              cases k2 : runCallsRestored E (s3.withInit i z) w3' cs with
              | error u' => rw [k1, k2] at g; exact g.elim
              | ok v' =>
                rw [k1, k2] at g
                exact ⟨by rw [g.1], g.2⟩
          · right
            refine ⟨?_, by rw [g2]⟩
            by_cases h0 : s.reader = some (.heatshrink none)
            · exact h0
            · exact absurd g1 (finalize_hsNone E hs h0 h1)
    · right
      exact ⟨g1, by rw [g2]; rfl⟩

theorem runCalls_append (E : SeqEnv σ) : ∀ (a b : List Call) {s : ApplyPatch} {w : World σ} {rs s' w'},
    runCalls E s w (a ++ b) = .ok (rs, s', w') →
    ∃ rs1 s1 w1 rs2, runCalls E s w a = .ok (rs1, s1, w1) ∧ runCalls E s1 w1 b = .ok (rs2, s', w') ∧ rs = rs1 ++ rs2
  | [], b, s, w, rs, s', w', h => ⟨[], s, w, rs, rfl, h, rfl⟩
  | .process p :: a, b, s, w, rs, s', w', h => by
    rw [List.cons_append] at h
    unfold runCalls at h
    cases h1 : applyPatchProcess E s w p with
    | error u => rw [h1] at h; cases h
    | ok v =>
      obtain ⟨r, s1, w1⟩ := v
      rw [h1] at h
      simp only [Bind.bind, Except.bind] at h
      cases h2 : runCalls E s1 w1 (a ++ b) with
      | error u => rw [h2] at h; cases h
      | ok v =>
        obtain ⟨rs0, s0, w0⟩ := v
        rw [h2] at h
        cases h
        obtain ⟨rs1, s2, w2, rs2, g1, g2, g3⟩ := runCalls_append E a b h2
        exact ⟨r :: rs1, s2, w2, rs2, by rw [runCalls_process E h1, g1]; rfl, g2, by rw [g3]; rfl⟩
  | .finalize :: a, b, s, w, rs, s', w', h => by
    rw [List.cons_append] at h
    unfold runCalls at h
    cases h1 : applyPatchFinalize E s w with
    | error u => rw [h1] at h; cases h
    | ok v =>
      obtain ⟨r, s1, w1⟩ := v
      rw [h1] at h
      simp only [Bind.bind, Except.bind] at h
      cases h2 : runCalls E s1 w1 (a ++ b) with
      | error u => rw [h2] at h; cases h
      | ok v =>
        obtain ⟨rs0, s0, w0⟩ := v
        rw [h2] at h
        cases h
        obtain ⟨rs1, s2, w2, rs2, g1, g2, g3⟩ := runCalls_append E a b h2
        exact ⟨r :: rs1, s2, w2, rs2, by rw [runCalls_finalize E h1, g1]; rfl, g2, by rw [g3]; rfl⟩

theorem runCalls_failed (E : SeqEnv σ) (calls : List Call) {s : ApplyPatch} {w : World σ} {rs s' w'} (hs : s.state = .failed)
    (h : runCalls E s w calls = .ok (rs, s', w')) : s'.state = .failed :=
  runCalls_induct E (fun s _ => s.state = .failed) (fun h he => by rw [failed_once E h] at he; cases he; exact h)
    (fun _ _ h => h) calls hs h

omit [Build] in
/-- What a restore of `t`, itself restored from `s`, gives. -/
theorem restore_again (fr : Bytes) (other : Nat) {s t : ApplyPatch} (hR : Restored s t) {w v : World Files} (hv : v.arg = w.arg) (hd : DInv s w)
    (hs : s.state ≠ .init) (hf : s.state ≠ .failed) (hz : s.compression ≠ 1) :
    applyPatchDump t = (0, t) ∧ ∃ t2 v2, applyPatchRestore (fileEnv fr) (applyPatchInit other) { arg := { pos := 0, out := v.arg.out } } t = (0, t2, v2) ∧
      Restored s t2 ∧ v2.arg = w.arg := by
  obtain ⟨i, z, c, rfl⟩ := hR
  have hc := (hd.comp hs hf).resolve_left hz
  obtain ⟨p1, p2, p3⟩ := hd.pos hf
  have hs' : ({ s.withInit i z with chunk := c } : ApplyPatch).state ≠ .init := hs
  have hc' : ({ s.withInit i z with chunk := c } : ApplyPatch).compression = 0 ∨ ({ s.withInit i z with chunk := c } : ApplyPatch).compression = 2 ∨
    ({ s.withInit i z with chunk := c } : ApplyPatch).compression = 4 := hc
  refine ⟨by simp only [applyPatchDump, if_neg hs', if_pos hc'], ?_⟩
  have hseek : (fileEnv fr).fromSeek { pos := 0, out := v.arg.out } s.fromOffset = (0, { pos := 0 + s.fromOffset, out := v.arg.out }) := by
    refine if_neg ?_
    show ¬ (0 + s.fromOffset < 0)
    omega
  refine ⟨{ s with initState := .fixedHeader, size := {}, chunk := {} }, ⟨⟨0 + s.fromOffset, v.arg.out⟩, [.seek s.fromOffset 0]⟩, ?_, ⟨.fixedHeader, {}, {}, rfl⟩, ?_⟩
  · unfold applyPatchRestore
    simp only [withInit_state, withInit_patchSize, withInit_compression, withInit_patchOffset, withInit_toOffset, withInit_toSize, withInit_fromOffset,
      withInit_chunkSize, withInit_reader, withInit_readerSize]
    simp only [if_neg hs, hseek, ne_eq, not_true, if_false, if_pos hc]
    rfl
  · show ({ pos := 0 + s.fromOffset, out := v.arg.out } : Files) = w.arg
    rw [p1, Int.zero_add, hv]

theorem runCycles_rel (fr : Bytes) (hfr : fr.length < 2 ^ 31) (other : Nat) : ∀ (segs : List (List Call)) {s t : ApplyPatch} {w v : World Files} {rs s' w'},
    Restored s t → v.arg = w.arg → DInv s w → s.state ≠ .init → s.compression ≠ 1 → s.reader ≠ some (.heatshrink none) →
    runCalls (fileEnv fr) s w segs.flatten = .ok (rs, s', w') → s'.state ≠ .failed →
    ∃ t' v', runCycles fr other t v segs = .ok (rs, t', v') ∧ v'.arg = w'.arg
  | [], s, t, w, v, rs, s', w', hR, hv, hd, hs, hz, hr, h, hf => by
    rw [List.flatten_nil, runCalls_nil] at h
    cases h
    exact ⟨t, v, rfl, hv⟩
  | seg :: segs, s, t, w, v, rs, s', w', hR, hv, hd, hs, hz, hr, h, hf => by
    have hsf : s.state ≠ .failed := fun h0 => hf (runCalls_failed _ _ h0 h)
    rw [List.flatten_cons] at h
    obtain ⟨rs1, s1, w1, rs2, g1, g2, g3⟩ := runCalls_append _ _ _ h
    obtain ⟨d1, t2, v2, d2, d3, d4⟩ := restore_again fr other hR hv hd hs hsf hz
    rcases runCalls_rel (fileEnv fr) seg d3 hs d4 with k | ⟨k, _⟩
    · rw [g1] at k
      cases h2 : runCallsRestored (fileEnv fr) t2 v2 seg with
      | error u => rw [h2] at k; exact k.elim
      | ok o =>
        obtain ⟨rs1', t3, v3⟩ := o
        rw [h2] at k
        obtain ⟨k1, k2, k3, k4⟩ := k
        have hd1 : DInv s1 w1 := runCalls_induct (fileEnv fr) DInv (fun h he => once_dump fr _ rfl hfr h he)
          (fun _ _ h => h.quiet rfl rfl rfl rfl rfl) seg hd g1
        have hr1 : s1.state ≠ .init ∧ s1.reader ≠ some (.heatshrink none) ∧ s1.compression ≠ 1 :=
          runCalls_induct (fileEnv fr) (fun s _ => s.state ≠ .init ∧ s.reader ≠ some (.heatshrink none) ∧ s.compression ≠ 1)
            (fun h he => ⟨once_notInit _ h.1 he, once_hsNone _ h.1 h.2.1 he, by rw [once_comp _ h.1 he]; exact h.2.2⟩) (fun _ _ h => h) seg ⟨hs, hr, hz⟩ g1
        obtain ⟨t', v', e1, e2⟩ := runCycles_rel fr hfr other segs k3 k2 hd1 k4 hr1.2.2 hr1.2.1 g2 hf
        refine ⟨t', v', ?_, e2⟩
        unfold runCycles
        simp only [d1, d2, ne_eq, not_true, if_false, h2, e1, Bind.bind, Except.bind]
        rw [k1, g3]
    · exact absurd k hr

/-- The patch offset counts what was fed. -/
theorem runCalls_fed (E : SeqEnv σ) (patchSize : Nat) (arg : σ) (calls : List Call) {rs s w}
    (hrun : runCalls E (applyPatchInit patchSize) { arg := arg } calls = .ok (rs, s, w)) :
    s.patchOffset = sz (fedBytes calls).length := by
  have := runCalls_inductF E (fun f s _ => SInv s ∧ s.patchOffset = sz f.length) ?_ ?_ ?_ calls (f := [])
    ⟨SInv.start patchSize, rfl⟩ hrun
  · simpa using this.2
  · rintro f s w res s' w' ⟨h1, h2⟩ he
    rcases once_ok E h1 w with (e | e) | ⟨out, e, ho⟩
    · rw [e] at he; cases he
    · rw [e] at he; cases he
    · rw [e] at he
      cases he
      cases ho with
      | ok _ _ _ g => exact ⟨g.inv, g.poff.trans h2⟩
      | more _ _ g => exact ⟨g.inv, g.poff.trans h2⟩
      | done => exact ⟨h1, h2⟩
      | already => exact ⟨h1, h2⟩
      | fail _ _ g => exact ⟨g.inv, g.poff.trans h2⟩
      | io _ _ _ _ g => exact ⟨g.inv, g.poff.trans h2⟩
  · rintro f s w p ⟨h1, h2⟩
    refine ⟨h1.setChunk, ?_⟩
    show sz (s.patchOffset + p.length) = _
    rw [h2, List.length_append]
    unfold sz; omega
  · rintro f s w ⟨h1, h2⟩
    exact ⟨h1.setChunk (po := s.patchOffset), h2⟩

/-- The compression is in the first byte fed. -/
theorem runCalls_comp (E : SeqEnv σ) (patchSize : Nat) (arg : σ) (calls : List Call) {rs s w}
    (hrun : runCalls E (applyPatchInit patchSize) { arg := arg } calls = .ok (rs, s, w))
    (h1 : s.state ≠ .init) (h2 : s.state ≠ .failed) :
    ∃ b t, fedBytes calls = b :: t ∧ s.compression = b.toNat &&& 0xf := by
  rcases runCalls_ok E calls (HS.start patchSize) ⟨rfl, fun _ h => by cases h⟩ (w := { arg := arg }) with (e | e) | ⟨_, _, _, e, hs, _⟩
  · rw [e] at hrun; cases hrun
  · rw [e] at hrun; cases hrun
  · rw [e] at hrun
    cases hrun
    obtain ⟨b, t, _, _, hc, hf, _⟩ := (HT.body h1 h2).1 hs.ht
    exact ⟨b, t, hf, hc⟩

end Detools
