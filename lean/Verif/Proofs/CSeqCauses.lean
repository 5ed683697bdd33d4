import Verif.Proofs.CBound
import Verif.Spec.CCauses
/-
Where the undefined behaviour of the sequential C API comes from.
-/
namespace Detools

variable [Build]

/-! Empty CRLE segments. -/

/-- From this state on the reader meets an empty segment in `inp`. -/
def CCrle.hits : CCrle → Bytes → Prop
  | .idle, inp => CrleEmpty 0 inp
  | .scatteredSize u, inp => ∃ v rest, crleUnpackSize u.start.value u.start.offset inp = some (v, rest) ∧ (v = 0 ∨ CrleEmpty v rest)
  | .scatteredData k, inp => k = 0 ∨ CrleEmpty k inp
  | .repeatedRepetitions u, inp => ∃ v rest, crleUnpackSize u.start.value u.start.offset inp = some (v, rest) ∧
      (v = 0 ∨ ∃ b r, rest = b :: r ∧ CrleEmpty 0 r)
  | .repeatedData k, inp => k = 0 ∨ ∃ b r, inp = b :: r ∧ CrleEmpty 0 r
  | .repeatedDataRead _ k, inp => k = 0 ∨ CrleEmpty 0 inp

def CReader.hits : CReader → Bytes → Prop
  | .crle s, inp => s.hits inp
  | _, _ => False

omit [Build] in
theorem CrleEmpty.lits {k : Nat} {r : Bytes} (h : CrleEmpty k r) : ∀ (d : Bytes), CrleEmpty (d.length + k) (d ++ r)
  | [] => by simpa using h
  | b :: d => by
    have := (CrleEmpty.lits h d).lit (b := b)
    simpa [Nat.add_right_comm] using this

omit [Build] in
theorem usizeLoop_back : ∀ (fuel : Nat) (c : Chunk) (u : USize) {r c' u'}, c.Inv → u.state = .consecutive → u.Inv →
    unpackUsizeLoop fuel c u = .ok (r, c', u') →
    match r with
    | .value v => 0 ≤ v ∧ v < 2 ^ 28 ∧ c'.Inv ∧ ∀ x, crleUnpackSize u.value u.offset (c.rest ++ x) = some (v.toNat, c'.rest ++ x)
    | .more => c'.rest = [] ∧ c'.Inv ∧ u'.state = .consecutive ∧ u'.Inv ∧
        ∀ x, crleUnpackSize u.value u.offset (c.rest ++ x) = crleUnpackSize u'.value u'.offset x
    | .fail _ => True := by
  intro fuel
  induction fuel with
  | zero => intro c u r c' u' _ _ _ h; cases h
  | succ fuel ih =>
    intro c u r c' u' hc hs hu h
    unfold unpackUsizeLoop at h
    cases hr : c.rest with
    | nil =>
      rw [c.get_nil hc hr] at h
      cases h
      exact ⟨hr, hc, hs, hu, fun x => rfl⟩
    | cons b t =>
      obtain ⟨hg, ht, hc'⟩ := c.get_cons hc hr
      rw [hg] at h
      simp only [Bind.bind, Except.bind] at h
      rcases usizeByte_cases hs hu b with ⟨h1, h2⟩ | ⟨h2, v, hv, hi, hv28, h1⟩
      · simp only [h2, if_true] at h
        cases h
        trivial
      · have hval : v = u.value ||| ((b.toNat &&& 0x7f) <<< u.offset) := by
          unfold orShift at hv
          split at hv <;> cases hv
          rfl
        simp only [h2, Bool.false_eq_true, if_false, hv] at h
        by_cases hb : b &&& 0x80 = 0
        · simp only [hb, ne_eq, not_true, if_false] at h
          cases h
          refine ⟨by omega, by omega, hc', fun x => ?_⟩
          simp only [List.cons_append, crleUnpackSize, hb, ne_eq, not_true, if_false, hval, ht]
          rfl
        · simp only [hb, ne_eq, not_false_iff, if_true] at h
          have := ih { c with offset := c.offset + 1 } { u with value := v, offset := u.offset + 7 } hc' hs hi h
          rw [ht] at this
          have key : ∀ x, crleUnpackSize u.value u.offset (b :: t ++ x) = crleUnpackSize v (u.offset + 7) (t ++ x) := by
            intro x
            simp only [List.cons_append, crleUnpackSize, hb, ne_eq, not_false_iff, if_true, hval]
          simp only [key]
          exact this

/-- What a step of the CRLE reader says about the segments to come. -/
def CrleBack (s : CCrle) (c : Chunk) (o : Option DRes) (s' : CCrle) (c' : Chunk) : Prop :=
  (∃ e, o = some (.fail e)) ∨ (s'.Inv ∧ c'.Inv ∧ (∀ x, s'.hits (c'.rest ++ x) → s.hits (c.rest ++ x)) ∧
    (o = some (.ok []) → ∀ x, s.hits (c.rest ++ x)))

omit [Build] in
theorem crleStep_back {s : CCrle} {c : Chunk} (hs : s.Inv) (hc : c.Inv) {cap size : Nat} (h1 : 1 ≤ size) (h2 : size ≤ cap) {o s' c'}
    (h : crleStep s c cap size = .ok (o, s', c')) : CrleBack s c o s' c' := by
  cases s with
  | idle =>
    simp only [crleStep, Bind.bind, Except.bind] at h
    cases hr : c.rest with
    | nil =>
      rw [c.get_nil hc hr] at h
      cases h
      exact .inr ⟨trivial, hc, fun x hx => hx, fun h => by cases h⟩
    | cons b t =>
      obtain ⟨hg, ht, hc'⟩ := c.get_cons hc hr
      rw [hg] at h
      simp only at h
      split at h
      · rename_i hb
        cases h
        refine .inr ⟨(fun h => by cases h), hc', fun x => ?_, fun h => by cases h⟩
        rw [ht, hr, hb]
        rintro ⟨v, rest, g1, g2⟩
        rcases g2 with rfl | g2
        · exact .here (.inl rfl) g1
        · exact .scattered g1 g2
      · split at h
        · rename_i hb
          cases h
          refine .inr ⟨(fun h => by cases h), hc', fun x => ?_, fun h => by cases h⟩
          rw [ht, hr, hb]
          rintro ⟨v, rest, g1, g2⟩
          rcases g2 with rfl | ⟨b, r, rfl, g2⟩
          · exact .here (.inr rfl) g1
          · exact .repeated g1 g2
        · cases h
          exact .inl ⟨_, rfl⟩
  | scatteredSize u =>
    obtain ⟨i1, i2, i3⟩ := USize.start_inv (u := u) hs
    simp only [crleStep, Bind.bind, Except.bind, unpackUsizeC_eq] at h
    split at h
    · cases h
    · rename_i v hv
      obtain ⟨r, c1, u1⟩ := v
      have hb := usizeLoop_back _ _ _ hc i1 i2 hv
      cases r with
      | value v =>
        cases h
        obtain ⟨g1, g2, g3, g4⟩ := hb
        have hz : szOfInt v = v.toNat := by unfold szOfInt; omega
        refine .inr ⟨?_, g3, fun x hx => ?_, fun h => by cases h⟩
        · show szOfInt v < 2 ^ 31
          omega
        · refine ⟨_, _, g4 x, ?_⟩
          rw [← hz]
          exact hx
      | more =>
        cases h
        obtain ⟨g1, g2, g3, g4, g5⟩ := hb
        refine .inr ⟨g4, g2, fun x hx => ?_, fun h => by cases h⟩
        obtain ⟨v, rest, k1, k2⟩ := hx
        have hst : u1.start = u1 := by unfold USize.start; rw [g3]
        rw [g1, hst] at k1
        exact ⟨v, rest, by rw [g5]; exact k1, k2⟩
      | fail e => cases h; exact .inl ⟨_, rfl⟩
  | repeatedRepetitions u =>
    obtain ⟨i1, i2, i3⟩ := USize.start_inv (u := u) hs
    simp only [crleStep, Bind.bind, Except.bind, unpackUsizeC_eq] at h
    split at h
    · cases h
    · rename_i v hv
      obtain ⟨r, c1, u1⟩ := v
      have hb := usizeLoop_back _ _ _ hc i1 i2 hv
      cases r with
      | value v =>
        cases h
        obtain ⟨g1, g2, g3, g4⟩ := hb
        have hz : szOfInt v = v.toNat := by unfold szOfInt; omega
        refine .inr ⟨?_, g3, fun x hx => ?_, fun h => by cases h⟩
        · show szOfInt v < 2 ^ 31
          omega
        · refine ⟨_, _, g4 x, ?_⟩
          rw [← hz]
          exact hx
      | more =>
        cases h
        obtain ⟨g1, g2, g3, g4, g5⟩ := hb
        refine .inr ⟨g4, g2, fun x hx => ?_, fun h => by cases h⟩
        obtain ⟨v, rest, k1, k2⟩ := hx
        have hst : u1.start = u1 := by unfold USize.start; rw [g3]
        rw [g1, hst] at k1
        exact ⟨v, rest, by rw [g5]; exact k1, k2⟩
      | fail e => cases h; exact .inl ⟨_, rfl⟩
  | scatteredData left =>
    have hs : left < 2 ^ 31 := hs
    simp only [crleStep, Bind.bind, Except.bind] at h
    by_cases hr : c.rest = []
    · rw [c.read_nil hc hr] at h
      cases h
      exact .inr ⟨hs, hc, fun x hx => hx, fun h => by cases h⟩
    · obtain ⟨c1, e1, e2, e3⟩ := c.read_cons hc hr (n := min size left) (cap := cap) (by omega)
      rw [e1] at h
      cases h
      have hlen : (c.rest.take (min size left)).length = min (min size left) c.rest.length := by simp
      have hne : c.rest.length ≠ 0 := by simpa using hr
      have hsplit : ∀ x, c.rest ++ x = c.rest.take (min size left) ++ (c'.rest ++ x) := by
        intro x
        rw [e2, ← List.append_assoc, List.take_append_drop]
      refine .inr ⟨?_, e3, fun x hx => ?_, fun h x => ?_⟩
      · split
        · trivial
        · show _ < 2 ^ 31
          omega
      · by_cases hl : left = 0
        · exact .inl hl
        · right
          rw [hsplit]
          split at hx
          · rename_i h0
            have := CrleEmpty.lits (k := 0) hx (c.rest.take (min size left))
            rwa [show (c.rest.take (min size left)).length + 0 = left by omega] at this
          · rename_i h0
            rcases hx with hx | hx
            · exact absurd hx h0
            · have := CrleEmpty.lits hx (c.rest.take (min size left))
              rwa [show (c.rest.take (min size left)).length + (left - (c.rest.take (min size left)).length) = left by omega] at this
      · left
        simp only [Option.some.injEq, DRes.ok.injEq] at h
        rw [h] at hlen
        simp only [List.length_nil] at hlen
        omega
  | repeatedData left =>
    simp only [crleStep, Bind.bind, Except.bind] at h
    cases hr : c.rest with
    | nil =>
      rw [c.get_nil hc hr] at h
      cases h
      exact .inr ⟨hs, hc, fun x hx => hx, fun h => by cases h⟩
    | cons b t =>
      obtain ⟨hg, ht, hc'⟩ := c.get_cons hc hr
      rw [hg] at h
      cases h
      refine .inr ⟨hs, hc', fun x hx => ?_, fun h => by cases h⟩
      rw [ht] at hx
      rcases hx with hx | hx
      · exact .inl hx
      · rw [hr]
        exact .inr ⟨b, t ++ x, rfl, hx⟩
  | repeatedDataRead v left =>
    have hs : left < 2 ^ 31 := hs
    simp only [crleStep] at h
    split at h
    · cases h
    · cases h
      refine .inr ⟨?_, hc, fun x hx => ?_, fun h x => ?_⟩
      · split
        · trivial
        · show _ < 2 ^ 31
          omega
      · by_cases hl : left = 0
        · exact .inl hl
        · split at hx
          · exact .inr hx
          · rename_i h0
            rcases hx with hx | hx
            · exact absurd hx h0
            · exact .inr hx
      · left
        simp only [Option.some.injEq, DRes.ok.injEq] at h
        have := congrArg List.length h
        simp only [List.length_replicate, List.length_nil] at this
        omega

omit [Build] in
theorem crleLoop_back {cap size : Nat} (h1 : 1 ≤ size) (h2 : size ≤ cap) : ∀ (fuel : Nat) {s : CCrle} {c : Chunk} {d s' c'}, s.Inv → c.Inv →
    crleDecompressLoop fuel s c cap size = .ok (d, s', c') → CrleBack s c (some d) s' c' := by
  intro fuel
  induction fuel with
  | zero => intro s c d s' c' _ _ h; cases h
  | succ fuel ih =>
    intro s c d s' c' hs hc h
    unfold crleDecompressLoop at h
    cases hst : crleStep s c cap size with
    | error u => rw [hst] at h; cases h
    | ok v =>
      obtain ⟨o, s1, c1⟩ := v
      have hb := crleStep_back hs hc h1 h2 hst
      rw [hst] at h
      simp only [Bind.bind, Except.bind] at h
      cases o with
      | some r => cases h; exact hb
      | none =>
        simp only at h
        rcases hb with ⟨e, hb⟩ | ⟨b1, b2, b3, b4⟩
        · cases hb
        · rcases ih b1 b2 h with ⟨e, he⟩ | ⟨k1, k2, k3, k4⟩
          · exact .inl ⟨e, he⟩
          · exact .inr ⟨k1, k2, fun x hx => b3 x (k3 x hx), fun ho x => b3 x (k4 ho x)⟩

/-! The other readers never deliver nothing. -/

omit [Build] in
theorem hsLoop_nonempty : ∀ (fuel : Nat) (h : Hsd) (c : Chunk) (size : Nat) (out : Bytes), 1 ≤ size → ∀ {data h' c'},
    hsDecompressLoop fuel h c size out = .ok (.ok data, h', c') → data ≠ [] := by
  intro fuel
  induction fuel with
  | zero => intro h c size out _ data h' c' he; cases he
  | succ fuel ih =>
    intro h c size out h1 data h' c' he
    simp only [hsDecompressLoop, Bind.bind, Except.bind] at he
    split at he
    · cases he
    · split at he
      · rename_i hz
        cases he
        intro h0
        rw [h0] at hz
        simp only [List.length_nil] at hz
        omega
      · split at he
        · cases he
        · split at he
          · split at he
            · cases he
            · split at he
              · cases he
              · exact ih _ _ _ _ h1 he
          · split at he
            · rename_i hz
              cases he
              intro h0
              rw [h0] at hz
              exact hz rfl
            · cases he

omit [Build] in
theorem lzmaGet_nonempty {s s' : CLzma} {size : Nat} {data : Bytes} (h1 : 1 ≤ size) (h : lzmaGet s size = some (data, s')) : data ≠ [] := by
  unfold lzmaGet at h
  split at h
  · rename_i hl
    cases h
    intro h0
    have := congrArg List.length h0
    simp only [List.length_take, List.length_nil] at this
    omega
  · cases h

omit [Build] in
theorem lzmaLoop_nonempty (L : LzmaLib) : ∀ (fuel : Nat) (s : CLzma) (c : Chunk) (size : Nat), 1 ≤ size → ∀ {data s' c'},
    lzmaLoop L fuel s c size = .ok (.ok data, s', c') → data ≠ [] := by
  intro fuel
  induction fuel with
  | zero => intro s c size _ data s' c' he; cases he
  | succ fuel ih =>
    intro s c size h1 data s' c' he
    simp only [lzmaLoop, Bind.bind, Except.bind] at he
    split at he
    · cases he
    · split at he
      · cases he
      · split at he
        · rename_i hg
          cases he
          exact lzmaGet_nonempty h1 hg
        · split at he
          · cases he
          · split at he
            · cases he
            · exact ih _ _ _ h1 he

/-- What a decompress call says about the segments to come. -/
theorem dec_back {r : CReader} (hr : r.Safe) {c : Chunk} (hc : c.Inv) {cap size : Nat} (h1 : 1 ≤ size) (h2 : size ≤ cap) {d r' c'}
    (h : r.decompress c cap size = .ok (d, r', c')) :
    (∃ e, d = .fail e) ∨ ((∀ x, r'.hits (c'.rest ++ x) → r.hits (c.rest ++ x)) ∧ (d = .ok [] → ∀ x, r.hits (c.rest ++ x))) := by
  cases r with
  | raw p o =>
    simp only [CReader.decompress, noneDecompress] at h
    split at h
    · cases h; exact .inl ⟨_, rfl⟩
    · by_cases hr : c.rest = []
      · rw [c.read_nil hc hr] at h
        cases h
        exact .inr ⟨fun x hx => hx, fun h => by cases h⟩
      · obtain ⟨c1, e1, e2, e3⟩ := c.read_cons hc hr h2
        rw [e1] at h
        cases h
        refine .inr ⟨fun x hx => hx.elim, fun h => ?_⟩
        simp only [DRes.ok.injEq, List.take_eq_nil_iff] at h
        rcases h with h | h
        · omega
        · exact absurd h hr
  | lzma s =>
    simp only [CReader.decompress] at h
    split at h
    · cases h
    · simp only [Bind.bind, Except.bind] at h
      split at h
      · cases h
      · rename_i v hv
        obtain ⟨d1, s1, c1⟩ := v
        cases h
        refine .inr ⟨fun x hx => hx.elim, fun hd => ?_⟩
        subst hd
        exfalso
        unfold lzmaDecompress at hv
        split at hv
        · cases hv
        · split at hv
          · rename_i hg
            cases hv
            exact lzmaGet_nonempty h1 hg rfl
          · exact lzmaLoop_nonempty _ _ _ _ _ h1 hv rfl
  | crle s =>
    simp only [CReader.decompress, Bind.bind, Except.bind] at h
    split at h
    · cases h
    · rename_i v hv
      obtain ⟨d1, s1, c1⟩ := v
      cases h
      rcases crleLoop_back h1 h2 _ hr hc hv with ⟨e, he⟩ | ⟨_, _, k3, k4⟩
      · cases he; exact .inl ⟨_, rfl⟩
      · exact .inr ⟨k3, fun hd => k4 (congrArg some hd)⟩
  | heatshrink hh =>
    simp only [CReader.decompress, Bind.bind, Except.bind] at h
    split at h
    · cases h
    · rename_i v hv
      obtain ⟨d1, s1, c1⟩ := v
      cases h
      refine .inr ⟨fun x hx => hx.elim, fun hd => ?_⟩
      subst hd
      exfalso
      unfold hsDecompress at hv
      split at hv
      · cases hv
      · split at hv
        · simp only [Bind.bind, Except.bind] at hv
          split at hv
          · cases hv
          · rename_i v e
            obtain ⟨d2, h2', c2⟩ := v
            cases hv
            exact hsLoop_nonempty _ _ _ _ _ h1 e rfl
        · simp only [Bind.bind, Except.bind] at hv
          split at hv
          · cases hv
          · split at hv
            · cases hv
            · split at hv
              · cases hv
              · split at hv
                · cases hv
                · rename_i v e
                  obtain ⟨d2, h2', c2⟩ := v
                  cases hv
                  exact hsLoop_nonempty _ _ _ _ _ h1 e rfl

theorem unpackSizeC_back : ∀ (fuel : Nat) (r : CReader) (c : Chunk) (acc : SizeAcc), r.Safe → c.Inv →
    (unpackSizeC fuel r c acc = .error .uninit → ∀ x, r.hits (c.rest ++ x)) ∧
    ∀ {v r' c' a'}, unpackSizeC fuel r c acc = .ok (v, r', c', a') → (∃ e, v = .fail e) ∨ ∀ x, r'.hits (c'.rest ++ x) → r.hits (c.rest ++ x) := by
  intro fuel
  induction fuel with
  | zero => intro r c acc _ _; exact ⟨(fun h => by cases h), fun h => by cases h⟩
  | succ fuel ih =>
    intro r c acc hr hc
    unfold unpackSizeC
    obtain ⟨⟨d, r1, c1⟩, e1, e2⟩ := dec_safe hr hc (cap := 1) (size := 1) (by omega) (by omega) (by omega)
    have hb := dec_back hr hc (cap := 1) (size := 1) (by omega) (by omega) e1
    rw [e1]
    simp only [Bind.bind, Except.bind]
    match d, e2, hb with
    | .more, ⟨g1, g2, g3, g4⟩, .inr hb => exact ⟨(fun h => by cases h), fun h => by cases h; exact .inr hb.1⟩
    | .fail e, ⟨g0, g1⟩, _ => exact ⟨(fun h => by cases h), fun h => by cases h; exact .inl ⟨_, rfl⟩⟩
    | .ok [], _, .inr hb => exact ⟨fun _ => hb.2 rfl, fun h => by cases h⟩
    | .ok (byte :: t), ⟨g1, g2, g3, g4⟩, .inr hb =>
      simp only
      cases hsb : sizeByte acc byte with
      | error u =>
        simp only
        refine ⟨fun h => ?_, fun h => by cases h⟩
        cases h
        exfalso
        unfold sizeByte orShift at hsb
        simp only [Bind.bind, Except.bind] at hsb
        split at hsb
        · split at hsb <;> cases hsb
        · split at hsb
          · cases hsb
          · split at hsb
            · rename_i hx
              split at hx
              · cases hx
              · cases hx; cases hsb
            · split at hsb <;> cases hsb
      | ok o =>
        obtain ⟨a1, o⟩ := o
        cases o with
        | some v =>
          simp only
          exact ⟨(fun h => by cases h), fun h => by cases h; exact .inr hb.1⟩
        | none =>
          simp only
          obtain ⟨k1, k2⟩ := ih r1 c1 a1 g1 g2
          exact ⟨fun h x => hb.1 x (k1 h x), fun h => (k2 h).imp id fun k x hx => hb.1 x (k x hx)⟩

/-! One step. -/

def ApplyPatch.hits (s : ApplyPatch) (x : Bytes) : Prop := ∃ r, s.reader = some r ∧ r.hits (s.chunk.rest ++ x)

theorem unpack_back {s : ApplyPatch} (h : SInv s) (h1 : s.state ≠ .failed) (h2 : s.state ≠ .init) :
    (s.unpackSize = .error .uninit → ∀ x, s.hits x) ∧
    ∀ {v s'}, s.unpackSize = .ok (v, s') → (∃ e, v = .fail e) ∨ ∀ x, s'.hits x → s.hits x := by
  obtain ⟨hc, hrs, hr⟩ := h.live h1
  obtain ⟨r, hr1, hr2⟩ := hr h2
  unfold ApplyPatch.unpackSize
  rw [hr1]
  simp only [patchReaderUnpackSize]
  obtain ⟨k1, k2⟩ := unpackSizeC_back 6 r s.chunk s.readerSize hr2 hc
  cases hu : unpackSizeC 6 r s.chunk s.readerSize with
  | error u =>
    refine ⟨fun he x => ?_, fun he => by cases he⟩
    simp only [Bind.bind, Except.bind] at he
    cases he
    exact ⟨r, hr1, k1 hu x⟩
  | ok o =>
    obtain ⟨v, r', c', a'⟩ := o
    refine ⟨(fun he => by cases he), fun he => ?_⟩
    cases he
    refine (k2 hu).imp id fun k x hx => ?_
    obtain ⟨r2, g1, g2⟩ := hx
    cases g1
    exact ⟨r, hr1, k x g2⟩

omit [Build] in
theorem write_frame (E : SeqEnv σ) {s : ApplyPatch} {w : World σ} {to : Bytes} {res s' w'} (h : processWrite E s w to = .ok (res, s', w')) :
    s'.reader = s.reader ∧ s'.chunk = s.chunk ∧ s'.fromOffset = s.fromOffset ∧ (0 ≤ res → E.toWrite w.arg to = (0, w'.arg)) := by
  unfold processWrite at h
  simp only at h
  split at h
  · cases h; exact ⟨rfl, rfl, rfl, fun h => absurd h (by decide)⟩
  · rename_i h0
    cases h
    refine ⟨rfl, rfl, rfl, fun _ => ?_⟩
    exact Prod.ext (Decidable.not_not.1 h0) rfl

theorem data_back (E : SeqEnv σ) {s : ApplyPatch} {w : World σ} (h : SInv s) (h1 : s.state ≠ .failed) (h2 : s.state ≠ .init) (next : SeqPhase) (diff : Bool) :
    (processData E s w next diff = .error .uninit → ShortRead E) ∧
    ∀ {res s' w'}, processData E s w next diff = .ok (res, s', w') → res < 0 ∨ ∀ x, s'.hits x → s.hits x := by
  obtain ⟨hc, hrs, hr⟩ := h.live h1
  obtain ⟨r, hr1, hr2⟩ := hr h2
  unfold processData
  by_cases hz : min dataCap s.chunkSize = 0
  · simp only [hz, if_true]
    exact ⟨(fun h => by cases h), fun h => by cases h; exact .inr fun x hx => hx⟩
  · simp only [hz, if_false, hr1]
    obtain ⟨⟨d, r', c'⟩, e1, e2⟩ := dec_safe hr2 hc (cap := dataCap) (size := min dataCap s.chunkSize) (by omega)
      (Nat.min_le_left ..) (by decide)
    have hb := dec_back hr2 hc (by omega) (Nat.min_le_left ..) e1
    rw [e1]
    simp only [Bind.bind, Except.bind]
    have lift : (∀ x, r'.hits (c'.rest ++ x) → r.hits (s.chunk.rest ++ x)) → ∀ {s1 : ApplyPatch}, s1.reader = some r' → s1.chunk = c' →
        ∀ x, s1.hits x → s.hits x := by
      intro hk s1 q1 q2 x hx
      obtain ⟨r2, g1, g2⟩ := hx
      rw [q1] at g1
      cases g1
      rw [q2] at g2
      exact ⟨r, hr1, hk x g2⟩
    match d, e2, hb with
    | .fail e, e2, _ => exact ⟨(fun h => by cases h), fun h => by cases h; exact .inl e2.1.neg.1⟩
    | .more, _, .inr hb => exact ⟨(fun h => by cases h), fun h => by cases h; exact .inr (lift hb.1 rfl rfl)⟩
    | .ok to, _, .inr hb =>
      cases diff with
      | false =>
        simp only [Bool.false_eq_true, if_false]
        refine ⟨fun h => ?_, fun h => ?_⟩
        · exfalso
          unfold processWrite at h
          simp only at h
          split at h <;> cases h
        · obtain ⟨w1, w2, _⟩ := write_frame E h
          exact .inr (lift hb.1 w1 w2)
      | true =>
        simp only [if_true]
        by_cases q1 : (E.fromRead w.arg to.length).1 = 0
        · rw [if_neg (by simpa using q1)]
          by_cases q2 : (E.fromRead w.arg to.length).2.1.length = to.length
          · rw [if_neg (by simpa using q2)]
            refine ⟨fun h => ?_, fun h => ?_⟩
            · exfalso
              unfold processWrite at h
              simp only at h
              split at h <;> cases h
            · obtain ⟨w1, w2, _⟩ := write_frame E h
              exact .inr (lift hb.1 w1 w2)
          · rw [if_pos q2]
            exact ⟨fun _ => ⟨w.arg, to.length, _, _, Prod.ext q1 rfl, q2⟩, fun h => by cases h⟩
        · rw [if_pos (by simpa using q1)]
          exact ⟨(fun h => by cases h), fun h => by cases h; exact .inl (by decide)⟩

theorem size_back {s : ApplyPatch} {w : World σ} (u1 : s.unpackSize = .error .uninit → ∀ x, s.hits x)
    (u2 : ∀ {v s'}, s.unpackSize = .ok (v, s') → (∃ e, v = .fail e) ∨ ∀ x, s'.hits x → s.hits x)
    (neg : ∀ {e s'}, s.unpackSize = .ok (.fail e, s') → e < 0) (next : SeqPhase) {P : Prop} :
    (processSize s w next = .error .uninit → P ∨ ∀ x, s.hits x) ∧
    ∀ {res s' w'}, processSize s w next = .ok (res, s', w') → res < 0 ∨ ∀ x, s'.hits x → s.hits x := by
  have nofail : ∀ {v : Int}, ¬ ∃ e, SizeRes.value v = .fail e := fun ⟨_, h⟩ => by cases h
  have nofail' : ¬ ∃ e, SizeRes.more = .fail e := fun ⟨_, h⟩ => by cases h
  unfold processSize
  cases hu : s.unpackSize with
  | error u => exact ⟨fun h => .inr (u1 (by simp only [Bind.bind, Except.bind] at h; cases h; exact hu)), fun h => by cases h⟩
  | ok o =>
    obtain ⟨v, s1⟩ := o
    simp only [Bind.bind, Except.bind]
    cases v with
    | more => exact ⟨(fun h => by cases h), fun h => by cases h; exact .inr ((u2 hu).resolve_left nofail')⟩
    | fail e => exact ⟨(fun h => by cases h), fun h => by cases h; exact .inl (neg hu)⟩
    | value v =>
      have hb := (u2 hu).resolve_left nofail
      simp only
      split
      · exact ⟨(fun h => by cases h), fun h => by cases h; exact .inl (by decide)⟩
      · exact ⟨(fun h => by cases h), fun h => by cases h; exact .inr hb⟩

omit [Build] in
theorem SeqPhase.body_cases {s : SeqPhase} (h1 : s ≠ .init) (h2 : s ≠ .failed) (h3 : s ≠ .done) :
    s = .dfpatchSize ∨ s = .diffSize ∨ s = .diffData ∨ s = .extraSize ∨ s = .extraData ∨ s = .adjustment := by
  cases s <;> simp_all

/-- Undefined behaviour and segments to come, for a step in the body of the patch. -/
theorem switch_back (E : SeqEnv σ) {s : ApplyPatch} {w : World σ} (h : SInv s) (h1 : s.state ≠ .init) (h2 : s.state ≠ .failed) (h3 : s.state ≠ .done) :
    (processSwitch E s w = .error .uninit → ShortRead E ∨ ∀ x, s.hits x) ∧
    ∀ {res s' w'}, processSwitch E s w = .ok (res, s', w') → res < 0 ∨ ∀ x, s'.hits x → s.hits x := by
  obtain ⟨u1, u2⟩ := unpack_back h h2 h1
  have hsafe := unpackSize_safe h h2 h1
  have neg : ∀ {e s'}, s.unpackSize = .ok (.fail e, s') → e < 0 := by
    intro e s' he
    rcases hsafe with k | ⟨o, k, ho⟩
    · rw [k] at he; cases he
    · rw [k] at he
      cases he
      cases ho with
      | fail g => exact g.neg.1
  have nofail : ∀ {v : Int}, ¬ ∃ e, SizeRes.value v = .fail e := fun ⟨_, h⟩ => by cases h
  have nofail' : ¬ ∃ e, SizeRes.more = .fail e := fun ⟨_, h⟩ => by cases h
  unfold processSwitch
  rcases SeqPhase.body_cases h1 h2 h3 with hs | hs | hs | hs | hs | hs <;> rw [hs] <;> simp only
  · unfold processDfpatchSize
    cases hu : s.unpackSize with
    | error u => exact ⟨fun h => .inr (u1 (by simp only [Bind.bind, Except.bind] at h; cases h; exact hu)), fun h => by cases h⟩
    | ok o =>
      obtain ⟨v, s1⟩ := o
      simp only [Bind.bind, Except.bind]
      cases v with
      | more => exact ⟨(fun h => by cases h), fun h => by cases h; exact .inr ((u2 hu).resolve_left nofail')⟩
      | fail e => exact ⟨(fun h => by cases h), fun h => by cases h; exact .inl (neg hu)⟩
      | value v =>
        have hb := (u2 hu).resolve_left nofail
        simp only
        split
        · exact ⟨(fun h => by cases h), fun h => by cases h; exact .inl (by decide)⟩
        · exact ⟨(fun h => by cases h), fun h => by cases h; exact .inr hb⟩
  · exact size_back u1 u2 neg _
  · exact (data_back E h h2 h1 _ _).imp (fun k h => .inl (k h)) id
  · exact size_back u1 u2 neg _
  · exact (data_back E h h2 h1 _ _).imp (fun k h => .inl (k h)) id
  · unfold processAdjustment
    cases hu : s.unpackSize with
    | error u => exact ⟨fun h => .inr (u1 (by simp only [Bind.bind, Except.bind] at h; cases h; exact hu)), fun h => by cases h⟩
    | ok o =>
      obtain ⟨v, s1⟩ := o
      simp only [Bind.bind, Except.bind]
      cases v with
      | more => exact ⟨(fun h => by cases h), fun h => by cases h; exact .inr ((u2 hu).resolve_left nofail')⟩
      | fail e => exact ⟨(fun h => by cases h), fun h => by cases h; exact .inl (neg hu)⟩
      | value v =>
        have hb := (u2 hu).resolve_left nofail
        simp only
        split
        · exact ⟨(fun h => by cases h), fun h => by cases h; exact .inl (by decide)⟩
        · split
          · exact ⟨(fun h => by cases h), fun h => by cases h⟩
          · split
            · exact ⟨(fun h => by cases h), fun h => by cases h; exact .inr hb⟩
            · exact ⟨(fun h => by cases h), fun h => by cases h; exact .inr hb⟩

/-! Histories: from undefined behaviour to the step it happens in. -/

/-- Between calls nothing is left unread, unless the object is done or failed. -/
def AtRest (s : ApplyPatch) : Prop := s.state = .done ∨ s.state = .failed ∨ s.chunk.rest = []

theorem once_rest (E : SeqEnv σ) {s : ApplyPatch} {w : World σ} (h : SInv s) {res s' w'} (he : processOnce E s w = .ok (res, s', w')) (hr : res ≠ 0) :
    AtRest s' := by
  rcases once_ok E h w with (e | e) | ⟨out', e, ho⟩
  · rw [e] at he; cases he
  · rw [e] at he; cases he
  · rw [e] at he
    cases he
    cases ho with
    | ok => exact absurd rfl hr
    | more _ _ _ g => exact .inr (.inr g)
    | done g => exact .inl g
    | already g => exact .inr (.inl g)
    | fail _ _ _ _ _ _ g => exact .inr (.inl g)
    | io _ _ _ _ _ _ _ g => exact .inr (.inl g)

theorem once_inv (E : SeqEnv σ) {s : ApplyPatch} {w : World σ} (h : SInv s) {res s' w'} (he : processOnce E s w = .ok (res, s', w')) : SInv s' := by
  rcases once_ok E h w with (e | e) | ⟨out', e, ho⟩
  · rw [e] at he; cases he
  · rw [e] at he; cases he
  · rw [e] at he
    cases he
    cases ho with
    | ok _ _ _ g => exact g.inv
    | more _ _ g => exact g.inv
    | done => exact h
    | already => exact h
    | fail _ _ g => exact g.inv
    | io _ _ _ _ g => exact g.inv

variable {E : SeqEnv σ} {P : Bytes → ApplyPatch → World σ → Prop}

theorem loop_cause (hinv : ∀ {f s w}, P f s w → SInv s)
    (hstep : ∀ {f s w res s' w'}, P f s w → processOnce E s w = .ok (res, s', w') → P f s' w') {f : Bytes} :
    ∀ (fuel : Nat) (res : Int) (s : ApplyPatch) (w : World σ), P f s w → (res ≠ 0 → AtRest s) →
      (∀ {u}, processLoop E fuel res s w = .error u → u = .timeout ∨ ∃ s' w', P f s' w' ∧ processOnce E s' w' = .error u) ∧
      ∀ {out}, processLoop E fuel res s w = .ok out → P f out.2.1 out.2.2 ∧ AtRest out.2.1
  | 0, _, _, _, _, _ => ⟨fun h => by cases h; exact .inl rfl, fun h => by cases h⟩
  | fuel + 1, res, s, w, h, hr => by
    unfold processLoop
    by_cases hc : s.chunk.available = true ∧ res ≥ 0
    · rw [if_pos hc]
      cases ho : processOnce E s w with
      | error u =>
        refine ⟨fun he => ?_, fun he => by cases he⟩
        simp only [Bind.bind, Except.bind] at he
        cases he
        exact .inr ⟨s, w, h, ho⟩
      | ok o =>
        obtain ⟨r1, s1, w1⟩ := o
        exact loop_cause hinv hstep fuel r1 s1 w1 (hstep h ho) (once_rest E (hinv h) ho)
    · rw [if_neg hc]
      refine ⟨(fun he => by cases he), fun he => ?_⟩
      cases he
      refine ⟨h, ?_⟩
      by_cases h0 : res = 0
      · by_cases hf : s.state = .failed
        · exact .inr (.inl hf)
        · right; right
          have hci := ((hinv h).live hf).1
          have : ¬ s.chunk.available = true := fun hx => hc ⟨hx, by omega⟩
          rw [s.chunk.available_eq hci] at this
          cases hrest : s.chunk.rest with
          | nil => rfl
          | cons b t => rw [hrest] at this; simp at this
      · exact hr h0

theorem floop_cause (hinv : ∀ {f s w}, P f s w → SInv s)
    (hstep : ∀ {f s w res s' w'}, P f s w → processOnce E s w = .ok (res, s', w') → P f s' w') {f : Bytes} :
    ∀ (fuel : Nat) (s : ApplyPatch) (w : World σ), P f s w →
      (∀ {u}, finalizeLoop E fuel s w = .error u → u = .timeout ∨ ∃ s' w', P f s' w' ∧ processOnce E s' w' = .error u) ∧
      ∀ {out}, finalizeLoop E fuel s w = .ok out → P f out.2.1 out.2.2 ∧ AtRest out.2.1
  | 0, _, _, _ => ⟨fun h => by cases h; exact .inl rfl, fun h => by cases h⟩
  | fuel + 1, s, w, h => by
    unfold finalizeLoop
    cases ho : processOnce E s w with
    | error u =>
      refine ⟨fun he => ?_, fun he => by cases he⟩
      simp only [Bind.bind, Except.bind] at he
      cases he
      exact .inr ⟨s, w, h, ho⟩
    | ok o =>
      obtain ⟨r1, s1, w1⟩ := o
      simp only [Bind.bind, Except.bind]
      by_cases h0 : r1 = 0
      · rw [if_pos h0]
        exact floop_cause hinv hstep fuel s1 w1 (hstep h ho)
      · rw [if_neg h0]
        refine ⟨(fun he => by cases he), fun he => ?_⟩
        cases he
        exact ⟨hstep h ho, once_rest E (hinv h) ho h0⟩

/-- Undefined behaviour in a history of calls happens in a step, from a state with the
invariant `P`. -/
theorem runCalls_cause (hinv : ∀ {f s w}, P f s w → SInv s)
    (hstep : ∀ {f s w res s' w'}, P f s w → processOnce E s w = .ok (res, s', w') → P f s' w')
    (hchunk : ∀ {f s w} (p : Bytes) (po : Nat), P f s w → AtRest s → P (f ++ p) { s with patchOffset := po, chunk := { buf := p, offset := 0 } } w) :
    ∀ (calls : List Call) {f s w u}, P f s w → AtRest s → runCalls E s w calls = .error u →
      u = .timeout ∨ ∃ f' later s' w', f ++ fedBytes calls = f' ++ later ∧ P f' s' w' ∧ processOnce E s' w' = .error u
  | [], f, s, w, u, _, _, h => by cases h
  | .process p :: cs, f, s, w, u, hp, ha, h => by
    have h1 := hchunk p (sz (s.patchOffset + p.length)) hp ha
    unfold runCalls applyPatchProcess at h
    simp only at h
    generalize ({ s with patchOffset := sz (s.patchOffset + p.length), chunk := { buf := p, offset := 0 } } : ApplyPatch) = s0 at *
    obtain ⟨k1, k2⟩ := loop_cause (P := P) (f := f ++ p) hinv hstep s0.fuel 0 s0 w h1 (fun h => absurd rfl h)
    cases hl : processLoop E s0.fuel 0 s0 w with
    | error e =>
      rw [hl] at h
      simp only [Bind.bind, Except.bind] at h
      cases h
      refine (k1 hl).imp id fun ⟨s', w', g1, g2⟩ => ⟨f ++ p, fedBytes cs, s', w', by simp [fedBytes], g1, g2⟩
    | ok o =>
      obtain ⟨r1, s1, w1⟩ := o
      rw [hl] at h
      obtain ⟨g1, g2⟩ := k2 hl
      have key : runCalls E s1 w1 cs = .error u := by
        simp only [Bind.bind, Except.bind] at h
        split at h
        · rename_i hx
          split at hx <;> cases hx
        · rename_i hx
          have : ∃ r, (r, s1, w1) = ‹SeqRes σ› := by
            split at hx <;> (cases hx; exact ⟨_, rfl⟩)
          obtain ⟨r, rfl⟩ := this
          simp only at h
          split at h
          · rename_i e
            cases h
            exact e
          · cases h
      rcases runCalls_cause hinv hstep hchunk cs g1 g2 key with q | ⟨f', later, s', w', q1, q2, q3⟩
      · exact .inl q
      · exact .inr ⟨f', later, s', w', by rw [← q1]; simp [fedBytes], q2, q3⟩
  | .finalize :: cs, f, s, w, u, hp, ha, h => by
    have h1 := hchunk [] s.patchOffset hp ha
    rw [List.append_nil] at h1
    have hs1' : ({ s with chunk := { buf := [], offset := 0 } } : ApplyPatch) = { s with patchOffset := s.patchOffset, chunk := { buf := [], offset := 0 } } := rfl
    unfold runCalls applyPatchFinalize at h
    simp only [hs1'] at h
    generalize ({ s with patchOffset := s.patchOffset, chunk := { buf := [], offset := 0 } } : ApplyPatch) = s0 at *
    obtain ⟨k1, k2⟩ := floop_cause (P := P) (f := f) hinv hstep s0.fuel s0 w h1
    cases hl : finalizeLoop E s0.fuel s0 w with
    | error e =>
      rw [hl] at h
      simp only [Bind.bind, Except.bind] at h
      cases h
      refine (k1 hl).imp id fun ⟨s', w', g1, g2⟩ => ⟨f, fedBytes cs, s', w', by simp [fedBytes], g1, g2⟩
    | ok o =>
      obtain ⟨r1, s1, w1⟩ := o
      rw [hl] at h
      obtain ⟨g1, g2⟩ := k2 hl
      have key : runCalls E s1 w1 cs = .error u := by
        simp only [Bind.bind, Except.bind] at h
        split at h
        · rename_i e
          cases h
          exact e
        · cases h
      rcases runCalls_cause hinv hstep hchunk cs g1 g2 key with q | ⟨f', later, s', w', q1, q2, q3⟩
      · exact .inl q
      · exact .inr ⟨f', later, s', w', by rw [← q1]; simp [fedBytes], q2, q3⟩

/-! Uninitialised bytes. -/

/-- If an empty segment is to come, the patch has one. -/
structure EmptyInv (f : Bytes) (s : ApplyPatch) : Prop where
  inv : SInv s
  ht : HT s f
  empty : s.state ≠ .init → s.state ≠ .failed → s.state ≠ .done → ∀ x, s.hits x → EmptyCrleSegment (f ++ x)

theorem HT.setRest {s : ApplyPatch} (hi : SInv s) {f : Bytes} (h : HT s f) (ha : AtRest s) (p : Bytes) (po : Nat) :
    HT { s with patchOffset := po, chunk := { buf := p, offset := 0 } } (f ++ p) := by
  refine HT.setChunk ⟨hi, h, fun h1 => ?_⟩
  rcases ha with ha | ha | ha
  · rw [h1] at ha; cases ha
  · rw [h1] at ha; cases ha
  · exact ha

theorem EmptyInv.chunk {f : Bytes} {s : ApplyPatch} (h : EmptyInv f s) (ha : AtRest s) (p : Bytes) (po : Nat) :
    EmptyInv (f ++ p) { s with patchOffset := po, chunk := { buf := p, offset := 0 } } := by
  refine ⟨h.inv.setChunk, HT.setRest h.inv h.ht ha p po, fun h1 h2 h3 x hx => ?_⟩
  have hr : s.chunk.rest = [] := by
    rcases ha with ha | ha | ha
    · exact absurd ha h3
    · exact absurd ha h2
    · exact ha
  rw [List.append_assoc]
  refine h.empty h1 h2 h3 (p ++ x) ?_
  obtain ⟨r, g1, g2⟩ := hx
  refine ⟨r, g1, ?_⟩
  rw [hr]
  exact g2

theorem EmptyInv.once {f : Bytes} {s : ApplyPatch} {w : World σ} (h : EmptyInv f s) {res s' w'} (he : processOnce E s w = .ok (res, s', w')) :
    EmptyInv f s' := by
  refine ⟨once_inv E h.inv he, (once_ht E h.inv h.ht he).1, fun h1 h2 h3 x hx => ?_⟩
  unfold processOnce at he
  by_cases hd : s.state = .done
  · rw [if_pos hd] at he
    cases he
    exact absurd hd h3
  · rw [if_neg hd] at he
    cases hsw : processSwitch E s w with
    | error u => rw [hsw] at he; cases he
    | ok v =>
      obtain ⟨r1, s1, w1⟩ := v
      rw [hsw] at he
      simp only [Bind.bind, Except.bind] at he
      by_cases hneg : r1 < 0
      · rw [if_pos hneg] at he
        cases he
        exact absurd rfl h2
      · rw [if_neg hneg] at he
        cases he
        by_cases hf : s.state = .failed
        · simp only [processSwitch, hf] at hsw
          cases hsw
          exact absurd hf h2
        · by_cases hi : s.state = .init
          · obtain ⟨hc, hrs, _⟩ := h.inv.live hf
            have ht := h.ht
            simp only [HT, hi] at ht
            simp only [processSwitch, hi, processInit] at hsw
            cases hin : s.initState with
            | fixedHeader =>
              exfalso
              simp only [hin, processInitFixedHeader, Bind.bind, Except.bind] at hsw
              split at hsw
              · cases hsw
              · split at hsw
                · cases hsw; exact h1 hi
                · split at hsw <;> (cases hsw; exact h1 hi)
            | toSize =>
              simp only [hin] at ht hsw
              obtain ⟨b, t, hcomp, rfl, hmore⟩ := ht
              obtain ⟨out, ho, hm⟩ := headerSize_run (s.chunk.left + 1) s.chunk s.size hc h.inv.size (by rw [s.chunk.left_eq hc]; omega)
              unfold processInitToSize at hsw
              rw [ho] at hsw
              simp only [Bind.bind, Except.bind] at hsw
              cases hrun : hdrRun s.size s.chunk.rest with
              | more a =>
                rw [hrun] at hm
                obtain ⟨c', rfl, _, _⟩ := hm
                cases hsw
                exact absurd hi h1
              | fail =>
                rw [hrun] at hm
                obtain ⟨c', a, rfl⟩ := hm
                cases hsw
                exact absurd hi h1
              | value v a t1 =>
                rw [hrun] at hm
                obtain ⟨c', rfl, hci, hrest, _⟩ := hm
                simp only at hsw
                split at hsw
                · cases hsw; exact absurd hi h1
                · rename_i r hini
                  have hrd : s'.reader = some r ∧ s'.chunk = c' := by
                    split at hsw
                    · cases hsw; exact ⟨rfl, rfl⟩
                    · split at hsw <;> (cases hsw; exact ⟨rfl, rfl⟩)
                  obtain ⟨r2, g1, g2⟩ := hx
                  rw [hrd.1] at g1
                  cases g1
                  rw [hrd.2, hrest] at g2
                  have htot : hdrRun {} (t ++ s.chunk.rest ++ x) = .value v a (t1 ++ x) := by
                    rw [List.append_assoc, hdrRun_append, hmore]
                    simp only
                    rw [hdrRun_append, hrun]
                  obtain ⟨wv, k, q1, q2, q3⟩ := hdrRun_value htot
                  refine ⟨b, t ++ s.chunk.rest ++ x, wv, k, t1 ++ x, by simp, ?_, q1, ?_⟩
                  · rw [show b.toNat % 16 = b.toNat &&& 0xf from (Nat.and_two_pow_sub_one_eq_mod b.toNat 4).symm, ← hcomp]
                    unfold CReader.init at hini
                    split at hini
                    · cases hini; exact g2.elim
                    · split at hini
                      · assumption
                      · split at hini
                        · cases hini; exact g2.elim
                        · split at hini
                          · cases hL : Build.lzma with
                            | none => rw [hL] at hini; cases hini
                            | some L => rw [hL] at hini; cases hini; exact g2.elim
                          · cases hini
                  · unfold CReader.init at hini
                    split at hini
                    · cases hini; exact g2.elim
                    · split at hini
                      · cases hini; exact g2
                      · split at hini
                        · cases hini; exact g2.elim
                        · split at hini
                          · cases hL : Build.lzma with
                            | none => rw [hL] at hini; cases hini
                            | some L => rw [hL] at hini; cases hini; exact g2.elim
                          · cases hini
          · have := ((switch_back E h.inv hi hf hd).2 hsw).resolve_left hneg
            exact h.empty hi hf hd x (this x hx)

theorem EmptyInv.cause {f : Bytes} {s : ApplyPatch} {w : World σ} (h : EmptyInv f s) (he : processOnce E s w = .error .uninit) :
    ShortRead E ∨ ∀ x, EmptyCrleSegment (f ++ x) := by
  unfold processOnce at he
  by_cases hd : s.state = .done
  · rw [if_pos hd] at he; cases he
  · rw [if_neg hd] at he
    have hsw : processSwitch E s w = .error .uninit := by
      cases hsw : processSwitch E s w with
      | error u => rw [hsw] at he; simp only [Bind.bind, Except.bind] at he; cases he; rfl
      | ok v =>
        rw [hsw] at he
        simp only [Bind.bind, Except.bind] at he
        split at he <;> cases he
    by_cases hf : s.state = .failed
    · simp only [processSwitch, hf] at hsw; cases hsw
    · by_cases hi : s.state = .init
      · obtain ⟨o, ho, _⟩ := init_switch h.inv hi w
        simp only [processSwitch, hi] at hsw
        rw [ho] at hsw
        cases hsw
      · exact ((switch_back E h.inv hi hf hd).1 hsw).imp id fun k x => h.empty hi hf hd x (k x)

/-! Overflow. -/

/-- `from_offset` is the position in the from-image. -/
structure PosInv (pos : σ → Int) (s : ApplyPatch) (w : World σ) : Prop where
  inv : SInv s
  pos : s.state ≠ .failed → s.fromOffset = pos w.arg

omit [Build] in
theorem wrapInt_id {x : Int} (h1 : -2 ^ 31 ≤ x) (h2 : x < 2 ^ 31) : wrapInt x = x := by
  unfold wrapInt
  omega

theorem unpack_from {s s' : ApplyPatch} {v : SizeRes} (h : s.unpackSize = .ok (v, s')) : s'.fromOffset = s.fromOffset ∧ s'.state = s.state := by
  unfold ApplyPatch.unpackSize at h
  split at h
  · cases h
  · simp only [Bind.bind, Except.bind] at h
    split at h
    · cases h
    · cases h; exact ⟨rfl, rfl⟩

/-- What a step says about the position. -/
theorem switch_pos {pos : σ → Int} (hE : HasPosition E pos) {s : ApplyPatch} {w : World σ} (hp : s.fromOffset = pos w.arg)
    (hf : s.state ≠ .failed) {res s' w'} (he : processSwitch E s w = .ok (res, s', w')) : res < 0 ∨ s'.fromOffset = pos w'.arg := by
  have same : ∀ {r : Int} {s1 : ApplyPatch}, (.ok (r, s1, w) : C (SeqRes σ)) = .ok (res, s', w') → s1.fromOffset = s.fromOffset → res < 0 ∨ s'.fromOffset = pos w'.arg := by
    intro r s1 h0 h1
    cases h0
    exact .inr (h1.trans hp)
  have hsize : ∀ next, processSize s w next = .ok (res, s', w') → res < 0 ∨ s'.fromOffset = pos w'.arg := by
    intro next he
    unfold processSize at he
    cases hu : s.unpackSize with
    | error u => rw [hu] at he; cases he
    | ok o =>
      obtain ⟨v, s1⟩ := o
      obtain ⟨f1, f2⟩ := unpack_from hu
      rw [hu] at he
      simp only [Bind.bind, Except.bind] at he
      cases v with
      | more => exact same he f1
      | fail e => exact same he f1
      | value v =>
        simp only at he
        split at he <;> exact same he f1
  have hdata : ∀ next diff, processData E s w next diff = .ok (res, s', w') → res < 0 ∨ s'.fromOffset = pos w'.arg := by
    intro next diff he
    unfold processData at he
    by_cases hz : min dataCap s.chunkSize = 0
    · simp only [hz, if_true] at he
      exact same he rfl
    · simp only [hz, if_false] at he
      cases hr : s.reader with
      | none => rw [hr] at he; cases he
      | some r =>
        rw [hr] at he
        simp only at he
        cases hd : r.decompress s.chunk dataCap (min dataCap s.chunkSize) with
        | error u => rw [hd] at he; cases he
        | ok o =>
          obtain ⟨d, r', c'⟩ := o
          rw [hd] at he
          simp only [Bind.bind, Except.bind] at he
          match d with
          | .more => exact same he rfl
          | .fail e => exact same he rfl
          | .ok to =>
            have hwr : ∀ {s1 : ApplyPatch} {w1 : World σ} {to : Bytes}, s1.fromOffset = pos w1.arg → processWrite E s1 w1 to = .ok (res, s', w') →
                res < 0 ∨ s'.fromOffset = pos w'.arg := by
              intro s1 w1 to h1 h2
              obtain ⟨_, _, g3, g4⟩ := write_frame E h2
              by_cases h0 : 0 ≤ res
              · right
                rw [g3, h1, hE.write (g4 h0)]
              · left; omega
            cases diff with
            | false =>
              simp only [Bool.false_eq_true, if_false] at he
              exact hwr (s1 := { s with reader := some r', chunk := c' }) hp he
            | true =>
              simp only [if_true] at he
              by_cases q1 : (E.fromRead w.arg to.length).1 = 0
              · rw [if_neg (by simpa using q1)] at he
                split at he
                · cases he
                · have hm := hE.read (arg := w.arg) (n := to.length) (data := (E.fromRead w.arg to.length).2.1)
                    (arg' := (E.fromRead w.arg to.length).2.2) (Prod.ext q1 rfl)
                  refine hwr (s1 := { s with reader := some r', chunk := c', fromOffset := _ }) (w1 := { arg := _, trace := _ }) ?_ he
                  simp only
                  have := hE.range (E.fromRead w.arg to.length).2.2
                  rw [hp, wrapInt_id (by omega) (by omega), hm]
              · rw [if_pos (by simpa using q1)] at he
                cases he
                exact .inl (by decide)
  unfold processSwitch at he
  cases hs : s.state with
  | init =>
    rw [hs] at he
    simp only [processInit] at he
    split at he
    · simp only [processInitFixedHeader, Bind.bind, Except.bind] at he
      split at he
      · cases he
      · split at he
        · exact same he rfl
        · split at he <;> exact same he rfl
    · simp only [processInitToSize, Bind.bind, Except.bind] at he
      split at he
      · cases he
      · split at he
        · exact same he rfl
        · exact same he rfl
        · split at he
          · exact same he rfl
          · split at he
            · exact same he rfl
            · split at he <;> exact same he rfl
  | dfpatchSize =>
    rw [hs] at he
    simp only [processDfpatchSize] at he
    cases hu : s.unpackSize with
    | error u => rw [hu] at he; cases he
    | ok o =>
      obtain ⟨v, s1⟩ := o
      obtain ⟨f1, f2⟩ := unpack_from hu
      rw [hu] at he
      simp only [Bind.bind, Except.bind] at he
      cases v with
      | more => exact same he f1
      | fail e => exact same he f1
      | value v =>
        simp only at he
        split at he <;> exact same he f1
  | diffSize => rw [hs] at he; exact hsize _ he
  | extraSize => rw [hs] at he; exact hsize _ he
  | diffData => rw [hs] at he; exact hdata _ _ he
  | extraData => rw [hs] at he; exact hdata _ _ he
  | adjustment =>
    rw [hs] at he
    simp only [processAdjustment] at he
    cases hu : s.unpackSize with
    | error u => rw [hu] at he; cases he
    | ok o =>
      obtain ⟨v, s1⟩ := o
      obtain ⟨f1, f2⟩ := unpack_from hu
      rw [hu] at he
      simp only [Bind.bind, Except.bind] at he
      cases v with
      | more => exact same he f1
      | fail e => exact same he f1
      | value v =>
        simp only at he
        by_cases q1 : (E.fromSeek w.arg v).1 = 0
        · rw [if_neg (by simpa using q1)] at he
          have hm := hE.seek (arg := w.arg) (off := v) (arg' := (E.fromSeek w.arg v).2) (Prod.ext q1 rfl)
          split at he
          · cases he
          · split at he
            · cases he; right; simp only; rw [f1, hp, hm]
            · cases he; right; simp only; rw [f1, hp, hm]
        · rw [if_pos (by simpa using q1)] at he
          cases he
          exact .inl (by decide)
  | done => rw [hs] at he; exact same he rfl
  | failed => exact absurd hs hf

theorem PosInv.once {pos : σ → Int} (hE : HasPosition E pos) {s : ApplyPatch} {w : World σ} (h : PosInv pos s w) {res s' w'}
    (he : processOnce E s w = .ok (res, s', w')) : PosInv pos s' w' := by
  refine ⟨once_inv E h.inv he, fun h2 => ?_⟩
  unfold processOnce at he
  by_cases hd : s.state = .done
  · rw [if_pos hd] at he
    cases he
    exact h.pos (by rw [hd]; decide)
  · rw [if_neg hd] at he
    cases hsw : processSwitch E s w with
    | error u => rw [hsw] at he; cases he
    | ok v =>
      obtain ⟨r1, s1, w1⟩ := v
      rw [hsw] at he
      simp only [Bind.bind, Except.bind] at he
      by_cases hneg : r1 < 0
      · rw [if_pos hneg] at he
        cases he
        exact absurd rfl h2
      · rw [if_neg hneg] at he
        cases he
        by_cases hf : s.state = .failed
        · simp only [processSwitch, hf] at hsw
          cases hsw
          exact absurd hf h2
        · exact (switch_pos hE (h.pos hf) hf hsw).resolve_left hneg

theorem PosInv.cause {pos : σ → Int} (hE : HasPosition E pos) {s : ApplyPatch} {w : World σ} (h : PosInv pos s w) :
    processOnce E s w ≠ .error .overflow := by
  intro he
  unfold processOnce at he
  by_cases hd : s.state = .done
  · rw [if_pos hd] at he; cases he
  · rw [if_neg hd] at he
    have hsw : processSwitch E s w = .error .overflow := by
      cases hsw : processSwitch E s w with
      | error u => rw [hsw] at he; simp only [Bind.bind, Except.bind] at he; cases he; rfl
      | ok v =>
        rw [hsw] at he
        simp only [Bind.bind, Except.bind] at he
        split at he <;> cases he
    by_cases hf : s.state = .failed
    · simp only [processSwitch, hf] at hsw; cases hsw
    · have hp := h.pos hf
      unfold processSwitch at hsw
      cases hs : s.state with
      | failed => exact hf hs
      | done => exact hd hs
      | init =>
        obtain ⟨o, ho, _⟩ := init_switch h.inv hs w
        simp only [hs] at hsw
        rw [ho] at hsw
        cases hsw
      | dfpatchSize =>
        rw [hs] at hsw
        rcases dfpatch_switch h.inv hs w with k | ⟨o, k, _⟩ <;> (rw [k] at hsw; cases hsw)
      | diffSize =>
        rw [hs] at hsw
        rcases size_switch h.inv hf (by rw [hs]; decide) (next := .diffData) rfl (by decide) (by decide) (by decide) w with k | ⟨o, k, _⟩ <;>
          (rw [k] at hsw; cases hsw)
      | extraSize =>
        rw [hs] at hsw
        rcases size_switch h.inv hf (by rw [hs]; decide) (next := .extraData) rfl (by decide) (by decide) (by decide) w with k | ⟨o, k, _⟩ <;>
          (rw [k] at hsw; cases hsw)
      | diffData =>
        rw [hs] at hsw
        rcases data_switch E h.inv (by rw [hs]; rfl) (next := .extraSize) (by rfl) (by decide) (by decide) (by decide) true w with k | ⟨o, k, _⟩ <;>
          (rw [k] at hsw; cases hsw)
      | extraData =>
        rw [hs] at hsw
        rcases data_switch E h.inv (by rw [hs]; rfl) (next := .adjustment) (by rfl) (by decide) (by decide) (by decide) false w with k | ⟨o, k, _⟩ <;>
          (rw [k] at hsw; cases hsw)
      | adjustment =>
        rw [hs] at hsw
        simp only [processAdjustment] at hsw
        rcases unpackSize_safe h.inv hf (by rw [hs]; decide) with k | ⟨⟨v, s1⟩, k, _⟩
        · rw [k] at hsw; cases hsw
        · obtain ⟨f1, f2⟩ := unpack_from k
          rw [k] at hsw
          simp only [Bind.bind, Except.bind] at hsw
          cases v with
          | more => cases hsw
          | fail e => cases hsw
          | value v =>
            simp only at hsw
            by_cases q1 : (E.fromSeek w.arg v).1 = 0
            · rw [if_neg (by simpa using q1)] at hsw
              have hm := hE.seek (arg := w.arg) (off := v) (arg' := (E.fromSeek w.arg v).2) (Prod.ext q1 rfl)
              have hrg := hE.range (E.fromSeek w.arg v).2
              rw [if_neg (by rw [f1, hp, ← hm]; omega)] at hsw
              split at hsw <;> cases hsw
            · rw [if_pos (by simpa using q1)] at hsw
              cases hsw

end Detools
