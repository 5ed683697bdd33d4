import Verif.Proofs.CSeqCauses
import Verif.Spec.CErrors
/-
Where the error codes of the sequential C API come from.
-/
namespace Detools

variable [Build]

/-! The header. -/

omit [Build] in
theorem bit7_iff (b : UInt8) : b &&& 0x80 ≠ 0 ↔ 128 ≤ b.toNat := by
  have : ∀ x : Fin 256, (UInt8.ofNat x.val &&& 0x80 ≠ 0 ↔ 128 ≤ (UInt8.ofNat x.val).toNat) := by decide +kernel
  have h := this ⟨b.toNat, b.toNat_lt⟩
  simpa using h

omit [Build] in
theorem type_iff (b : UInt8) : (b.toNat >>> 4) &&& 0x7 = 0 ↔ TypeSequential b := by
  unfold TypeSequential
  rw [show (0x7 : Nat) = 2 ^ 3 - 1 from rfl, Nat.and_two_pow_sub_one_eq_mod, Nat.shiftRight_eq_div_pow]

omit [Build] in
theorem hdr_more : ∀ (x : Bytes) (acc : SizeAcc) (j : Nat), acc.Inv →
    (acc.state = .consecutive → acc.offset = 6 + 7 * j) → (acc.state = .first → j = 0) → ∀ {a}, hdrRun acc x = .more a →
    (if acc.state = .first then x.length ≤ 4 else x.length + j ≤ 3) ∧ ∀ b ∈ x, 128 ≤ b.toNat := by
  intro x
  induction x with
  | nil =>
    intro acc j hi hc hf a h
    refine ⟨?_, fun b hb => by cases hb⟩
    cases hs : acc.state with
    | first => simp
    | consecutive =>
      have := hc hs
      have := (hi hs).2.1
      simp only [reduceCtorEq, if_false, List.length_nil]
      omega
  | cons b t ih =>
    intro acc j hi hc hf a h
    simp only [hdrRun] at h
    cases hs : acc.state with
    | first =>
      by_cases hb : b &&& 0x80 = 0
      · simp only [headerSizeByte, hs, hb, ne_eq, not_true, if_false] at h
        cases h
      · simp only [headerSizeByte, hs, hb, ne_eq, not_false_iff, if_true] at h
        have h63 : b.toNat &&& 0x3f < 2 ^ 6 := by
          have : b.toNat &&& 63 ≤ 63 := Nat.and_le_right
          omega
        obtain ⟨k1, k2⟩ := ih _ 0 (fun _ => ⟨rfl, by show 6 ≤ 27; omega, h63⟩) (fun _ => rfl) (fun _ => rfl) h
        simp only [reduceCtorEq, if_false] at k1
        refine ⟨by simp only [if_true, List.length_cons]; omega, fun c hc => ?_⟩
        rcases List.mem_cons.1 hc with rfl | hc
        · exact (bit7_iff _).1 hb
        · exact k2 c hc
    | consecutive =>
      have ho := hc hs
      by_cases hov : isOverflow acc.offset
      · simp only [headerSizeByte, hs, hov, if_true] at h
        cases h
      · rcases headerSizeByte_cases hi b with ⟨acc', f1, f2⟩ | ⟨acc', v, f1, f2, f3, f4⟩ | ⟨acc', f1, f2⟩
        · have g := f1
          rw [f1] at h
          simp only [headerSizeByte, hs, hov, Bool.false_eq_true, if_false, Bind.bind, Except.bind] at g
          split at g
          · cases g
          · by_cases hb : b &&& 0x80 = 0
            · simp only [hb, ne_eq, not_true, if_false] at g
              cases g
            · simp only [hb, ne_eq, not_false_iff, if_true] at g
              cases g
              obtain ⟨k1, k2⟩ := ih _ (j + 1) f2 (fun _ => by show acc.offset + 7 = _; omega) (fun h => by simp only [hs] at h; cases h) h
              simp only [hs, reduceCtorEq, if_false] at k1
              refine ⟨by simp only [reduceCtorEq, if_false, List.length_cons]; omega, fun c hc => ?_⟩
              rcases List.mem_cons.1 hc with rfl | hc
              · exact (bit7_iff _).1 hb
              · exact k2 c hc
        · rw [f1] at h; cases h
        · rw [f1] at h; cases h

omit [Build] in
theorem hdr_fail : ∀ (x : Bytes) (acc : SizeAcc) (j : Nat), acc.Inv →
    (acc.state = .consecutive → acc.offset = 6 + 7 * j) → (acc.state = .first → j = 0) → hdrRun acc x = .fail →
    ∃ n, (n = if acc.state = .first then 4 else 3 - j) ∧ n < x.length ∧ ∀ b ∈ x.take n, 128 ≤ b.toNat := by
  intro x
  induction x with
  | nil => intro acc j hi hc hf h; cases h
  | cons b t ih =>
    intro acc j hi hc hf h
    simp only [hdrRun] at h
    cases hs : acc.state with
    | first =>
      by_cases hb : b &&& 0x80 = 0
      · simp only [headerSizeByte, hs, hb, ne_eq, not_true, if_false] at h
        cases h
      · simp only [headerSizeByte, hs, hb, ne_eq, not_false_iff, if_true] at h
        have h63 : b.toNat &&& 0x3f < 2 ^ 6 := by
          have : b.toNat &&& 63 ≤ 63 := Nat.and_le_right
          omega
        obtain ⟨n, k0, k1, k2⟩ := ih _ 0 (fun _ => ⟨rfl, by show 6 ≤ 27; omega, h63⟩) (fun _ => rfl) (fun _ => rfl) h
        simp only [reduceCtorEq, if_false, Nat.sub_zero] at k0
        subst k0
        refine ⟨4, rfl, by simp only [List.length_cons]; omega, fun c hc => ?_⟩
        rcases List.mem_cons.1 (by simpa using hc) with rfl | hc
        · exact (bit7_iff _).1 hb
        · exact k2 c hc
    | consecutive =>
      have ho := hc hs
      have hj := (hi hs).2.1
      by_cases hov : isOverflow acc.offset
      · have h3 : 3 - j = 0 := by
          simp only [isOverflow, decide_eq_true_eq] at hov
          omega
        refine ⟨0, by simp [h3], by simp, fun c hc => by simp at hc⟩
      · rcases headerSizeByte_cases hi b with ⟨acc', f1, f2⟩ | ⟨acc', v, f1, f2, f3, f4⟩ | ⟨acc', f1, f2⟩
        · have g := f1
          rw [f1] at h
          simp only [headerSizeByte, hs, hov, Bool.false_eq_true, if_false, Bind.bind, Except.bind] at g
          split at g
          · cases g
          · by_cases hb : b &&& 0x80 = 0
            · simp only [hb, ne_eq, not_true, if_false] at g
              cases g
            · simp only [hb, ne_eq, not_false_iff, if_true] at g
              cases g
              obtain ⟨n, k0, k1, k2⟩ := ih _ (j + 1) f2 (fun _ => by show acc.offset + 7 = _; omega) (fun h => by simp only [hs] at h; cases h) h
              simp only [hs, reduceCtorEq, if_false] at k0
              have hj2 : j < 3 := by
                simp only [isOverflow, decide_eq_true_eq] at hov
                omega
              refine ⟨n + 1, by simp only [reduceCtorEq, if_false]; omega, by simp only [List.length_cons]; omega, fun c hc => ?_⟩
              rcases List.mem_cons.1 (by simpa using hc) with rfl | hc
              · exact (bit7_iff _).1 hb
              · exact k2 c hc
        · rw [f1] at h; cases h
        · exfalso
          have g := f1
          simp only [headerSizeByte, hs, hov, Bool.false_eq_true, if_false, Bind.bind, Except.bind] at g
          split at g
          · cases g
          · split at g <;> cases g

omit [Build] in
theorem hdr_unfinished {x : Bytes} {a : SizeAcc} (h : hdrRun {} x = .more a) : SizeUnfinished x := by
  obtain ⟨k1, k2⟩ := hdr_more x {} 0 (fun h => by cases h) (fun h => by cases h) (fun _ => rfl) h
  exact ⟨by simpa using k1, k2⟩

omit [Build] in
theorem hdr_tooLong {x : Bytes} (h : hdrRun {} x = .fail) : SizeTooLong x := by
  obtain ⟨n, k0, k1, k2⟩ := hdr_fail x {} 0 (fun h => by cases h) (fun h => by cases h) (fun _ => rfl) h
  simp only [if_true] at k0
  subst k0
  exact ⟨k1, k2⟩

/-! The CRLE reader. -/

def CCrle.bad : CCrle → Bytes → Prop
  | .idle, inp => CrleBadKind 0 inp
  | .scatteredSize u, inp => ∃ v rest, crleUnpackSize u.start.value u.start.offset inp = some (v, rest) ∧ CrleBadKind v rest
  | .scatteredData k, inp => CrleBadKind k inp
  | .repeatedRepetitions u, inp => ∃ v b r, crleUnpackSize u.start.value u.start.offset inp = some (v, b :: r) ∧ CrleBadKind 0 r
  | .repeatedData _, inp => ∃ b r, inp = b :: r ∧ CrleBadKind 0 r
  | .repeatedDataRead _ _, inp => CrleBadKind 0 inp

omit [Build] in
theorem CrleBadKind.lits {k : Nat} {r : Bytes} (h : CrleBadKind k r) : ∀ (d : Bytes), CrleBadKind (d.length + k) (d ++ r)
  | [] => by simpa using h
  | b :: d => by
    have := (CrleBadKind.lits h d).lit (b := b)
    simpa [Nat.add_right_comm] using this

omit [Build] in
theorem crleStep_fail {s : CCrle} {c : Chunk} (hc : c.Inv) {cap size : Nat} {e s' c'}
    (h : crleStep s c cap size = .ok (some (.fail e), s', c')) :
    e = CORRUPT_PATCH_OVERFLOW ∨ (e = CORRUPT_PATCH_CRLE_KIND ∧ ∀ x, s.bad (c.rest ++ x)) := by
  cases s with
  | idle =>
    simp only [crleStep, Bind.bind, Except.bind] at h
    cases hr : c.rest with
    | nil => rw [c.get_nil hc hr] at h; cases h
    | cons b t =>
      obtain ⟨hg, ht, hc'⟩ := c.get_cons hc hr
      rw [hg] at h
      simp only at h
      split at h
      · cases h
      · split at h
        · cases h
        · rename_i h0 h1
          cases h
          exact .inr ⟨rfl, fun x => .here h0 h1⟩
  | scatteredSize u =>
    simp only [crleStep, Bind.bind, Except.bind] at h
    split at h
    · cases h
    · split at h
      · cases h
      · cases h
      · cases h
        exact .inl (unpackUsizeLoop_code _ _ _ (by simpa [unpackUsizeC] using ‹unpackUsizeC _ _ = _›))
  | repeatedRepetitions u =>
    simp only [crleStep, Bind.bind, Except.bind] at h
    split at h
    · cases h
    · split at h
      · cases h
      · cases h
      · cases h
        exact .inl (unpackUsizeLoop_code _ _ _ (by simpa [unpackUsizeC] using ‹unpackUsizeC _ _ = _›))
  | scatteredData k =>
    simp only [crleStep, Bind.bind, Except.bind] at h
    split at h
    · cases h
    · split at h <;> cases h
  | repeatedData k =>
    simp only [crleStep, Bind.bind, Except.bind] at h
    split at h
    · cases h
    · split at h <;> cases h
  | repeatedDataRead v k =>
    simp only [crleStep] at h
    split at h <;> cases h

omit [Build] in
theorem crleStep_bad {s : CCrle} {c : Chunk} (hs : s.Inv) (hc : c.Inv) {cap size : Nat} (h2 : size ≤ cap) {o s' c'}
    (h : crleStep s c cap size = .ok (o, s', c')) : (∃ e, o = some (.fail e)) ∨ ∀ x, s'.bad (c'.rest ++ x) → s.bad (c.rest ++ x) := by
  cases s with
  | idle =>
    simp only [crleStep, Bind.bind, Except.bind] at h
    cases hr : c.rest with
    | nil =>
      rw [c.get_nil hc hr] at h
      cases h
      exact .inr fun x hx => by rw [hr] at hx; exact hx
    | cons b t =>
      obtain ⟨hg, ht, hc'⟩ := c.get_cons hc hr
      rw [hg] at h
      simp only at h
      split at h
      · rename_i hb
        cases h
        refine .inr fun x => ?_
        rw [ht, hb]
        rintro ⟨v, rest, g1, g2⟩
        exact .scattered g1 g2
      · split at h
        · rename_i hb
          cases h
          refine .inr fun x => ?_
          rw [ht, hb]
          rintro ⟨v, b, r, g1, g2⟩
          exact .repeated g1 g2
        · cases h
          exact .inl ⟨_, rfl⟩
  | scatteredSize u =>
    obtain ⟨i1, i2, i3⟩ := USize.start_inv (u := u) hs
    simp only [crleStep, Bind.bind, Except.bind, unpackUsizeC_eq] at h
    split at h
    · cases h
    · rename_i v hv
      obtain ⟨r, c1, u1⟩ := v
      have hb := usizeLoop_back _ _ _ hc i1 i2 hv
      cases r with
      | value v =>
        cases h
        obtain ⟨g1, g2, g3, g4⟩ := hb
        have hz : szOfInt v = v.toNat := by unfold szOfInt; omega
        refine .inr fun x hx => ⟨_, _, g4 x, ?_⟩
        rw [← hz]
        exact hx
      | more =>
        cases h
        obtain ⟨g1, g2, g3, g4, g5⟩ := hb
        refine .inr fun x hx => ?_
        obtain ⟨v, rest, k1, k2⟩ := hx
        have hst : u1.start = u1 := by unfold USize.start; rw [g3]
        rw [g1, hst] at k1
        exact ⟨v, rest, by rw [g5]; exact k1, k2⟩
      | fail e => cases h; exact .inl ⟨_, rfl⟩
  | repeatedRepetitions u =>
    obtain ⟨i1, i2, i3⟩ := USize.start_inv (u := u) hs
    simp only [crleStep, Bind.bind, Except.bind, unpackUsizeC_eq] at h
    split at h
    · cases h
    · rename_i v hv
      obtain ⟨r, c1, u1⟩ := v
      have hb := usizeLoop_back _ _ _ hc i1 i2 hv
      cases r with
      | value v =>
        cases h
        obtain ⟨g1, g2, g3, g4⟩ := hb
        refine .inr fun x hx => ?_
        obtain ⟨b, r, k1, k2⟩ := hx
        exact ⟨_, b, r, by rw [g4 x, k1], k2⟩
      | more =>
        cases h
        obtain ⟨g1, g2, g3, g4, g5⟩ := hb
        refine .inr fun x hx => ?_
        obtain ⟨v, b, r, k1, k2⟩ := hx
        have hst : u1.start = u1 := by unfold USize.start; rw [g3]
        rw [g1, hst] at k1
        exact ⟨v, b, r, by rw [g5]; exact k1, k2⟩
      | fail e => cases h; exact .inl ⟨_, rfl⟩
  | scatteredData left =>
    simp only [crleStep, Bind.bind, Except.bind] at h
    by_cases hr : c.rest = []
    · rw [c.read_nil hc hr] at h
      cases h
      exact .inr fun x hx => hx
    · obtain ⟨c1, e1, e2, e3⟩ := c.read_cons hc hr (n := min size left) (cap := cap) (by omega)
      rw [e1] at h
      cases h
      have hlen : (c.rest.take (min size left)).length = min (min size left) c.rest.length := by simp
      have hsplit : ∀ x, c.rest ++ x = c.rest.take (min size left) ++ (c'.rest ++ x) := by
        intro x
        rw [e2, ← List.append_assoc, List.take_append_drop]
      refine .inr fun x hx => ?_
      rw [hsplit]
      split at hx
      · have := CrleBadKind.lits (k := 0) hx (c.rest.take (min size left))
        rwa [show (c.rest.take (min size left)).length + 0 = left by omega] at this
      · have := CrleBadKind.lits hx (c.rest.take (min size left))
        rwa [show (c.rest.take (min size left)).length + (left - (c.rest.take (min size left)).length) = left by omega] at this
  | repeatedData left =>
    simp only [crleStep, Bind.bind, Except.bind] at h
    cases hr : c.rest with
    | nil =>
      rw [c.get_nil hc hr] at h
      cases h
      exact .inr fun x hx => by rw [hr] at hx; exact hx
    | cons b t =>
      obtain ⟨hg, ht, hc'⟩ := c.get_cons hc hr
      rw [hg] at h
      cases h
      refine .inr fun x hx => ?_
      rw [ht] at hx
      exact ⟨b, t ++ x, rfl, hx⟩
  | repeatedDataRead v left =>
    simp only [crleStep] at h
    split at h
    · cases h
    · cases h
      refine .inr fun x hx => ?_
      split at hx
      · exact hx
      · exact hx

omit [Build] in
theorem crleLoop_errs {cap size : Nat} (h1 : 1 ≤ size) (h2 : size ≤ cap) : ∀ (fuel : Nat) {s : CCrle} {c : Chunk} {d s' c'}, s.Inv → c.Inv →
    crleDecompressLoop fuel s c cap size = .ok (d, s', c') →
    (∃ e, d = .fail e ∧ (e = CORRUPT_PATCH_OVERFLOW ∨ (e = CORRUPT_PATCH_CRLE_KIND ∧ ∀ x, s.bad (c.rest ++ x)))) ∨
      ((∀ e, d ≠ .fail e) ∧ ∀ x, s'.bad (c'.rest ++ x) → s.bad (c.rest ++ x)) := by
  intro fuel
  induction fuel with
  | zero => intro s c d s' c' _ _ h; cases h
  | succ fuel ih =>
    intro s c d s' c' hs hc h
    unfold crleDecompressLoop at h
    cases hst : crleStep s c cap size with
    | error u => rw [hst] at h; cases h
    | ok v =>
      obtain ⟨o, s1, c1⟩ := v
      have hb := crleStep_bad hs hc h2 hst
      rw [hst] at h
      simp only [Bind.bind, Except.bind] at h
      cases o with
      | some r =>
        cases h
        by_cases hf : ∃ e, d = .fail e
        · obtain ⟨e, rfl⟩ := hf
          exact .inl ⟨e, rfl, crleStep_fail hc hst⟩
        · refine .inr ⟨fun e he => hf ⟨e, he⟩, hb.resolve_left fun ⟨e, he⟩ => hf ⟨e, by cases he; rfl⟩⟩
      | none =>
        simp only at h
        have hb := hb.resolve_left fun ⟨e, he⟩ => by cases he
        rcases crleStep_back hs hc h1 h2 hst with ⟨e, he⟩ | ⟨b1, b2, -, -⟩
        · cases he
        · rcases ih b1 b2 h with ⟨e, he, k⟩ | ⟨k1, k2⟩
          · exact .inl ⟨e, he, k.imp id fun k => ⟨k.1, fun x => hb x (k.2 x)⟩⟩
          · exact .inr ⟨k1, fun x hx => hb x (k2 x hx)⟩

/-! All readers. -/

/-- The reader is of this compression. -/
def CReader.kind : CReader → Nat
  | .raw .. => 0
  | .lzma _ => 1
  | .crle _ => 2
  | .heatshrink _ => 4

/-- With this input to come, the reader may fail with its own error. -/
def CReader.errs : CReader → Int → Bytes → Prop
  | .raw .., _, _ => False
  | .lzma _, e, _ => e = LZMA_DECODE ∧ ∃ L st input room, Build.lzma = some L ∧ (L.code st input room).good = false
  | .crle s, e, inp => e = CORRUPT_PATCH_CRLE_KIND ∧ s.bad inp
  | .heatshrink none, e, inp => e = HEATSHRINK_HEADER ∧ ∃ b t, inp = b :: t ∧ b ≠ 0x44
  | .heatshrink (some _), _, _ => False

omit [Build] in
theorem lzmaLoop_bad (L : LzmaLib) : ∀ (fuel : Nat) (s : CLzma) (c : Chunk) (size : Nat) {e s' c'},
    lzmaLoop L fuel s c size = .ok (.fail e, s', c') → ∃ st input room, (L.code st input room).good = false := by
  intro fuel
  induction fuel with
  | zero => intro s c size e s' c' h; cases h
  | succ n ih =>
    intro s c size e s' c' h
    unfold lzmaLoop at h
    simp only [Bind.bind, Except.bind] at h
    split at h
    · cases h
    · rename_i hst
      split at h
      · cases h
        unfold lzmaStep at hst
        split at hst
        · simp only at hst
          split at hst
          · cases hst
          · injection hst with hst
            injection hst with hst _
            exact ⟨_, _, _, hst⟩
        · cases hst
      · split at h
        · cases h
        · split at h
          · cases h
          · split at h
            · cases h
            · exact ih _ _ _ h

omit [Build] in
theorem hsLoop_noFail {hh : Hsd} (hi : HInv hsStatic hh) {c : Chunk} (hc : c.Inv) {size : Nat} (h1 : 1 ≤ size) {e h' c'} :
    hsDecompressLoop (c.left + 1) hh c size [] ≠ .ok (.fail e, h', c') := by
  intro h
  obtain ⟨h2, c2, _, _, k⟩ := hsDecompressLoop_spec (size := size) (c.left + 1) hh c [] hi hc (by rw [c.left_eq hc]; omega)
    (by simp only [List.length_nil]; omega)
  rcases k with ⟨d, k, _⟩ | ⟨k, _⟩ <;> (rw [k] at h; cases h)

omit [Build] in
theorem hsHeader_44 (b : UInt8) : hsHeader b ≠ (hsStatic.window, hsStatic.lookahead) ↔ b ≠ 0x44 := by
  have : ∀ x : Fin 256, (hsHeader (UInt8.ofNat x.val) ≠ (hsStatic.window, hsStatic.lookahead) ↔ UInt8.ofNat x.val ≠ 0x44) := by decide +kernel
  have h := this ⟨b.toNat, b.toNat_lt⟩
  simpa using h

theorem dec_errs {r : CReader} (hr : r.Safe) {c : Chunk} (hc : c.Inv) {cap size : Nat} (h1 : 1 ≤ size) (h2 : size ≤ cap) {d r' c'}
    (h : r.decompress c cap size = .ok (d, r', c')) :
    r'.kind = r.kind ∧
    ((∃ e, d = .fail e ∧ (e = CORRUPT_PATCH ∨ e = CORRUPT_PATCH_OVERFLOW ∨ ∀ x, r.errs e (c.rest ++ x))) ∨
      ((∀ e, d ≠ .fail e) ∧ ∀ e x, r'.errs e (c'.rest ++ x) → r.errs e (c.rest ++ x))) := by
  cases r with
  | raw p o =>
    simp only [CReader.decompress, noneDecompress, Bind.bind, Except.bind] at h
    split at h
    · cases h; exact ⟨rfl, .inl ⟨_, rfl, .inl rfl⟩⟩
    · split at h
      · cases h
      · split at h <;> (cases h; exact ⟨rfl, .inr ⟨(fun e he => by cases he), fun e x hx => hx.elim⟩⟩)
  | lzma s =>
    simp only [CReader.decompress] at h
    split at h
    · cases h
    · rename_i L hL
      simp only [Bind.bind, Except.bind] at h
      split at h
      · cases h
      · rename_i v hv
        obtain ⟨d1, s1, c1⟩ := v
        cases h
        refine ⟨rfl, ?_⟩
        by_cases hf : ∃ e, d1 = DRes.fail e
        · obtain ⟨e, rfl⟩ := hf
          refine .inl ⟨e, rfl, .inr (.inr fun x => ⟨lzmaDecompress_code hv, ?_⟩)⟩
          unfold lzmaDecompress at hv
          split at hv
          · cases hv
          · split at hv
            · cases hv
            · obtain ⟨st, input, room, k⟩ := lzmaLoop_bad L _ _ _ _ hv
              exact ⟨L, st, input, room, hL, k⟩
        · exact .inr ⟨fun e he => hf ⟨e, he⟩, fun e x hx => hx⟩
  | crle s =>
    simp only [CReader.decompress, Bind.bind, Except.bind] at h
    split at h
    · cases h
    · rename_i v hv
      obtain ⟨d1, s1, c1⟩ := v
      cases h
      refine ⟨rfl, ?_⟩
      rcases crleLoop_errs h1 h2 _ hr hc hv with ⟨e, he, k⟩ | ⟨k1, k2⟩
      · refine .inl ⟨e, he, k.elim (fun k => .inr (.inl k)) fun k => .inr (.inr fun x => ⟨k.1, k.2 x⟩)⟩
      · exact .inr ⟨k1, fun e x hx => ⟨hx.1, k2 x hx.2⟩⟩
  | heatshrink hh =>
    simp only [CReader.decompress, Bind.bind, Except.bind] at h
    split at h
    · cases h
    · rename_i v hv
      obtain ⟨d1, s1, c1⟩ := v
      cases h
      refine ⟨rfl, ?_⟩
      unfold hsDecompress at hv
      rw [if_neg (by omega)] at hv
      cases hh with
      | some hd =>
        simp only [Bind.bind, Except.bind] at hv
        split at hv
        · cases hv
        · rename_i v hv2
          obtain ⟨d2, h2', c2⟩ := v
          cases hv
          exact .inr ⟨(fun e he => by subst he; exact hsLoop_noFail hr hc h1 hv2), fun e x hx => hx⟩
      | none =>
        simp only [Bind.bind, Except.bind] at hv
        cases hrest : c.rest with
        | nil =>
          rw [c.get_nil hc hrest] at hv
          cases hv
          exact .inr ⟨(fun e he => by cases he), fun e x hx => by rw [hrest] at hx; exact hx⟩
        | cons b t =>
          obtain ⟨hg, ht, hc1⟩ := c.get_cons hc hrest
          rw [hg] at hv
          simp only at hv
          by_cases hb : hsHeader b ≠ (hsStatic.window, hsStatic.lookahead)
          · rw [if_pos hb] at hv
            cases hv
            exact .inl ⟨_, rfl, .inr (.inr fun x => ⟨rfl, b, t ++ x, rfl, (hsHeader_44 b).1 hb⟩)⟩
          · rw [if_neg hb] at hv
            split at hv
            · cases hv
            · rename_i v hv2
              obtain ⟨d2, h2', c2⟩ := v
              cases hv
              exact .inr ⟨(fun e he => by subst he; exact hsLoop_noFail hsReset_inv hc1 h1 hv2), fun e x hx => hx.elim⟩

/-! A size. -/

/-- The errors of a reader: common ones, or its own. -/
def CReader.FailsWith (r : CReader) (c : Chunk) (e : Int) : Prop :=
  e = CORRUPT_PATCH ∨ e = CORRUPT_PATCH_OVERFLOW ∨ ∀ x, r.errs e (c.rest ++ x)

theorem unpackSizeC_errs : ∀ (fuel : Nat) (r : CReader) (c : Chunk) (acc : SizeAcc), r.Safe → c.Inv →
    ∀ {v r' c' a'}, unpackSizeC fuel r c acc = .ok (v, r', c', a') → r'.kind = r.kind ∧
      ((∃ e, v = .fail e ∧ r.FailsWith c e) ∨ ((∀ e, v ≠ .fail e) ∧ ∀ e x, r'.errs e (c'.rest ++ x) → r.errs e (c.rest ++ x))) := by
  intro fuel
  induction fuel with
  | zero => intro r c acc _ _ v r' c' a' h; cases h
  | succ fuel ih =>
    intro r c acc hr hc v r' c' a' h
    unfold unpackSizeC at h
    obtain ⟨⟨d, r1, c1⟩, e1, e2⟩ := dec_safe hr hc (cap := 1) (size := 1) (by omega) (by omega) (by omega)
    obtain ⟨hk, hb⟩ := dec_errs hr hc (cap := 1) (size := 1) (by omega) (by omega) e1
    rw [e1] at h
    simp only [Bind.bind, Except.bind] at h
    match d, e2, hb with
    | .more, _, .inr hb => cases h; exact ⟨hk, .inr ⟨(fun e he => by cases he), hb.2⟩⟩
    | .more, _, .inl ⟨e, he, _⟩ => cases he
    | .fail e, _, .inl ⟨e', he, hb'⟩ => cases he; cases h; exact ⟨hk, .inl ⟨_, rfl, hb'⟩⟩
    | .fail e, _, .inr hb => exact absurd rfl (hb.1 e)
    | .ok [], _, _ => cases h
    | .ok (byte :: t), _, .inl ⟨e, he, _⟩ => cases he
    | .ok (byte :: t), ⟨g1, g2, g3, g4⟩, .inr hb =>
      simp only at h
      cases hsb : sizeByte acc byte with
      | error u => rw [hsb] at h; cases h
      | ok o =>
        obtain ⟨a1, o⟩ := o
        rw [hsb] at h
        cases o with
        | some v1 =>
          cases h
          refine ⟨hk, ?_⟩
          cases v with
          | value v => exact .inr ⟨(fun e he => by cases he), hb.2⟩
          | more => exact .inr ⟨(fun e he => by cases he), hb.2⟩
          | fail e =>
            refine .inl ⟨e, rfl, .inr (.inl ?_)⟩
            unfold sizeByte at hsb
            simp only [Bind.bind, Except.bind] at hsb
            split at hsb
            · split at hsb <;> cases hsb
            · split at hsb
              · cases hsb; rfl
              · split at hsb
                · cases hsb
                · split at hsb <;> cases hsb
        | none =>
          simp only at h
          obtain ⟨k0, k⟩ := ih r1 c1 a1 g1 g2 h
          refine ⟨k0.trans hk, ?_⟩
          rcases k with ⟨e, he, k⟩ | ⟨k1, k2⟩
          · refine .inl ⟨e, he, ?_⟩
            rcases k with k | k | k
            · exact .inl k
            · exact .inr (.inl k)
            · exact .inr (.inr fun x => hb.2 e x (k x))
          · exact .inr ⟨k1, fun e x hx => hb.2 e x (k2 e x hx)⟩

/-! One step. -/

def ApplyPatch.errs (s : ApplyPatch) (e : Int) (x : Bytes) : Prop := ∃ r, s.reader = some r ∧ r.errs e (s.chunk.rest ++ x)

def ApplyPatch.kind (s : ApplyPatch) : Option Nat := s.reader.map CReader.kind

/-- The errors of a step in the body of the patch. -/
def BodyCode (s : ApplyPatch) (e : Int) : Prop :=
  e = NOT_IMPLEMENTED ∨ e = CORRUPT_PATCH ∨ e = CORRUPT_PATCH_OVERFLOW ∨ e = IO_FAILED ∨ ∀ x, s.errs e x

/-- What a step in the body of the patch says. -/
def StepErrs (s : ApplyPatch) (res : Int) (s' : ApplyPatch) : Prop :=
  s'.kind = s.kind ∧ s'.toSize = s.toSize ∧
    ((res < 0 ∧ BodyCode s res) ∨ (0 ≤ res ∧ ∀ e x, s'.errs e x → s.errs e x))

theorem unpack_errs {s : ApplyPatch} (h : SInv s) (h1 : s.state ≠ .failed) (h2 : s.state ≠ .init) {v s'} (he : s.unpackSize = .ok (v, s')) :
    s'.kind = s.kind ∧ s'.toSize = s.toSize ∧
      ((∃ e, v = .fail e ∧ e < 0 ∧ BodyCode s e) ∨ ((∀ e, v ≠ .fail e) ∧ ∀ e x, s'.errs e x → s.errs e x)) := by
  have hsafe := unpackSize_safe h h1 h2
  obtain ⟨hc, hrs, hr⟩ := h.live h1
  obtain ⟨r, hr1, hr2⟩ := hr h2
  have hneg : ∀ e, v = .fail e → e < 0 := by
    intro e hv
    rcases hsafe with k | ⟨o, k, ho⟩
    · rw [k] at he; cases he
    · rw [k] at he
      cases he
      subst hv
      cases ho with
      | fail g => exact g.neg.1
  unfold ApplyPatch.unpackSize at he
  rw [hr1] at he
  simp only [patchReaderUnpackSize] at he
  cases hu : unpackSizeC 6 r s.chunk s.readerSize with
  | error u => rw [hu] at he; cases he
  | ok o =>
    obtain ⟨v1, r', c', a'⟩ := o
    rw [hu] at he
    obtain ⟨k0, k⟩ := unpackSizeC_errs 6 r s.chunk s.readerSize hr2 hc hu
    cases he
    refine ⟨by simp only [ApplyPatch.kind, hr1, Option.map_some, k0], rfl, ?_⟩
    rcases k with ⟨e, rfl, k⟩ | ⟨k1, k2⟩
    · refine .inl ⟨e, rfl, hneg e rfl, ?_⟩
      rcases k with k | k | k
      · exact .inr (.inl k)
      · exact .inr (.inr (.inl k))
      · exact .inr (.inr (.inr (.inr fun x => ⟨r, hr1, k x⟩)))
    · refine .inr ⟨k1, fun e x hx => ?_⟩
      obtain ⟨r2, g1, g2⟩ := hx
      cases g1
      exact ⟨r, hr1, k2 e x g2⟩

omit [Build] in
theorem write_frame2 (E : SeqEnv σ) {s : ApplyPatch} {w : World σ} {to : Bytes} {res s' w'} (h : processWrite E s w to = .ok (res, s', w')) :
    s'.reader = s.reader ∧ s'.chunk = s.chunk ∧ s'.toSize = s.toSize ∧ (res = 0 ∨ res = IO_FAILED) := by
  unfold processWrite at h
  simp only at h
  split at h
  · cases h; exact ⟨rfl, rfl, rfl, .inr rfl⟩
  · cases h; exact ⟨rfl, rfl, rfl, .inl rfl⟩

theorem data_errs (E : SeqEnv σ) {s : ApplyPatch} {w : World σ} (h : SInv s) (h1 : s.state ≠ .failed) (h2 : s.state ≠ .init) (next : SeqPhase) (diff : Bool)
    {res s' w'} (he : processData E s w next diff = .ok (res, s', w')) : StepErrs s res s' := by
  obtain ⟨hc, hrs, hr⟩ := h.live h1
  obtain ⟨r, hr1, hr2⟩ := hr h2
  unfold processData at he
  by_cases hz : min dataCap s.chunkSize = 0
  · simp only [hz, if_true] at he
    cases he
    exact ⟨rfl, rfl, .inr ⟨by decide, fun e x hx => hx⟩⟩
  · simp only [hz, if_false, hr1] at he
    obtain ⟨⟨d, r', c'⟩, e1, e2⟩ := dec_safe hr2 hc (cap := dataCap) (size := min dataCap s.chunkSize) (by omega)
      (Nat.min_le_left ..) (by decide)
    obtain ⟨hk, hb⟩ := dec_errs hr2 hc (by omega) (Nat.min_le_left ..) e1
    rw [e1] at he
    simp only [Bind.bind, Except.bind] at he
    have lift : (∀ e x, r'.errs e (c'.rest ++ x) → r.errs e (s.chunk.rest ++ x)) → ∀ {s1 : ApplyPatch}, s1.reader = some r' → s1.chunk = c' →
        ∀ e x, s1.errs e x → s.errs e x := by
      intro hk s1 q1 q2 e x hx
      obtain ⟨r2, g1, g2⟩ := hx
      rw [q1] at g1
      cases g1
      rw [q2] at g2
      exact ⟨r, hr1, hk e x g2⟩
    have kd : ∀ {s1 : ApplyPatch}, s1.reader = some r' → s1.kind = s.kind := by
      intro s1 q1
      simp only [ApplyPatch.kind, q1, hr1, Option.map_some, hk]
    have wr : (∀ e x, r'.errs e (c'.rest ++ x) → r.errs e (s.chunk.rest ++ x)) → ∀ {s1 : ApplyPatch} {w1 : World σ} {to : Bytes}, s1.reader = some r' →
        s1.chunk = c' → s1.toSize = s.toSize → processWrite E s1 w1 to = .ok (res, s', w') → StepErrs s res s' := by
      intro hb s1 w1 to q1 q2 q3 hw
      obtain ⟨f1, f2, f3, f4⟩ := write_frame2 E hw
      refine ⟨kd (f1.trans q1), f3.trans q3, ?_⟩
      rcases f4 with rfl | rfl
      · exact .inr ⟨by decide, lift hb (f1.trans q1) (f2.trans q2)⟩
      · exact .inl ⟨by decide, .inr (.inr (.inr (.inl rfl)))⟩
    match d, e2, hb with
    | .fail e, e2, .inl ⟨e', he', hb⟩ =>
      cases he'
      cases he
      refine ⟨kd rfl, rfl, .inl ⟨e2.1.neg.1, ?_⟩⟩
      rcases hb with k | k | k
      · exact .inr (.inl k)
      · exact .inr (.inr (.inl k))
      · exact .inr (.inr (.inr (.inr fun x => ⟨r, hr1, k x⟩)))
    | .fail e, _, .inr hb => exact absurd rfl (hb.1 e)
    | .more, _, .inl ⟨e, he, _⟩ => cases he
    | .ok to, _, .inl ⟨e, he, _⟩ => cases he
    | .more, _, .inr hb => cases he; exact ⟨kd rfl, rfl, .inr ⟨by decide, lift hb.2 rfl rfl⟩⟩
    | .ok to, _, .inr hb =>
      cases diff with
      | false =>
        simp only [Bool.false_eq_true, if_false] at he
        exact wr hb.2 (s1 := { s with reader := some r', chunk := c' }) rfl rfl rfl he
      | true =>
        simp only [if_true] at he
        split at he
        · cases he
          exact ⟨kd rfl, rfl, .inl ⟨by decide, .inr (.inr (.inr (.inl rfl)))⟩⟩
        · split at he
          · cases he
          · exact wr hb.2 (s1 := { s with reader := some r', chunk := c', fromOffset := _ }) rfl rfl rfl he

theorem switch_errs (E : SeqEnv σ) {s : ApplyPatch} {w : World σ} (h : SInv s) (h1 : s.state ≠ .init) (h2 : s.state ≠ .failed) (h3 : s.state ≠ .done)
    {res s' w'} (he : processSwitch E s w = .ok (res, s', w')) : StepErrs s res s' := by
  have size : ∀ {next}, processSize s w next = .ok (res, s', w') → StepErrs s res s' := by
    intro next he
    unfold processSize at he
    cases hu : s.unpackSize with
    | error u => rw [hu] at he; cases he
    | ok o =>
      obtain ⟨v, s1⟩ := o
      obtain ⟨k0, k1, k⟩ := unpack_errs h h2 h1 hu
      rw [hu] at he
      simp only [Bind.bind, Except.bind] at he
      rcases k with ⟨e, rfl, k2, k3⟩ | ⟨k2, k3⟩
      · cases he; exact ⟨k0, k1, .inl ⟨k2, k3⟩⟩
      · cases v with
        | fail e => exact absurd rfl (k2 e)
        | more => cases he; exact ⟨k0, k1, .inr ⟨by decide, k3⟩⟩
        | value v =>
          simp only at he
          split at he
          · cases he; exact ⟨k0, k1, .inl ⟨by decide, .inr (.inl rfl)⟩⟩
          · cases he; exact ⟨k0, k1, .inr ⟨by decide, k3⟩⟩
  unfold processSwitch at he
  rcases SeqPhase.body_cases h1 h2 h3 with hs | hs | hs | hs | hs | hs <;> rw [hs] at he <;> simp only at he
  · unfold processDfpatchSize at he
    cases hu : s.unpackSize with
    | error u => rw [hu] at he; cases he
    | ok o =>
      obtain ⟨v, s1⟩ := o
      obtain ⟨k0, k1, k⟩ := unpack_errs h h2 h1 hu
      rw [hu] at he
      simp only [Bind.bind, Except.bind] at he
      rcases k with ⟨e, rfl, k2, k3⟩ | ⟨k2, k3⟩
      · cases he; exact ⟨k0, k1, .inl ⟨k2, k3⟩⟩
      · cases v with
        | fail e => exact absurd rfl (k2 e)
        | more => cases he; exact ⟨k0, k1, .inr ⟨by decide, k3⟩⟩
        | value v =>
          simp only at he
          split at he
          · cases he; exact ⟨k0, k1, .inl ⟨by decide, .inl rfl⟩⟩
          · cases he; exact ⟨k0, k1, .inr ⟨by decide, k3⟩⟩
  · exact size he
  · exact data_errs E h h2 h1 _ _ he
  · exact size he
  · exact data_errs E h h2 h1 _ _ he
  · unfold processAdjustment at he
    cases hu : s.unpackSize with
    | error u => rw [hu] at he; cases he
    | ok o =>
      obtain ⟨v, s1⟩ := o
      obtain ⟨k0, k1, k⟩ := unpack_errs h h2 h1 hu
      rw [hu] at he
      simp only [Bind.bind, Except.bind] at he
      rcases k with ⟨e, rfl, k2, k3⟩ | ⟨k2, k3⟩
      · cases he; exact ⟨k0, k1, .inl ⟨k2, k3⟩⟩
      · cases v with
        | fail e => exact absurd rfl (k2 e)
        | more => cases he; exact ⟨k0, k1, .inr ⟨by decide, k3⟩⟩
        | value v =>
          simp only at he
          split at he
          · cases he; exact ⟨k0, k1, .inl ⟨by decide, .inr (.inr (.inr (.inl rfl)))⟩⟩
          · split at he
            · cases he
            · split at he
              · cases he; exact ⟨k0, k1, .inr ⟨by decide, k3⟩⟩
              · cases he; exact ⟨k0, k1, .inr ⟨by decide, k3⟩⟩

/-! Histories. -/

omit [Build] in
theorem nibble (b : UInt8) : b.toNat &&& 0xf = b.toNat % 16 := Nat.and_two_pow_sub_one_eq_mod b.toNat 4

theorem reader_init_some {P c : Nat} {r : CReader} (h : CReader.init P c = some r) :
    r.kind = c ∧ BuiltIn c ∧ ∀ e inp, r.errs e inp → DecoderError c inp e := by
  unfold CReader.init at h
  split at h
  · rename_i hc
    cases h
    exact ⟨hc.symm, .inl hc, fun e inp he => he.elim⟩
  · split at h
    · rename_i hc
      cases h
      refine ⟨hc.symm, .inr (.inl hc), fun e inp he => ?_⟩
      obtain ⟨rfl, he⟩ := he
      exact .crle hc he
    · split at h
      · rename_i hc
        cases h
        refine ⟨hc.symm, .inr (.inr (.inl hc)), fun e inp he => ?_⟩
        obtain ⟨rfl, b, t, h1, h2⟩ := he
        exact .heatshrink hc h1 h2
      · split at h
        · rename_i hc
          cases hL : Build.lzma with
          | none => rw [hL] at h; cases h
          | some L =>
            rw [hL] at h
            cases h
            refine ⟨hc.symm, .inr (.inr (.inr ⟨hc, by rw [hL]; simp⟩)), fun e inp he => ?_⟩
            obtain ⟨rfl, L, st, input, room, h1, h2⟩ := he
            exact .lzma hc h1 h2
        · cases h

theorem reader_init_none {P c : Nat} (h : CReader.init P c = none) : ¬ BuiltIn c := by
  unfold CReader.init at h
  split at h
  · cases h
  · split at h
    · cases h
    · split at h
      · cases h
      · rename_i h0 h2 h4
        rintro (h' | h' | h' | ⟨h', h1⟩)
        · exact h0 h'
        · exact h2 h'
        · exact h4 h'
        · rw [if_pos h'] at h
          cases hL : Build.lzma with
          | none => exact h1 hL
          | some L => rw [hL] at h; cases h

/-- `f` is everything given to process: what it says about the state and the errors to come. -/
structure ErrInv (f : Bytes) (s : ApplyPatch) : Prop where
  inv : SInv s
  ht : HT s f
  type : s.state ≠ .failed → (s.state = .init → s.initState = .toSize) → ∃ b t, f = b :: t ∧ TypeSequential b
  size : s.state ≠ .init → s.state ≠ .failed → s.state ≠ .done → 0 < s.toSize
  built : s.state ≠ .init → s.state ≠ .failed → BuiltIn s.compression
  errs : s.state ≠ .init → s.state ≠ .failed → s.state ≠ .done → ∀ {b t a body}, f = b :: t → hdrRun {} t = .value s.toSize a body →
    ∀ e x, s.errs e x → DecoderError s.compression (body ++ x) e

theorem ErrInv.head {f : Bytes} {s : ApplyPatch} (h : ErrInv f s) (h1 : s.state ≠ .init) (h2 : s.state ≠ .failed) :
    ∃ body, SeqHead f s.compression s.toSize body ∧ (s.state ≠ .done → ∀ e, (∀ x, s.errs e x) → DecoderError s.compression body e) := by
  obtain ⟨b, t, a, body, k1, rfl, k2⟩ := (HT.body h1 h2).1 h.ht
  obtain ⟨b', t', hb, hty⟩ := h.type h2 fun h => absurd h h1
  cases hb
  obtain ⟨v, len, q1, q2, q3⟩ := hdrRun_value k2
  refine ⟨body, ⟨b, t, v, len, rfl, hty, by rw [k1, nibble], q1, q2, q3⟩, fun h3 e he => ?_⟩
  have := h.errs h1 h2 h3 rfl k2 e [] (he [])
  rwa [List.append_nil] at this

theorem ErrInv.failed {f : Bytes} {s : ApplyPatch} (hi : SInv s) (h : s.state = .failed) : ErrInv f s :=
  ⟨hi, HT.failed h, fun k => absurd h k, fun _ k => absurd h k, fun _ k => absurd h k, fun _ k => absurd h k⟩

/-- What a step says. -/
def OnceErrs (f : Bytes) (s : ApplyPatch) (res : Int) (s' : ApplyPatch) : Prop :=
  (res = ALREADY_DONE ∧ s.state = .done ∧ s' = s) ∨ (res = ALREADY_FAILED ∧ s.state = .failed ∧ s' = s) ∨
  (res < 0 ∧ res ≠ ALREADY_DONE ∧ s'.state = .failed ∧ (Refused f res ∨ (f = [] ∧ s.chunk.rest = [] ∧ res = SHORT_HEADER))) ∨
  ((res = 0 ∨ res = 1) ∧ s'.state ≠ .failed ∧ (res = 1 → s'.state ≠ .done ∧ (s'.state = .init → s'.initState = .toSize)))

/-- The steps in the header. -/
theorem init_errs (E : SeqEnv σ) {f : Bytes} {s : ApplyPatch} {w : World σ} (h : ErrInv f s) (hs : s.state = .init) {res s' w'}
    (he : processOnce E s w = .ok (res, s', w')) : ErrInv f s' ∧ OnceErrs f s res s' ∧ w' = w := by
  have hinv := once_inv E h.inv he
  have hht := (once_ht E h.inv h.ht he).1
  obtain ⟨hc, -, -⟩ := h.inv.live (by rw [hs]; decide)
  have ht := h.ht
  simp only [HT, hs] at ht
  unfold processOnce at he
  rw [if_neg (by rw [hs]; decide)] at he
  simp only [processSwitch, hs, processInit] at he
  cases hi : s.initState with
  | fixedHeader =>
    simp only [hi] at he ht
    obtain ⟨rfl, hsz⟩ := ht
    cases hr : s.chunk.rest with
    | nil =>
      simp only [processInitFixedHeader, s.chunk.get_nil hc hr, Bind.bind, Except.bind] at he
      rw [if_pos (by decide)] at he
      cases he
      exact ⟨.failed hinv rfl, .inr (.inr (.inl ⟨by decide, by decide, rfl, .inr ⟨rfl, hr, rfl⟩⟩)), rfl⟩
    | cons b t =>
      obtain ⟨f1, f2, f3⟩ := s.chunk.get_cons hc hr
      simp only [processInitFixedHeader, f1, Bind.bind, Except.bind] at he
      by_cases hty : (b.toNat >>> 4) &&& 0x7 = 0
      · simp only [hty, ne_eq, not_true, if_false] at he
        rw [if_neg (by decide)] at he
        cases he
        rw [hr] at hht
        refine ⟨⟨hinv, hht, fun _ _ => ⟨b, t, rfl, (type_iff b).1 hty⟩, fun k => absurd hs k, fun k => absurd hs k, fun k => absurd hs k⟩, ?_, rfl⟩
        exact .inr (.inr (.inr ⟨.inl rfl, by show s.state ≠ .failed; rw [hs]; decide, fun h => by cases h⟩))
      · simp only [hty, ne_eq, not_false_iff, if_true] at he
        rw [if_pos (by decide)] at he
        cases he
        exact ⟨.failed hinv rfl, .inr (.inr (.inl ⟨by decide, by decide, rfl, .inl (.type rfl fun k => hty ((type_iff b).2 k))⟩)), rfl⟩
  | toSize =>
    simp only [hi] at he ht
    obtain ⟨b, t, hcb, hf, hmore⟩ := ht
    obtain ⟨b', t', hb, hty⟩ := h.type (by rw [hs]; decide) fun _ => hi
    rw [hb] at hf
    injection hf with hbb htt
    subst hbb
    subst htt
    subst hb
    obtain ⟨out, q1, q2⟩ := headerSize_run (s.chunk.left + 1) s.chunk s.size hc h.inv.size (by rw [s.chunk.left_eq hc]; omega)
    simp only [processInitToSize, q1, Bind.bind, Except.bind] at he
    have happ : hdrRun {} (t ++ s.chunk.rest) = hdrRun s.size s.chunk.rest := by
      rw [hdrRun_append, hmore]
    cases hrun : hdrRun s.size s.chunk.rest with
    | more a =>
      rw [hrun] at q2
      obtain ⟨c', rfl, g1, g2⟩ := q2
      simp only at he
      rw [if_neg (by decide)] at he
      cases he
      refine ⟨⟨hinv, hht, fun _ _ => ⟨b', _, rfl, hty⟩, fun k => absurd hs k, fun k => absurd hs k, fun k => absurd hs k⟩, ?_, rfl⟩
      refine .inr (.inr (.inr ⟨.inr rfl, by show s.state ≠ .failed; rw [hs]; decide, fun _ => ⟨by show s.state ≠ .done; rw [hs]; decide, fun _ => hi⟩⟩))
    | fail =>
      rw [hrun] at q2
      obtain ⟨c', a, rfl⟩ := q2
      simp only at he
      rw [if_pos (by decide)] at he
      cases he
      exact ⟨.failed hinv rfl, .inr (.inr (.inl ⟨by decide, by decide, rfl, .inl (.headerSize rfl hty (hdr_tooLong (by rw [happ, hrun])))⟩)), rfl⟩
    | value v a t' =>
      rw [hrun] at q2
      obtain ⟨c', rfl, g1, g2, g3⟩ := q2
      have hvlt := hdrRun_inv s.chunk.rest s.size h.inv.size
      rw [hrun] at hvlt
      have hv : szOfInt (v : Int) = v := by unfold szOfInt; omega
      have hval : hdrRun {} (t ++ s.chunk.rest) = .value v a t' := by rw [happ, hrun]
      obtain ⟨wv, k, p1, p2, p3⟩ := hdrRun_value hval
      simp only at he
      cases hin : CReader.init (szOfInt ((s.patchSize : Int) - c'.offset)) s.compression with
      | none =>
        rw [hin] at he
        simp only at he
        rw [if_pos (by decide)] at he
        cases he
        refine ⟨.failed hinv rfl, .inr (.inr (.inl ⟨by decide, by decide, rfl, .inl ?_⟩)), rfl⟩
        exact .compression ⟨b', _, wv, k, rfl, hty, by rw [hcb, nibble], p1, p2, p3⟩ (reader_init_none hin)
      | some r =>
        obtain ⟨r1, r2, r3⟩ := reader_init_some hin
        rw [hin] at he
        simp only at he
        rw [if_neg (by omega), hv] at he
        by_cases hvpos : (v : Int) > 0
        · rw [if_pos hvpos] at he
          simp only at he
          rw [if_neg (by decide)] at he
          cases he
          refine ⟨⟨hinv, hht, fun _ _ => ⟨b', _, rfl, hty⟩, fun _ _ _ => by show 0 < v; omega, fun _ _ => r2, fun _ _ _ => ?_⟩, ?_, rfl⟩
          · intro b t1 a1 body hb1 hrun1 e x hx
            cases hb1
            have hrun1 : hdrRun {} (t ++ s.chunk.rest) = .value v a1 body := hrun1
            rw [hval] at hrun1
            cases hrun1
            obtain ⟨r', e1, e2⟩ := hx
            cases e1
            have e2 : r.errs e (c'.rest ++ x) := e2
            rw [g2] at e2
            exact r3 e _ e2
          · exact .inr (.inr (.inr ⟨.inl rfl, (fun h => by cases h), fun h => by cases h⟩))
        · rw [if_neg hvpos] at he
          simp only at he
          rw [if_neg (by decide)] at he
          cases he
          refine ⟨⟨hinv, hht, fun _ _ => ⟨b', _, rfl, hty⟩, fun _ _ k => absurd rfl k, fun _ _ => r2, fun _ _ k => absurd rfl k⟩, ?_, rfl⟩
          exact .inr (.inr (.inr ⟨.inl rfl, (fun h => by cases h), fun h => by cases h⟩))

theorem once_errs (E : SeqEnv σ) {f : Bytes} {s : ApplyPatch} {w : World σ} (h : ErrInv f s) {res s' w'}
    (he : processOnce E s w = .ok (res, s', w')) : ErrInv f s' ∧ OnceErrs f s res s' := by
  by_cases hs : s.state = .init
  · exact ⟨(init_errs E h hs he).1, (init_errs E h hs he).2.1⟩
  have hinv := once_inv E h.inv he
  have hht := (once_ht E h.inv h.ht he).1
  have hcomp := once_comp E hs he
  rcases once_ok E h.inv w with (e | e) | ⟨out', e, ho⟩
  · rw [e] at he; cases he
  · rw [e] at he; cases he
  have he0 := he
  rw [e] at he
  cases he
  by_cases hd : s.state = .done
  · cases ho with
    | done => exact ⟨h, .inl ⟨rfl, hd, rfl⟩⟩
    | ok _ g => exact absurd hd g
    | more g => exact absurd hd g
    | already g => rw [g] at hd; cases hd
    | fail g => exact absurd hd g
    | io _ _ g => exact absurd hd g
  · by_cases hf : s.state = .failed
    · cases ho with
      | done => exact absurd ‹_› hd
      | ok _ _ g => exact absurd hf g
      | more _ g => exact absurd hf g
      | already => exact ⟨h, .inr (.inl ⟨rfl, hf, rfl⟩)⟩
      | fail _ g => exact absurd hf g
      | io _ _ _ g => exact absurd hf g
    · obtain ⟨body, hh, hde⟩ := h.head hs hf
      unfold processOnce at he0
      rw [if_neg hd] at he0
      cases hsw : processSwitch E s w with
      | error u => rw [hsw] at he0; cases he0
      | ok o =>
        obtain ⟨r1, s1, w1⟩ := o
        obtain ⟨k0, k1, k⟩ := switch_errs E h.inv hs hf hd hsw
        rw [hsw] at he0
        simp only [Bind.bind, Except.bind] at he0
        rcases k with ⟨k2, k3⟩ | ⟨k2, k3⟩
        · rw [if_pos k2] at he0
          cases he0
          have hnd : res ≠ ALREADY_DONE := by
            cases ho with
            | done g => exact absurd g hd
            | already => decide
            | fail _ _ _ _ g => exact g
            | io => decide
            | ok => decide
            | more => decide
          refine ⟨.failed hinv rfl, .inr (.inr (.inl ⟨k2, hnd, rfl, .inl (.body hh (h.built hs hf) (h.size hs hf hd) ?_)⟩))⟩
          rcases k3 with k | k | k | k | k
          · exact .inl k
          · exact .inr (.inl k)
          · exact .inr (.inr (.inl k))
          · exact .inr (.inr (.inr (.inl k)))
          · exact .inr (.inr (.inr (.inr (hde hd _ k))))
        · rw [if_neg (by omega)] at he0
          cases he0
          have hres : (res = 0 ∨ res = 1) ∧ s'.state ≠ .failed ∧ (res = 1 → s'.state = s.state) := by
            cases ho with
            | done g => exact absurd g hd
            | already g => exact absurd g hf
            | fail _ _ _ g => omega
            | io => exact absurd k2 (by decide)
            | ok _ _ _ _ _ _ g => exact ⟨.inl rfl, g, fun h => by cases h⟩
            | more _ _ _ _ g => exact ⟨.inr rfl, by rw [g]; exact hf, fun _ => g⟩
          obtain ⟨hr1, hr2, hr3⟩ := hres
          have hni : s'.state ≠ .init := by
            rcases hr1 with rfl | rfl
            · exact switch_init E h.inv e hs
            · rw [hr3 rfl]; exact hs
          refine ⟨⟨hinv, hht, fun _ _ => h.type hf fun g => absurd g hs, fun _ _ _ => by rw [k1]; exact h.size hs hf hd,
            fun _ _ => by rw [hcomp]; exact h.built hs hf, fun _ _ _ => ?_⟩, .inr (.inr (.inr ⟨hr1, hr2, fun g => ⟨by rw [hr3 g]; exact hd, fun g => absurd g hni⟩⟩))⟩
          intro b t a body hb hrun e x hx
          rw [k1] at hrun
          rw [hcomp]
          exact h.errs hs hf hd hb hrun e x (k3 e x hx)

theorem ErrInv.chunk {f : Bytes} {s : ApplyPatch} (h : ErrInv f s) (ha : AtRest s) (p : Bytes) (po : Nat) :
    ErrInv (f ++ p) { s with patchOffset := po, chunk := { buf := p, offset := 0 } } := by
  refine ⟨h.inv.setChunk, HT.setRest h.inv h.ht ha p po, fun h1 h2 => ?_, h.size, h.built, fun h1 h2 h3 => ?_⟩
  · obtain ⟨b, t, k1, k2⟩ := h.type h1 h2
    exact ⟨b, t ++ p, by rw [k1]; rfl, k2⟩
  · intro b t a body hb hrun e x hx
    have hr : s.chunk.rest = [] := by
      rcases ha with ha | ha | ha
      · exact absurd ha h3
      · exact absurd ha h2
      · exact ha
    obtain ⟨b0, t0, a0, body0, k1, rfl, k2⟩ := (HT.body (s := s) h1 h2).1 h.ht
    simp only [List.cons_append, List.cons.injEq] at hb
    obtain ⟨rfl, rfl⟩ := hb
    simp only at hrun
    rw [hdrRun_append, k2] at hrun
    cases hrun
    rw [List.append_assoc]
    refine h.errs h1 h2 h3 rfl k2 e (p ++ x) ?_
    obtain ⟨r, g1, g2⟩ := hx
    refine ⟨r, g1, ?_⟩
    rw [hr]
    exact g2

/-! Calls. -/

/-- What holds of a return value and the state in the loop of process; `s0` is the state before. -/
def LoopErrs (f : Bytes) (s0 : ApplyPatch) (res : Int) (s : ApplyPatch) : Prop :=
  ((res = 0 ∨ res = 1) ∧ (s.state = .failed → s0.state = .failed)) ∨ (res = ALREADY_DONE ∧ s.state = .done) ∨
  (res = ALREADY_FAILED ∧ s0.state = .failed) ∨ (res < 0 ∧ res ≠ ALREADY_DONE ∧ Refused f res)

theorem loop_errs (E : SeqEnv σ) {f : Bytes} {s0 : ApplyPatch} : ∀ (fuel : Nat) (res : Int) (s : ApplyPatch) (w : World σ), ErrInv f s → LoopErrs f s0 res s →
    ∀ {res' s' w'}, processLoop E fuel res s w = .ok (res', s', w') → LoopErrs f s0 res' s'
  | 0, _, _, _, _, _, _, _, _, h => by cases h
  | fuel + 1, res, s, w, hi, hl, res', s', w', h => by
    unfold processLoop at h
    by_cases hc : s.chunk.available = true ∧ res ≥ 0
    · rw [if_pos hc] at h
      cases ho : processOnce E s w with
      | error u => rw [ho] at h; cases h
      | ok o =>
        obtain ⟨r1, s1, w1⟩ := o
        rw [ho] at h
        obtain ⟨g1, g2⟩ := once_errs E hi ho
        refine loop_errs E fuel r1 s1 w1 g1 ?_ h
        have hs0 : s.state = .failed → s0.state = .failed := by
          rcases hl with k | k | k | k
          · exact k.2
          · rw [k.1] at hc; exact absurd hc.2 (by decide)
          · rw [k.1] at hc; exact absurd hc.2 (by decide)
          · omega
        rcases g2 with ⟨rfl, k2, rfl⟩ | ⟨rfl, k2, rfl⟩ | ⟨k1, k2, k3, k4⟩ | ⟨k1, k2, k3⟩
        · exact .inr (.inl ⟨rfl, k2⟩)
        · exact .inr (.inr (.inl ⟨rfl, hs0 k2⟩))
        · rcases k4 with k4 | ⟨k4, k5, k6⟩
          · exact .inr (.inr (.inr ⟨k1, k2, k4⟩))
          · exfalso
            by_cases hf : s.state = .failed
            · unfold processOnce at ho
              rw [if_neg (by rw [hf]; decide)] at ho
              simp only [processSwitch, hf, Bind.bind, Except.bind] at ho
              rw [if_pos (by decide)] at ho
              cases ho
              exact absurd k6 (by decide)
            · have := hc.1
              rw [s.chunk.available_eq (hi.inv.live hf).1, k5] at this
              simp at this
        · exact .inl ⟨k1, fun g => absurd g k2⟩
    · rw [if_neg hc] at h
      cases h
      exact hl

theorem process_errs (E : SeqEnv σ) {f : Bytes} {s : ApplyPatch} {w : World σ} (h : ErrInv f s) (ha : AtRest s) {p : Bytes} {r s' w'}
    (he : applyPatchProcess E s w p = .ok (r, s', w')) : ErrInv (f ++ p) s' ∧ AtRest s' ∧
      (s'.state = .failed → s.state = .failed ∨ r < 0) ∧
      (r = 0 ∨ (r < 0 ∧ (Refused (f ++ p) r ∨ (r = ALREADY_FAILED ∧ s.state = .failed)))) := by
  have h1 := h.chunk ha p (sz (s.patchOffset + p.length))
  unfold applyPatchProcess at he
  simp only at he
  have hst : ({ s with patchOffset := sz (s.patchOffset + p.length), chunk := { buf := p, offset := 0 } } : ApplyPatch).state = s.state := rfl
  generalize ({ s with patchOffset := sz (s.patchOffset + p.length), chunk := { buf := p, offset := 0 } } : ApplyPatch) = s0 at *
  obtain ⟨-, k2⟩ := loop_cause (E := E) (P := fun f s _ => ErrInv f s) (f := f ++ p) (fun h => h.inv) (fun h ho => (once_errs E h ho).1)
    s0.fuel 0 s0 w h1 (fun h => absurd rfl h)
  cases hl : processLoop E s0.fuel 0 s0 w with
  | error u => rw [hl] at he; cases he
  | ok o =>
    obtain ⟨r1, s1, w1⟩ := o
    obtain ⟨g1, g2⟩ := k2 hl
    have g3 := loop_errs E (s0 := s0) s0.fuel 0 s0 w h1 (.inl ⟨.inl rfl, id⟩) hl
    rw [hl] at he
    simp only [Bind.bind, Except.bind] at he
    have hs1 : s1 = s' := by split at he <;> (cases he; rfl)
    subst hs1
    rw [← hst]
    refine ⟨g1, g2, ?_⟩
    rcases g3 with ⟨k1 | k1, k2⟩ | ⟨k1, k2⟩ | ⟨k1, k2⟩ | ⟨k1, k2, k3⟩
    · rw [k1, if_neg (by decide)] at he
      cases he
      exact ⟨fun g => .inl (k2 g), .inl rfl⟩
    · rw [k1, if_pos (by decide)] at he
      cases he
      exact ⟨fun g => .inl (k2 g), .inl rfl⟩
    · rw [k1, if_pos (by decide)] at he
      cases he
      exact ⟨(fun g => by rw [k2] at g; cases g), .inl rfl⟩
    · rw [k1, if_neg (by decide)] at he
      cases he
      exact ⟨fun g => .inl k2, .inr ⟨by decide, .inr ⟨rfl, k2⟩⟩⟩
    · rw [if_neg (by omega)] at he
      cases he
      exact ⟨fun g => .inr k1, .inr ⟨k1, .inl k3⟩⟩

theorem finLoop_errs (E : SeqEnv σ) {f : Bytes} {s0 : ApplyPatch} : ∀ (fuel : Nat) (s : ApplyPatch) (w : World σ), ErrInv f s → (s.state = .failed → s0.state = .failed) →
    ∀ {res' s' w'}, finalizeLoop E fuel s w = .ok (res', s', w') → ∃ s1, (s1.state = .failed → s0.state = .failed) ∧ OnceErrs f s1 res' s' ∧ res' ≠ 0
  | 0, _, _, _, _, _, _, _, h => by cases h
  | fuel + 1, s, w, hi, hl, res', s', w', h => by
    unfold finalizeLoop at h
    cases ho : processOnce E s w with
    | error u => rw [ho] at h; cases h
    | ok o =>
      obtain ⟨r1, s1, w1⟩ := o
      rw [ho] at h
      simp only [Bind.bind, Except.bind] at h
      obtain ⟨g1, g2⟩ := once_errs E hi ho
      by_cases h0 : r1 = 0
      · rw [if_pos h0] at h
        refine finLoop_errs E fuel s1 w1 g1 ?_ h
        subst h0
        rcases g2 with ⟨k, _⟩ | ⟨k, _⟩ | ⟨k, _⟩ | ⟨_, k, _⟩
        · exact absurd k (by decide)
        · exact absurd k (by decide)
        · omega
        · exact fun g => absurd g k
      · rw [if_neg h0] at h
        cases h
        exact ⟨s, hl, g2, h0⟩

omit [Build] in
theorem commonFinalize_neg {r : Int} (h1 : r < 0) (h2 : r ≠ ALREADY_DONE) (rd : Option CReader) (n : Nat) : commonFinalize r rd n = r := by
  have h3 : r ≠ 1 := by omega
  have h0 : r ≠ 0 := by omega
  cases rd <;> simp only [commonFinalize, h3, h2, h0, if_false]

omit [Build] in
theorem commonFinalize_more (rd : Option CReader) (n : Nat) : commonFinalize 1 rd n = NOT_ENOUGH_PATCH_DATA := by
  have h2 : NOT_ENOUGH_PATCH_DATA ≠ ALREADY_DONE := by decide
  have h0 : NOT_ENOUGH_PATCH_DATA ≠ 0 := by decide
  cases rd <;> simp only [commonFinalize, h2, h0, if_false, if_true]

omit [Build] in
theorem commonFinalize_done (rd : CReader) (n : Nat) : commonFinalize ALREADY_DONE (some rd) n = if rd.destroy = 0 then wrapInt n else rd.destroy := by
  have h1 : ALREADY_DONE ≠ 1 := by decide
  simp only [commonFinalize, h1, if_false, if_true]

theorem finalize_errs (E : SeqEnv σ) {f : Bytes} {s : ApplyPatch} {w : World σ} (h : ErrInv f s) (ha : AtRest s) {r s' w'}
    (he : applyPatchFinalize E s w = .ok (r, s', w')) : ErrInv f s' ∧ AtRest s' ∧
      (s'.state = .failed → s.state = .failed ∨ r < 0) ∧
      ((0 ≤ r ∧ ∃ c body, SeqHead f c r.toNat body ∧ BuiltIn c) ∨
        (r < 0 ∧ (Means f .finalize r ∨ (r = ALREADY_FAILED ∧ s.state = .failed)))) := by
  have h1 := h.chunk ha [] s.patchOffset
  rw [List.append_nil] at h1
  have hs1' : ({ s with chunk := { buf := [], offset := 0 } } : ApplyPatch) = { s with patchOffset := s.patchOffset, chunk := { buf := [], offset := 0 } } := rfl
  unfold applyPatchFinalize at he
  simp only [hs1'] at he
  have hst : ({ s with patchOffset := s.patchOffset, chunk := { buf := [], offset := 0 } } : ApplyPatch).state = s.state := rfl
  generalize ({ s with patchOffset := s.patchOffset, chunk := { buf := [], offset := 0 } } : ApplyPatch) = s0 at *
  obtain ⟨-, k2⟩ := floop_cause (E := E) (P := fun f s _ => ErrInv f s) (f := f) (fun h => h.inv) (fun h ho => (once_errs E h ho).1)
    s0.fuel s0 w h1
  cases hl : finalizeLoop E s0.fuel s0 w with
  | error u => rw [hl] at he; cases he
  | ok o =>
    obtain ⟨r1, s1, w1⟩ := o
    obtain ⟨g1, g2⟩ := k2 hl
    obtain ⟨s2, g3, g4, g5⟩ := finLoop_errs E (s0 := s0) s0.fuel s0 w h1 id hl
    rw [hl] at he
    simp only [Bind.bind, Except.bind] at he
    cases he
    refine ⟨g1, g2, ?_⟩
    rw [← hst]
    rcases g4 with ⟨rfl, k2, rfl⟩ | ⟨rfl, k2, rfl⟩ | ⟨k1, k2, k3, k4⟩ | ⟨k1, k2, k3⟩
    · have hni : s'.state ≠ .init := by rw [k2]; decide
      have hnf : s'.state ≠ .failed := by rw [k2]; decide
      obtain ⟨body, hh, -⟩ := g1.head hni hnf
      have hb := g1.built hni hnf
      have hw : wrapInt (s'.toSize : Int) = s'.toSize := by
        have : s'.toSize < 2 ^ 27 := g1.inv.toSz
        exact wrapInt_id (by omega) (by omega)
      refine ⟨fun g => absurd g hnf, ?_⟩
      obtain ⟨rd, hrd, -⟩ := (g1.inv.live hnf).2.2 hni
      show (0 ≤ commonFinalize ALREADY_DONE s'.reader s'.toSize ∧ _) ∨ (commonFinalize ALREADY_DONE s'.reader s'.toSize < 0 ∧ _)
      rw [hrd, commonFinalize_done, hw]
      rcases destroy_code rd with hd | hd
      · rw [hd]
        simp only [if_true]
        refine .inl ⟨by omega, _, body, ?_, hb⟩
        simpa using hh
      · rw [hd, if_neg (by decide)]
        exact .inr ⟨by decide, .inl (.leftOver hh hb)⟩
    · have hcf := commonFinalize_neg (r := ALREADY_FAILED) (by decide) (by decide) s'.reader s'.toSize
      rw [hcf]
      exact ⟨fun _ => .inl (g3 k2), .inr ⟨by decide, .inr ⟨rfl, g3 k2⟩⟩⟩
    · have hcf := commonFinalize_neg k1 k2 s'.reader s'.toSize
      rw [hcf]
      refine ⟨fun _ => .inr k1, .inr ⟨k1, .inl ?_⟩⟩
      rcases k4 with k4 | ⟨k4, _, rfl⟩
      · exact .refused k4
      · exact .empty k4
    · have hr1 : r1 = 1 := k1.resolve_left g5
      subst hr1
      obtain ⟨k4, k5⟩ := k3 rfl
      have hcf := commonFinalize_more s'.reader s'.toSize
      rw [hcf]
      refine ⟨fun _ => .inr (by decide), .inr ⟨by decide, .inl (.unfinished ?_)⟩⟩
      by_cases hi : s'.state = .init
      · have ht := g1.ht
        obtain ⟨b', t', hb, hty⟩ := g1.type k2 k5
        simp only [HT, hi, k5 hi] at ht
        obtain ⟨b, t, -, hf, hmore⟩ := ht
        have hrest : s'.chunk.rest = [] := by
          rcases g2 with g | g | g
          · rw [hi] at g; cases g
          · rw [hi] at g; cases g
          · exact g
        rw [hrest, List.append_nil] at hf
        rw [hb] at hf
        cases hf
        exact .header hb hty (hdr_unfinished hmore)
      · obtain ⟨body, hh, -⟩ := g1.head hi k2
        exact .body hh (g1.built hi k2) (g1.size hi k2 k4)

theorem ErrInv.start (P : Nat) : ErrInv [] (applyPatchInit P) :=
  ⟨SInv.start P, ⟨rfl, rfl⟩, (fun _ h => by cases h rfl), fun h => absurd rfl h, fun h => absurd rfl h, fun h => absurd rfl h⟩

theorem Explained.mono : ∀ {calls : List Call} {rs : List Int} {p q : Prop} {f : Bytes}, (p → q) → Explained p f calls rs → Explained q f calls rs
  | [], [], _, _, _, _, _ => trivial
  | [], _ :: _, _, _, _, _, h => h.elim
  | .process _ :: _, [], _, _, _, _, h => h.elim
  | .finalize :: _, [], _, _, _, _, h => h.elim
  | .process _ :: _, _ :: _, _, _, _, hp, h =>
    ⟨h.1.imp id fun k => ⟨k.1, k.2.imp id fun k => ⟨k.1, hp k.2⟩⟩, Explained.mono (Or.imp hp id) h.2⟩
  | .finalize :: _, _ :: _, _, _, _, hp, h =>
    ⟨h.1.imp id fun k => ⟨k.1, k.2.imp id fun k => ⟨k.1, hp k.2⟩⟩, Explained.mono (Or.imp hp id) h.2⟩

theorem runCalls_errs (E : SeqEnv σ) : ∀ (calls : List Call) {f : Bytes} {s : ApplyPatch} {w : World σ} {rs s' w'}, ErrInv f s → AtRest s →
    runCalls E s w calls = .ok (rs, s', w') → Explained (s.state = .failed) f calls rs
  | [], _, _, _, _, _, _, _, _, h => by cases h; trivial
  | .process p :: cs, f, s, w, rs, s', w', hi, ha, h => by
    unfold runCalls at h
    simp only [Bind.bind, Except.bind] at h
    split at h
    · cases h
    · rename_i v hv
      obtain ⟨r1, s1, w1⟩ := v
      simp only at h
      split at h
      · cases h
      · rename_i v2 hv2
        obtain ⟨rs2, s2, w2⟩ := v2
        cases h
        obtain ⟨k1, k2, k3, k4⟩ := process_errs E hi ha hv
        refine ⟨k4.imp id fun k => ⟨k.1, k.2.imp .refused id⟩, (runCalls_errs E cs k1 k2 hv2).mono k3⟩
  | .finalize :: cs, f, s, w, rs, s', w', hi, ha, h => by
    unfold runCalls at h
    simp only [Bind.bind, Except.bind] at h
    split at h
    · cases h
    · rename_i v hv
      obtain ⟨r1, s1, w1⟩ := v
      simp only at h
      split at h
      · cases h
      · rename_i v2 hv2
        obtain ⟨rs2, s2, w2⟩ := v2
        cases h
        obtain ⟨k1, k2, k3, k4⟩ := finalize_errs E hi ha hv
        exact ⟨k4, (runCalls_errs E cs k1 k2 hv2).mono k3⟩

/-! Faults in the header. -/

omit [Build] in
theorem hdr_value_shape : ∀ (x : Bytes) (acc : SizeAcc) (j : Nat), acc.Inv →
    (acc.state = .consecutive → acc.offset = 6 + 7 * j) → (acc.state = .first → j = 0) → ∀ {v a t}, hdrRun acc x = .value v a t →
    ∃ pre b, x = pre ++ b :: t ∧ b.toNat < 128 ∧ (if acc.state = .first then pre.length ≤ 3 else pre.length + j ≤ 2) := by
  intro x
  induction x with
  | nil => intro acc j hi hc hf v a t h; cases h
  | cons b t ih =>
    intro acc j hi hc hf v a t' h
    simp only [hdrRun] at h
    cases hs : acc.state with
    | first =>
      by_cases hb : b &&& 0x80 = 0
      · simp only [headerSizeByte, hs, hb, ne_eq, not_true, if_false] at h
        cases h
        refine ⟨[], b, rfl, ?_, by simp⟩
        have := mt (bit7_iff b).2 (by simpa using hb)
        omega
      · simp only [headerSizeByte, hs, hb, ne_eq, not_false_iff, if_true] at h
        have h63 : b.toNat &&& 0x3f < 2 ^ 6 := by
          have : b.toNat &&& 63 ≤ 63 := Nat.and_le_right
          omega
        obtain ⟨pre, b2, k0, k1, k2⟩ := ih _ 0 (fun _ => ⟨rfl, by show 6 ≤ 27; omega, h63⟩) (fun _ => rfl) (fun _ => rfl) h
        simp only [reduceCtorEq, if_false] at k2
        exact ⟨b :: pre, b2, by rw [k0]; rfl, k1, by simp only [if_true, List.length_cons]; omega⟩
    | consecutive =>
      have ho := hc hs
      by_cases hov : isOverflow acc.offset
      · simp only [headerSizeByte, hs, hov, if_true] at h
        cases h
      · have hj2 : j < 3 := by
          simp only [isOverflow, decide_eq_true_eq] at hov
          omega
        rcases headerSizeByte_cases hi b with ⟨acc', f1, f2⟩ | ⟨acc', v', f1, f2, f3, f4⟩ | ⟨acc', f1, f2⟩
        · have g := f1
          rw [f1] at h
          simp only [headerSizeByte, hs, hov, Bool.false_eq_true, if_false, Bind.bind, Except.bind] at g
          split at g
          · cases g
          · by_cases hb : b &&& 0x80 = 0
            · simp only [hb, ne_eq, not_true, if_false] at g
              cases g
            · simp only [hb, ne_eq, not_false_iff, if_true] at g
              cases g
              obtain ⟨pre, b2, k0, k1, k2⟩ := ih _ (j + 1) f2 (fun _ => by show acc.offset + 7 = _; omega) (fun h => by simp only [hs] at h; cases h) h
              simp only [hs, reduceCtorEq, if_false] at k2
              exact ⟨b :: pre, b2, by rw [k0]; rfl, k1, by simp only [reduceCtorEq, if_false, List.length_cons]; omega⟩
        · have g := f1
          rw [f1] at h
          cases h
          simp only [headerSizeByte, hs, hov, Bool.false_eq_true, if_false, Bind.bind, Except.bind] at g
          split at g
          · cases g
          · by_cases hb : b &&& 0x80 = 0
            · refine ⟨[], b, rfl, ?_, by simp only [reduceCtorEq, if_false, List.length_nil]; omega⟩
              have := mt (bit7_iff b).2 (by simpa using hb)
              omega
            · simp only [hb, ne_eq, not_false_iff, if_true] at g
              cases g
        · rw [f1] at h; cases h

omit [Build] in
/-- The header of a patch does not change when more is given. -/
theorem SeqHead.run {f : Bytes} {c n : Nat} {body : Bytes} (h : SeqHead f c n body) :
    ∃ b t a, f = b :: t ∧ TypeSequential b ∧ c = b.toNat % 16 ∧ hdrRun {} t = .value n a body := by
  obtain ⟨b, t, v, len, rfl, h1, h2, h3, h4, rfl⟩ := h
  have hi : ({} : SizeAcc).Inv := by intro h; cases h
  have hr := run_first headerSizeByte_sizes (fun v => rfl) t {} rfl
  rw [h3] at hr
  simp only [h4, if_true] at hr
  obtain ⟨a, sn, _, hr⟩ := hr
  refine ⟨b, t, a, rfl, h1, h2, ?_⟩
  rw [hdrRun_size t {} hi, hr]
  rfl

omit [Build] in
theorem SeqHead.of_run {b : UInt8} {t body : Bytes} {n : Nat} {a : SizeAcc} (h1 : TypeSequential b) (h2 : hdrRun {} t = .value n a body) :
    SeqHead (b :: t) (b.toNat % 16) n body := by
  obtain ⟨v, len, q1, q2, q3⟩ := hdrRun_value h2
  exact ⟨b, t, v, len, rfl, h1, rfl, q1, q2, q3⟩

omit [Build] in
theorem SeqHead.append {f : Bytes} {c n : Nat} {body : Bytes} (h : SeqHead f c n body) (x : Bytes) : SeqHead (f ++ x) c n (body ++ x) := by
  obtain ⟨b, t, a, rfl, h1, rfl, h3⟩ := h.run
  exact SeqHead.of_run (a := a) h1 (by show hdrRun {} (t ++ x) = _; rw [hdrRun_append, h3])

omit [Build] in
theorem SeqHead.unique {f : Bytes} {c n c' n' : Nat} {body body' : Bytes} (h : SeqHead f c n body) (h' : SeqHead f c' n' body') :
    c = c' ∧ n = n' ∧ body = body' := by
  obtain ⟨b, t, a, rfl, h1, rfl, h3⟩ := h.run
  obtain ⟨b', t', a', hb, h1', rfl, h3'⟩ := h'.run
  cases hb
  rw [h3] at h3'
  cases h3'
  exact ⟨rfl, rfl, rfl⟩

omit [Build] in
theorem SeqHead.byte {b : UInt8} {t : Bytes} {c n : Nat} {body : Bytes} (h : SeqHead (b :: t) c n body) :
    TypeSequential b ∧ ¬ SizeTooLong t ∧ ¬ SizeUnfinished t := by
  obtain ⟨b', t', a, hb, h1, rfl, h3⟩ := h.run
  cases hb
  obtain ⟨pre, b2, k0, k1, k2⟩ := hdr_value_shape t {} 0 (fun h => by cases h) (fun h => by cases h) (fun _ => rfl) h3
  simp only [if_true] at k2
  refine ⟨h1, fun g => ?_, fun g => ?_⟩
  · have : b2 ∈ t.take 4 := by
      rw [k0, List.take_append]
      refine List.mem_append.2 (.inr ?_)
      rw [show 4 - pre.length = (3 - pre.length) + 1 by omega]
      simp
    have := g.2 b2 this
    omega
  · have := g.2 b2 (by rw [k0]; simp)
    omega

/-- A patch with a fault in the header is none with a good header. -/
theorem HeaderFault.head {patch : Bytes} {e : Int} (h : HeaderFault patch e) {f x : Bytes} (hp : patch = f ++ x) {c n : Nat} {body : Bytes}
    (hh : SeqHead f c n body) : e = BAD_COMPRESSION ∧ ¬ BuiltIn c := by
  have hh := hp ▸ hh.append x
  cases h with
  | empty h => subst h; obtain ⟨_, _, _, h, _⟩ := hh.run; cases h
  | type h1 h2 => subst h1; exact absurd hh.byte.1 h2
  | tooLong h1 h2 h3 => subst h1; exact absurd h3 hh.byte.2.1
  | compression h1 h2 => exact ⟨rfl, (hh.unique h1).1 ▸ h2⟩
  | unfinished h1 h2 h3 => subst h1; exact absurd h3 hh.byte.2.2

omit [Build] in
theorem SizeTooLong.append {t : Bytes} (h : SizeTooLong t) (x : Bytes) : SizeTooLong (t ++ x) :=
  ⟨by have := h.1; simp only [List.length_append]; omega, by rw [List.take_append_of_le_length (by have := h.1; omega)]; exact h.2⟩

/-- The error for a part of a patch with a fault in its header. -/
theorem HeaderFault.refused {patch : Bytes} {e : Int} (h : HeaderFault patch e) {f x : Bytes} (hp : patch = f ++ x) {r : Int} (hr : Refused f r) : r = e := by
  cases hr with
  | @type b t h1 h2 =>
    subst h1
    cases h with
    | empty h => rw [h] at hp; cases hp
    | type h1 => rfl
    | tooLong g1 g2 => rw [g1] at hp; cases hp; exact absurd g2 h2
    | compression g1 => rw [hp] at g1; exact absurd g1.byte.1 h2
    | unfinished g1 g2 => rw [g1] at hp; cases hp; exact absurd g2 h2
  | @headerSize b t h1 h2 h3 =>
    subst h1
    have h3 := h3.append x
    cases h with
    | empty h => rw [h] at hp; cases hp
    | type g1 g2 => rw [g1] at hp; cases hp; exact absurd h2 g2
    | tooLong => rfl
    | compression g1 => rw [hp] at g1; exact absurd h3 g1.byte.2.1
    | unfinished g1 g2 g3 =>
      rw [g1] at hp
      injection hp with _ hp
      subst hp
      have := h3.1
      have g4 : (t ++ x).length ≤ 4 := g3.1
      omega
  | compression h1 h2 => exact (h.head hp h1).1.symm
  | body h1 h2 => exact absurd h2 (h.head hp h1).2

/-- An invariant of the steps is one of the calls. -/
theorem runCalls_inv {E : SeqEnv σ} {P : Bytes → ApplyPatch → World σ → Prop} (hinv : ∀ {f s w}, P f s w → SInv s)
    (hstep : ∀ {f s w res s' w'}, P f s w → processOnce E s w = .ok (res, s', w') → P f s' w')
    (hchunk : ∀ {f s w} (p : Bytes) (po : Nat), P f s w → AtRest s → P (f ++ p) { s with patchOffset := po, chunk := { buf := p, offset := 0 } } w) :
    ∀ (calls : List Call) {f s w rs s' w'}, P f s w → AtRest s → runCalls E s w calls = .ok (rs, s', w') → P (f ++ fedBytes calls) s' w'
  | [], f, s, w, rs, s', w', hp, _, h => by
    cases h
    simpa [fedBytes] using hp
  | .process p :: cs, f, s, w, rs, s', w', hp, ha, h => by
    have h1 := hchunk p (sz (s.patchOffset + p.length)) hp ha
    unfold runCalls applyPatchProcess at h
    simp only at h
    generalize ({ s with patchOffset := sz (s.patchOffset + p.length), chunk := { buf := p, offset := 0 } } : ApplyPatch) = s0 at *
    obtain ⟨-, k2⟩ := loop_cause (P := P) (f := f ++ p) hinv hstep s0.fuel 0 s0 w h1 (fun h => absurd rfl h)
    cases hl : processLoop E s0.fuel 0 s0 w with
    | error e => rw [hl] at h; cases h
    | ok o =>
      obtain ⟨r1, s1, w1⟩ := o
      rw [hl] at h
      obtain ⟨g1, g2⟩ := k2 hl
      have key : ∃ rs1, runCalls E s1 w1 cs = .ok (rs1, s', w') := by
        simp only [Bind.bind, Except.bind] at h
        split at h
        · cases h
        · rename_i hx
          have : ∃ r, (r, s1, w1) = ‹SeqRes σ› := by
            split at hx <;> (cases hx; exact ⟨_, rfl⟩)
          obtain ⟨r, rfl⟩ := this
          simp only at h
          split at h
          · cases h
          · rename_i v e
            obtain ⟨rs1, s2, w2⟩ := v
            cases h
            exact ⟨rs1, e⟩
      obtain ⟨rs1, key⟩ := key
      have := runCalls_inv (P := P) hinv hstep hchunk cs g1 g2 key
      simpa [fedBytes] using this
  | .finalize :: cs, f, s, w, rs, s', w', hp, ha, h => by
    have h1 := hchunk [] s.patchOffset hp ha
    rw [List.append_nil] at h1
    have hs1' : ({ s with chunk := { buf := [], offset := 0 } } : ApplyPatch) = { s with patchOffset := s.patchOffset, chunk := { buf := [], offset := 0 } } := rfl
    unfold runCalls applyPatchFinalize at h
    simp only [hs1'] at h
    generalize ({ s with patchOffset := s.patchOffset, chunk := { buf := [], offset := 0 } } : ApplyPatch) = s0 at *
    obtain ⟨-, k2⟩ := floop_cause (P := P) (f := f) hinv hstep s0.fuel s0 w h1
    cases hl : finalizeLoop E s0.fuel s0 w with
    | error e => rw [hl] at h; cases h
    | ok o =>
      obtain ⟨r1, s1, w1⟩ := o
      rw [hl] at h
      obtain ⟨g1, g2⟩ := k2 hl
      simp only [Bind.bind, Except.bind] at h
      split at h
      · cases h
      · rename_i v e
        obtain ⟨rs1, s2, w2⟩ := v
        cases h
        have := runCalls_inv (P := P) hinv hstep hchunk cs g1 g2 e
        simpa [fedBytes] using this

/-- No callback is made before the header is complete and the compression known. -/
structure QuietInv (w0 : World σ) (f : Bytes) (s : ApplyPatch) (w : World σ) : Prop where
  errs : ErrInv f s
  quiet : w = w0 ∨ ∃ c n body, SeqHead f c n body ∧ BuiltIn c

theorem QuietInv.once {E : SeqEnv σ} {w0 : World σ} {f : Bytes} {s : ApplyPatch} {w : World σ} (h : QuietInv w0 f s w) {res s' w'}
    (he : processOnce E s w = .ok (res, s', w')) : QuietInv w0 f s' w' := by
  refine ⟨(once_errs E h.errs he).1, ?_⟩
  by_cases hi : s.state = .init
  · rw [(init_errs E h.errs hi he).2.2]
    exact h.quiet
  · by_cases hf : s.state = .failed
    · unfold processOnce at he
      rw [if_neg (by rw [hf]; decide)] at he
      simp only [processSwitch, hf, Bind.bind, Except.bind] at he
      rw [if_pos (by decide)] at he
      cases he
      exact h.quiet
    · obtain ⟨body, hh, -⟩ := h.errs.head hi hf
      exact .inr ⟨_, _, body, hh, h.errs.built hi hf⟩

theorem QuietInv.chunk {w0 : World σ} {f : Bytes} {s : ApplyPatch} {w : World σ} (p : Bytes) (po : Nat) (h : QuietInv w0 f s w) (ha : AtRest s) :
    QuietInv w0 (f ++ p) { s with patchOffset := po, chunk := { buf := p, offset := 0 } } w :=
  ⟨h.errs.chunk ha p po, h.quiet.imp id fun ⟨c, n, body, k1, k2⟩ => ⟨c, n, body ++ p, k1.append p, k2⟩⟩

theorem QuietInv.error {E : SeqEnv σ} {w0 : World σ} {f : Bytes} {s : ApplyPatch} {w : World σ} (h : QuietInv w0 f s w) {u}
    (he : processOnce E s w = .error u) : ∃ c n body, SeqHead f c n body ∧ BuiltIn c := by
  by_cases hi : s.state = .init
  · obtain ⟨o, ho, _⟩ := init_switch h.errs.inv hi w
    unfold processOnce at he
    rw [if_neg (by rw [hi]; decide)] at he
    simp only [processSwitch, hi, ho, Bind.bind, Except.bind] at he
    split at he <;> cases he
  · by_cases hf : s.state = .failed
    · unfold processOnce at he
      rw [if_neg (by rw [hf]; decide)] at he
      simp only [processSwitch, hf, Bind.bind, Except.bind] at he
      rw [if_pos (by decide)] at he
      cases he
    · obtain ⟨body, hh, -⟩ := h.errs.head hi hf
      exact ⟨_, _, body, hh, h.errs.built hi hf⟩

/-- The return values for pieces of a patch with a fault in its header. -/
theorem faulty_returns {patch : Bytes} {e : Int} (hf : HeaderFault patch e) : ∀ (pieces : List Bytes) {f : Bytes} {rs : List Int},
    patch = f ++ pieces.flatten → Explained False f (pieces.map .process ++ [.finalize]) rs → rs.find? (· != 0) = some e
  | [], f, rs, hp, h => by
    simp only [List.flatten_nil, List.append_nil] at hp
    subst hp
    match rs, h with
    | [], h => exact h.elim
    | r :: rs, h =>
      obtain ⟨h, -⟩ := h
      rcases h with ⟨_, c, body, k1, k2⟩ | ⟨h0, h⟩
      · exact absurd k2 (hf.head (List.append_nil _).symm k1).2
      · have hr : r = e := by
          rcases h with h | ⟨_, h⟩
          · cases h with
            | refused k => exact hf.refused (List.append_nil _).symm k
            | empty k =>
              subst k
              cases hf with
              | empty => rfl
              | type h1 => cases h1
              | tooLong h1 => cases h1
              | compression h1 => obtain ⟨_, _, _, h, _⟩ := h1.run; cases h
              | unfinished h1 => cases h1
            | unfinished k =>
              cases k with
              | header h1 h2 h3 =>
                cases hf with
                | empty g => rw [g] at h1; cases h1
                | type g1 g2 => rw [g1] at h1; cases h1; exact absurd h2 g2
                | tooLong g1 g2 g3 => rw [g1] at h1; cases h1; have := g3.1; have := h3.1; omega
                | compression g1 => subst h1; exact absurd h3 g1.byte.2.2
                | unfinished => rfl
              | body k1 k2 => exact absurd k2 (hf.head (List.append_nil _).symm k1).2
            | leftOver k1 k2 => exact absurd k2 (hf.head (List.append_nil _).symm k1).2
          · exact h.elim
        have : (r != 0) = true := by simp; omega
        rw [List.find?_cons, this, hr]
  | p :: ps, f, rs, hp, h => by
    match rs, h with
    | [], h => exact h.elim
    | r :: rs, h =>
      obtain ⟨h1, h2⟩ := h
      rcases h1 with rfl | ⟨h0, h⟩
      · have h2 := h2.mono (q := False) fun k => k.elim id fun k => by omega
        have := faulty_returns hf ps (f := f ++ p) (by rw [hp]; simp) h2
        simpa using this
      · have hr : r = e := by
          rcases h with h | ⟨_, h⟩
          · cases h with
            | refused k => exact hf.refused (x := ps.flatten) (by rw [hp]; simp) k
          · exact h.elim
        have : (r != 0) = true := by simp; omega
        rw [List.find?_cons, this, hr]

end Detools
