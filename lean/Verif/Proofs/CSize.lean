import Verif.Proofs.HsReader
/-
`patch_reader_unpack_size` against the byte-at-a-time meaning.
-/
namespace Detools

variable [Build]

/-- Invariant of a size accumulator. -/
def SizeAcc.Inv (s : SizeAcc) : Prop :=
  s.state = .consecutive → s.offset % 7 = 6 ∧ s.offset ≤ 27 ∧ s.value < 2 ^ s.offset

/-- Bytes left before a size must end. -/
def SizeAcc.rank (s : SizeAcc) : Nat :=
  match s.state with
  | .first => 5
  | .consecutive => (27 - s.offset) / 7 + 1

/-- Consumers that are reading a size. -/
structure SizeSink (S : Sink) where
  a : SizeAcc → S.A
  k : SizeAcc → Int → S.A
  dead : S.A
  notDone : ∀ acc, ¬ S.done (a acc)
  never : Never S dead
  zero : ∀ acc, Never S (S.step (a acc) .zero)
  byte : ∀ acc b, S.step (a acc) (.byte b) =
    match sizeByte acc b with
    | .ok (acc', none) => a acc'
    | .ok (acc', some (.value v)) => k acc' v
    | _ => dead

omit [Build] in
theorem orShift_ok2 {v : Nat} {b : UInt8} {o : Nat} (ho : o ≤ 20) (hv : v < 2 ^ o) :
    ∃ v', orShift v b o = .ok v' ∧ v' < 2 ^ (o + 7) := orShift_ok (by omega) hv

omit [Build] in
theorem sizeByte_cases {acc : SizeAcc} (h : acc.Inv) (b : UInt8) :
    (∃ acc', sizeByte acc b = .ok (acc', none) ∧ acc'.Inv ∧ acc'.rank < acc.rank) ∨
    (∃ acc' v, sizeByte acc b = .ok (acc', some (.value v)) ∧ acc'.Inv ∧ acc'.state = .first ∧
      -2 ^ 27 < v ∧ v < 2 ^ 27) ∨
    (∃ acc', sizeByte acc b = .ok (acc', some (.fail CORRUPT_PATCH_OVERFLOW)) ∧ acc'.Inv) := by
  have sgn : ∀ (p : Bool) (n : Nat), n < 2 ^ 27 → -2 ^ 27 < (if p then -(n : Int) else n) ∧ (if p then -(n : Int) else n) < 2 ^ 27 := by
    intro p n hn
    split <;> omega
  cases hs : acc.state with
  | first =>
    have hv : b.toNat &&& 0x3f < 2 ^ 6 := by
      have : b.toNat &&& 63 ≤ 63 := Nat.and_le_right
      omega
    by_cases hb : b &&& 0x80 = 0
    · right; left
      refine ⟨_, _, by simp only [sizeByte, hs, hb, ne_eq, not_true, if_false]; rfl, ?_, rfl, ?_⟩
      · intro h; cases h
      · exact sgn _ _ (by omega)
    · left
      refine ⟨_, by simp only [sizeByte, hs, hb, ne_eq, not_false_iff, if_true]; rfl, ?_, ?_⟩
      · intro _
        exact ⟨rfl, by show 6 ≤ 27; omega, hv⟩
      · simp [SizeAcc.rank, hs]
  | consecutive =>
    obtain ⟨h1, h2, h3⟩ := h hs
    by_cases ho : isOverflow acc.offset = true
    · right; right
      refine ⟨acc, by simp only [sizeByte, hs, ho, if_true], h⟩
    · have hof : acc.offset ≤ 20 := by
        simp [isOverflow] at ho; omega
      obtain ⟨v', e1, e2⟩ := orShift_ok2 (v := acc.value) (b := b) hof h3
      by_cases hb : b &&& 0x80 = 0
      · right; left
        refine ⟨_, _, by simp only [sizeByte, hs, ho, e1, hb, ne_eq, not_true, if_false, Bind.bind, Except.bind]; rfl, ?_, rfl, ?_⟩
        · intro h; cases h
        · apply sgn
          exact Nat.lt_of_lt_of_le e2 (Nat.pow_le_pow_right (by omega) (by omega))
      · left
        refine ⟨_, by simp only [sizeByte, hs, ho, e1, hb, ne_eq, not_false_iff, if_true, if_false, Bind.bind, Except.bind]; rfl, ?_, ?_⟩
        · intro _
          exact ⟨by show (acc.offset + 7) % 7 = 6; omega, by show acc.offset + 7 ≤ 27; omega, e2⟩
        · simp [SizeAcc.rank, hs]
          omega

/-- What unpacking a size guarantees. -/
def UnpackSpec (r : CReader) (c : Chunk) (acc : SizeAcc) : SizeRes × CReader × Chunk × SizeAcc → Prop
  | (.value v, r', c', acc') => r'.Inv ∧ c'.Inv ∧ acc'.Inv ∧ acc'.state = .first ∧ -2 ^ 27 < v ∧ v < 2 ^ 27 ∧
      work r' c' < work r c ∧
      ∀ (S : Sink) (F : SizeSink S) x res,
        (Succ S r.abs (F.a acc) (c.rest ++ x) res ↔ Succ S r'.abs (F.k acc' v) (c'.rest ++ x) res)
  | (.more, r', c', acc') => r'.Inv ∧ c'.Inv ∧ acc'.Inv ∧ c'.rest = [] ∧ rNext r'.abs = none ∧
      work r' c' ≤ work r c ∧
      ∀ (S : Sink) (F : SizeSink S) x res,
        (Succ S r.abs (F.a acc) (c.rest ++ x) res ↔ Succ S r'.abs (F.a acc') x res)
  | (.fail e, _, c', _) => e < 0 ∧ c'.Inv ∧
      ∀ (S : Sink) (F : SizeSink S) x res, ¬ Succ S r.abs (F.a acc) (c.rest ++ x) res

theorem unpackSizeC_spec : ∀ (fuel : Nat) (r : CReader) (c : Chunk) (acc : SizeAcc), r.Inv → c.Inv → acc.Inv →
    acc.rank < fuel →
    (unpackSizeC fuel r c acc = .error .uninit ∧
      ∀ (S : Sink) (F : SizeSink S) x res, ¬ Succ S r.abs (F.a acc) (c.rest ++ x) res) ∨
    ∃ out, unpackSizeC fuel r c acc = .ok out ∧ UnpackSpec r c acc out := by
  intro fuel
  induction fuel with
  | zero => intro r c acc _ _ _ h; omega
  | succ fuel ih =>
    intro r c acc hr hc ha hf
    unfold unpackSizeC
    obtain ⟨⟨d, r', c'⟩, e1, e2⟩ := dec_spec hr hc (cap := 1) (size := 1) (by omega) (by omega) (by omega)
    rw [e1]
    simp only [Bind.bind, Except.bind]
    have hh : ∀ (S : Sink) (F : SizeSink S), Hungry S 1 (F.a acc) := fun S F => Hungry.one (F.notDone acc) (F.zero acc)
    match d, e2 with
    | .more, ⟨g1, g2, g3, g4, g5, g6, g7⟩ =>
      exact .inr ⟨_, rfl, g1, g2, ha, g3, g4, g6, fun S F x res => g7 S _ x res (F.notDone acc)⟩
    | .fail e, ⟨g0, g1, g2⟩ => exact .inr ⟨_, rfl, g0, g1, fun S F x res => g2 S _ x res (hh S F)⟩
    | .ok [], ⟨g1, g2, g3, g4, g5⟩ =>
      left
      refine ⟨rfl, fun S F x res => ?_⟩
      rw [g5 S _ x res (hh S F)]
      exact Never.not_succ (F.zero acc)
    | .ok (byte :: t), ⟨g1, g2, g3, g4, g5⟩ =>
      have ht : t = [] := by
        cases t with
        | nil => rfl
        | cons => simp at g3
      subst ht
      have g5' : ∀ (S : Sink) (F : SizeSink S) x res, Succ S r.abs (F.a acc) (c.rest ++ x) res ↔
          Succ S r'.abs (S.step (F.a acc) (.byte byte)) (c'.rest ++ x) res := fun S F x res => g5 S _ x res (hh S F)
      simp only
      rcases sizeByte_cases ha byte with ⟨acc', f1, f2, f3⟩ | ⟨acc', v, f1, f2, f3, f4⟩ | ⟨acc', f1, f2⟩
      · rw [f1]
        simp only
        have hb : ∀ (S : Sink) (F : SizeSink S), S.step (F.a acc) (.byte byte) = F.a acc' := by
          intro S F; rw [F.byte, f1]
        rcases ih r' c' acc' g1 g2 f2 (by omega) with ⟨q1, q2⟩ | ⟨out, q1, q2⟩
        · left
          refine ⟨q1, fun S F x res => ?_⟩
          rw [g5' S F, hb]
          exact q2 S F x res
        · right
          refine ⟨out, q1, ?_⟩
          match out, q2 with
          | (.value v, r2, c2, acc2), ⟨p1, p2, p3, p4, p5, p6, p7, p8⟩ =>
            exact ⟨p1, p2, p3, p4, p5, p6, by omega, fun S F x res => by rw [g5' S F, hb]; exact p8 S F x res⟩
          | (.more, r2, c2, acc2), ⟨p1, p2, p3, p4, p5, p6, p7⟩ =>
            exact ⟨p1, p2, p3, p4, p5, by omega, fun S F x res => by rw [g5' S F, hb]; exact p7 S F x res⟩
          | (.fail e, r2, c2, acc2), ⟨p0, p1, p2⟩ =>
            exact ⟨p0, p1, fun S F x res => by rw [g5' S F, hb]; exact p2 S F x res⟩
      · rw [f1]
        right
        refine ⟨_, rfl, g1, g2, f2, f3, f4.1, f4.2, g4, fun S F x res => ?_⟩
        rw [g5' S F, F.byte, f1]
      · rw [f1]
        right
        refine ⟨_, rfl, by decide, g2, fun S F x res => ?_⟩
        rw [g5' S F, F.byte, f1]
        exact Never.not_succ F.never

theorem patchReaderUnpackSize_spec {r : CReader} {c : Chunk} {acc : SizeAcc} (hr : r.Inv) (hc : c.Inv) (ha : acc.Inv) :
    (patchReaderUnpackSize r c acc = .error .uninit ∧
      ∀ (S : Sink) (F : SizeSink S) x res, ¬ Succ S r.abs (F.a acc) (c.rest ++ x) res) ∨
    ∃ out, patchReaderUnpackSize r c acc = .ok out ∧ UnpackSpec r c acc out := by
  apply unpackSizeC_spec 6 r c acc hr hc ha
  unfold SizeAcc.rank
  cases hs : acc.state with
  | first => simp
  | consecutive =>
    obtain ⟨h1, h2, _⟩ := ha hs
    simp only
    omega

end Detools
