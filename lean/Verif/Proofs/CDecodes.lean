import Verif.Proofs.CReaderRun
import Verif.Proofs.CAccept
import Verif.Proofs.CSafe
import Verif.Proofs.LzmaReads
/-
A C patch reader in front of a known plain stream: what the calls of
patch_reader_decompress and patch_reader_unpack_size return.
-/
namespace Detools

variable [Build]

/-- The consumer that expects the given bytes. -/
def expectStep : Option Bytes → Tok → Option Bytes
  | some (b :: t), .byte b' => if b = b' then some t else none
  | _, _ => none

@[reducible] def expectSink : Sink := ⟨Option Bytes, expectStep, fun a => a = some []⟩

/-- The reader makes `plain` of the input `x` and can then be destroyed. -/
def Decodes : CReader → (x plain : Bytes) → Prop
  | .lzma s, x, plain => ∃ L, Build.lzma = some L ∧ LzmaReads L s x plain
  | r, x, plain => Succ expectSink r.abs (some plain) x (some [])

/-- The invariant of the reader, for LZMA too. -/
def CReader.Good : CReader → Prop
  | .lzma _ => True
  | r => r.Inv

theorem CReader.good_cases (r : CReader) : (∃ s, r = .lzma s) ∨ (r.Good ↔ r.Inv) ∧ ∀ x plain, Decodes r x plain ↔ Succ expectSink r.abs (some plain) x (some []) := by
  cases r with
  | lzma s => exact .inl ⟨s, rfl⟩
  | raw => exact .inr ⟨Iff.rfl, fun _ _ => Iff.rfl⟩
  | crle => exact .inr ⟨Iff.rfl, fun _ _ => Iff.rfl⟩
  | heatshrink => exact .inr ⟨Iff.rfl, fun _ _ => Iff.rfl⟩

theorem Inv.decodes {r : CReader} (h : r.Inv) (x plain : Bytes) : Decodes r x plain ↔ Succ expectSink r.abs (some plain) x (some []) := by
  cases r with
  | lzma s => exact h.elim
  | raw => exact Iff.rfl
  | crle => exact Iff.rfl
  | heatshrink => exact Iff.rfl

omit [Build] in
theorem Inv.good {r : CReader} (h : r.Inv) : r.Good := by
  cases r with
  | lzma s => exact h.elim
  | raw => exact h
  | crle => exact h
  | heatshrink => exact h

omit [Build] in
theorem expect_none : ∀ ts, expectSink.steps none ts = none := by
  intro ts
  induction ts with
  | nil => rfl
  | cons t ts ih => simp only [Sink.steps_cons]; exact ih

omit [Build] in
theorem expect_never : Never expectSink none := by
  intro ts h
  rw [expect_none] at h
  cases h

omit [Build] in
theorem expect_count : ∀ ts E, expectSink.steps (some E) ts = some [] → byteCount ts = E.length := by
  intro ts
  induction ts with
  | nil => intro E h; cases h; rfl
  | cons t ts ih =>
    intro E h
    simp only [Sink.steps_cons] at h
    cases E with
    | nil => rw [show expectStep (some []) t = none from rfl, expect_none] at h; cases h
    | cons b E =>
      cases t with
      | zero => rw [show expectStep (some (b :: E)) .zero = none from rfl, expect_none] at h; cases h
      | byte b' =>
        by_cases hb : b = b'
        · rw [show expectStep (some (b :: E)) (.byte b') = some E from if_pos hb] at h
          simp only [byteCount, List.length_cons, ih E h]
        · rw [show expectStep (some (b :: E)) (.byte b') = none from if_neg hb, expect_none] at h; cases h

omit [Build] in
theorem expect_hungry (E : Bytes) : Hungry expectSink E.length (some E) := by
  intro ts ht h
  have := expect_count ts E h
  omega

omit [Build] in
theorem expect_steps : ∀ (d E : Bytes) (E' : Bytes), expectSink.steps (some E) (d.map .byte) = some E' → E = d ++ E' := by
  intro d
  induction d with
  | nil => intro E E' h; cases h; rfl
  | cons b d ih =>
    intro E E' h
    simp only [List.map_cons, Sink.steps_cons] at h
    cases E with
    | nil => rw [show expectStep (some []) (.byte b) = none from rfl, expect_none] at h; cases h
    | cons b' E =>
      by_cases hb : b' = b
      · rw [show expectStep (some (b' :: E)) (.byte b) = some E from if_pos hb] at h
        rw [ih E E' h, hb]; rfl
      · rw [show expectStep (some (b' :: E)) (.byte b) = none from if_neg hb, expect_none] at h; cases h

omit [Build] in
theorem expect_steps_append : ∀ (d E : Bytes), expectSink.steps (some (d ++ E)) (d.map .byte) = some E := by
  intro d
  induction d with
  | nil => intro E; rfl
  | cons b d ih =>
    intro E
    simp only [List.cons_append, List.map_cons, Sink.steps_cons]
    rw [show expectStep (some (b :: (d ++ E))) (.byte b) = some (d ++ E) from if_pos rfl]
    exact ih E

omit [Build] in
/-- With bytes left to deliver, input or a pending byte remains. -/
theorem decodes_more {r : CReader} {E : Bytes} (h : Succ expectSink r.abs (some E) [] (some [])) (hn : rNext r.abs = none) : E = [] := by
  cases E with
  | nil => rfl
  | cons b E => exact absurd h (succ_nil (by intro h; cases h) hn)

/-- What a decompress call returns. -/
def DecOut (r : CReader) (c : Chunk) (size : Nat) (x E : Bytes) : DRes × CReader × Chunk → Prop
  | (.fail _, _, _) => False
  | (.ok data, r', c') => r'.Good ∧ c'.Inv ∧ work r' c' < work r c ∧ data ≠ [] ∧ data.length ≤ size ∧
      ∃ E', E = data ++ E' ∧ Decodes r' (c'.rest ++ x) E'
  | (.more, r', c') => r'.Good ∧ c'.Inv ∧ c'.rest = [] ∧ x ≠ [] ∧ work r' c' ≤ work r c ∧ Decodes r' x E

theorem decodes_dec {r : CReader} {c : Chunk} {x E : Bytes} (hr : r.Good) (hc : c.Inv) {cap size : Nat}
    (h1 : 1 ≤ size) (h2 : size ≤ cap) (h3 : cap ≤ 128) (hE : size ≤ E.length) (hD : Decodes r (c.rest ++ x) E) :
    ∃ out, r.decompress c cap size = .ok out ∧ DecOut r c size x E out := by
  rcases r.good_cases with ⟨s, rfl⟩ | ⟨hg, hd⟩
  · obtain ⟨L, hL, hR⟩ := hD
    have hsafe : CReader.Safe (.lzma s) := by show Build.lzma.isSome = true; rw [hL]; rfl
    obtain ⟨⟨d, r', c'⟩, e1, e2⟩ := dec_safe hsafe hc h1 h2 h3
    refine ⟨_, e1, ?_⟩
    simp only [CReader.decompress, hL, Bind.bind, Except.bind, Pure.pure, Except.pure] at e1
    cases hq : lzmaDecompress L s c cap size with
    | error u => rw [hq] at e1; cases e1
    | ok v =>
      obtain ⟨d2, s', c2⟩ := v
      rw [hq] at e1
      cases e1
      have hk := lzmaDecompress_reads hc hR h1 h2 hE hq
      match d2, e2, hk with
      | .fail e, _, hk => exact hk
      | .ok data, ⟨_, g2, g3, g4⟩, ⟨k1, E', k2, k3⟩ =>
        refine ⟨trivial, g2, g4, ?_, g3, E', k2, L, hL, k3⟩
        rintro rfl
        simp at k1
        omega
      | .more, ⟨_, g2, g3, g4⟩, ⟨k1, k2, k3⟩ => exact ⟨trivial, g2, g3, k2, g4, L, hL, k3⟩
  have hr := hg.1 hr
  rw [hd] at hD
  obtain ⟨⟨d, r', c'⟩, e1, e2⟩ := dec_spec hr hc h1 h2 h3
  refine ⟨_, e1, ?_⟩
  have hh : Hungry expectSink size (some E) := (expect_hungry E).mono hE
  match d, e2 with
  | .fail e, ⟨_, _, g⟩ => exact g _ _ _ _ hh hD
  | .more, ⟨g1, g2, g3, g4, _, g6, g7⟩ =>
    have hD' := (g7 _ _ _ _ (hh.notDone (by omega))).1 hD
    refine ⟨Inv.good g1, g2, g3, ?_, g6, (Inv.decodes g1 _ _).2 hD'⟩
    rintro rfl
    have := decodes_more hD' g4
    rw [this] at hE
    simp at hE
    omega
  | .ok data, ⟨g1, g2, g3, g4, g5⟩ =>
    have hS := (g5 _ _ _ _ hh).1 hD
    have hne : data ≠ [] := by
      rintro rfl
      have hz : expectSink.steps (some E) (toks []) = none := by
        simp only [toks, Sink.steps_cons, Sink.steps_nil]
        show expectStep (some E) .zero = none
        cases E <;> rfl
      rw [hz] at hS
      exact expect_never.not_succ hS
    refine ⟨Inv.good g1, g2, g4, hne, g3, ?_⟩
    rw [toks_of_ne hne] at hS
    cases hst : expectSink.steps (some E) (data.map .byte) with
    | none => rw [hst] at hS; exact absurd hS (expect_never.not_succ)
    | some E' =>
      rw [hst] at hS
      exact ⟨E', expect_steps _ _ _ hst, (Inv.decodes g1 _ _).2 hS⟩

/-! Sizes. -/

/-- What unpacking a size returns. -/
def SizeDecOut (r : CReader) (c : Chunk) (x : Bytes) (v : Int) (D : Bytes) : SizeRes × CReader × Chunk × SizeAcc → Prop
  | (.fail _, _, _, _) => False
  | (.value v', r', c', acc') => v' = v ∧ r'.Good ∧ c'.Inv ∧ acc'.Inv ∧ acc'.state = .first ∧ work r' c' < work r c ∧
      Decodes r' (c'.rest ++ x) D
  | (.more, r', c', acc') => r'.Good ∧ c'.Inv ∧ acc'.Inv ∧ c'.rest = [] ∧ x ≠ [] ∧ work r' c' ≤ work r c ∧
      ∃ E, (∃ a, sizeRun sizeByte acc' E = .value v a D) ∧ Decodes r' x E

theorem decodes_unpack {x D : Bytes} {v : Int} : ∀ (fuel : Nat) (r : CReader) (c : Chunk) (acc : SizeAcc) (E : Bytes), r.Good → c.Inv → acc.Inv →
    acc.rank < fuel → (∃ a, sizeRun sizeByte acc E = .value v a D) → Decodes r (c.rest ++ x) E →
    ∃ out, unpackSizeC fuel r c acc = .ok out ∧ SizeDecOut r c x v D out := by
  intro fuel
  induction fuel with
  | zero => intro r c acc E _ _ _ h; omega
  | succ fuel ih =>
    intro r c acc E hr hc ha hf hE hD
    unfold unpackSizeC
    obtain ⟨a, hE⟩ := hE
    cases E with
    | nil => cases hE
    | cons b E =>
      obtain ⟨⟨d, r', c'⟩, e1, e2⟩ := decodes_dec (cap := 1) (size := 1) hr hc (by omega) (by omega) (by omega) (by simp) hD
      rw [e1]
      simp only [Bind.bind, Except.bind]
      match d, e2 with
      | .more, ⟨g1, g2, g3, g4, g5, g6⟩ => exact ⟨_, rfl, g1, g2, ha, g3, g4, g5, _, ⟨a, hE⟩, g6⟩
      | .ok [], ⟨_, _, _, g4, _⟩ => exact absurd rfl g4
      | .ok (byte :: t), ⟨g1, g2, g3, g4, g5, E', g6, g7⟩ =>
        have ht : t = [] := by
          simp only [List.length_cons] at g5
          exact List.eq_nil_of_length_eq_zero (by omega)
        subst ht
        injection g6 with g6 g8
        subst g6
        have g8 : E = E' := g8
        subst g8
        simp only
        simp only [sizeRun] at hE
        rcases sizeByte_cases ha b with ⟨acc', f1, f2, f3⟩ | ⟨acc', v', f1, f2, f3, f4⟩ | ⟨acc', f1, f2⟩
        · rw [f1] at hE ⊢
          simp only at hE ⊢
          obtain ⟨out, q1, q2⟩ := ih r' c' acc' E g1 g2 f2 (by omega) ⟨a, hE⟩ g7
          refine ⟨out, q1, ?_⟩
          match out, q2 with
          | (.value v, r2, c2, acc2), ⟨p1, p2, p3, p4, p5, p6, p7⟩ => exact ⟨p1, p2, p3, p4, p5, by omega, p7⟩
          | (.more, r2, c2, acc2), ⟨p1, p2, p3, p4, p5, p6, p7⟩ => exact ⟨p1, p2, p3, p4, p5, by omega, p7⟩
        · rw [f1] at hE ⊢
          simp only at hE ⊢
          cases hE
          exact ⟨_, rfl, rfl, g1, g2, f2, f3, g3, g7⟩
        · rw [f1] at hE
          simp only at hE
          cases hE

theorem decodes_size {r : CReader} {c : Chunk} {acc : SizeAcc} {x E D : Bytes} {v : Int} (hr : r.Good) (hc : c.Inv) (ha : acc.Inv)
    (hE : ∃ a, sizeRun sizeByte acc E = .value v a D) (hD : Decodes r (c.rest ++ x) E) :
    ∃ out, patchReaderUnpackSize r c acc = .ok out ∧ SizeDecOut r c x v D out := by
  refine decodes_unpack 6 r c acc E hr hc ha ?_ hE hD
  unfold SizeAcc.rank
  cases hs : acc.state with
  | first => simp
  | consecutive =>
    obtain ⟨h1, h2, _⟩ := ha hs
    simp only
    omega

omit [Build] in
theorem sizeRun_pack {v : Int} (hv : v.natAbs < 2 ^ 27) (D : Bytes) (acc : SizeAcc) (h : acc.state = .first) :
    ∃ a, sizeRun sizeByte acc (packSize v ++ D) = .value v a D := by
  have := run_first sizeByte_sizes (fun v => by simp [signBody]) (packSize v ++ D) acc h
  rw [unpackSizeWithLength_packSize] at this
  simp only at this
  rw [if_pos (packSize_length_four v hv)] at this
  obtain ⟨a, sn, h1, h2⟩ := this
  exact ⟨a, by rw [h2, ← h1]⟩

/-- Once the plain stream is consumed the reader can be destroyed. -/
theorem decodes_nil {r : CReader} {x : Bytes} (h : Decodes r x []) : r.destroy = 0 := by
  rcases r.good_cases with ⟨s, rfl⟩ | ⟨_, hd⟩
  · obtain ⟨_, _, h⟩ := h
    exact h.destroy
  rw [hd] at h
  have := (succ_done (S := expectSink) (a := some []) rfl).1 h
  have h2 := this.2
  cases r <;> exact h2

/-! The readers of new patches. -/

theorem decodes_raw (D : Bytes) : Decodes (.raw D.length 0) D D := by
  show Succ expectSink _ _ _ _
  have := (raw_succ_bytes expectSink D.length [] (some []) D 0 (some D) (by omega) (expect_hungry D)).2
  rw [List.append_nil] at this
  apply this
  have hs := expect_steps_append D []
  rw [List.append_nil] at hs
  rw [hs]
  refine .done rfl ?_
  simp [CReader.destroy]

omit [Build] in
theorem expect_usize (mk : USize → CCrle) (fin : Nat → CCrle)
    (hmk : mk = .scatteredSize ∧ fin = .scatteredData ∨ mk = .repeatedRepetitions ∧ fin = .repeatedData) {b : UInt8} {E : Bytes} :
    ∀ (x : Bytes) (u : USize) (v : Nat) (t : Bytes), usizeRun u x = .value v t →
      Succ expectSink (.crle (fin v), none) (some (b :: E)) t (some []) →
      Succ expectSink (.crle (mk u), none) (some (b :: E)) x (some []) := by
  intro x
  induction x with
  | nil => intro u v t h; cases h
  | cons y x ih =>
    intro u v t h hS
    have hn : rNext (.crle (mk u), none) = none := by rcases hmk with ⟨rfl, _⟩ | ⟨rfl, _⟩ <;> rfl
    have hf : rFeed (.crle (mk u), none) y = match usizeByte u y with
        | none => none
        | some (u, none) => some (.crle (mk u), none)
        | some (_, some v) => some (.crle (fin v), none) := by rcases hmk with ⟨rfl, rfl⟩ | ⟨rfl, rfl⟩ <;> rfl
    rw [usizeRun] at h
    have hnd : ¬ expectSink.done (some (b :: E)) := fun h => by cases h
    cases hu : usizeByte u y with
    | none => rw [hu] at h; cases h
    | some q =>
      obtain ⟨u', o⟩ := q
      rw [hu] at h hf
      cases o with
      | none => exact .feed hnd hn hf (ih u' v t h hS)
      | some v' => cases h; exact .feed hnd hn hf hS

omit [Build] in
theorem expect_repeat (b : UInt8) (x E : Bytes) (h : Succ expectSink (.crle .idle, none) (some E) x (some [])) :
    ∀ n, 0 < n → Succ expectSink (.crle (.repeatedDataRead b n), none) (some (List.replicate n b ++ E)) x (some []) := by
  intro n
  induction n with
  | zero => intro h; omega
  | succ n ih =>
    intro _
    have hx : rNext (.crle (.repeatedDataRead b (n + 1)), none) =
        some (.byte b, (.crle (if n = 0 then .idle else .repeatedDataRead b n), none)) := by
      simp [rNext]
    rw [List.replicate_succ, List.cons_append]
    refine .next (by intro h; cases h) hx ?_
    rw [show expectSink.step (some (b :: (List.replicate n b ++ E))) (.byte b) = some (List.replicate n b ++ E) from if_pos rfl]
    by_cases hz : n = 0
    · subst hz
      exact h
    · rw [if_neg hz]; exact ih (by omega)

omit [Build] in
theorem decodes_crleSt {k : Nat} {inp out : Bytes} (h : CrleOut k inp out) :
    Succ expectSink (.crle (crleSt k), none) (some out) inp (some []) := by
  have hnx : ∀ k, rNext (.crle (crleSt k), none) = none := by
    intro k; unfold crleSt; split <;> rfl
  have hnil : ∀ k inp, Succ expectSink (.crle (crleSt k), none) (some []) inp (some []) := fun k inp => .done rfl rfl
  induction h with
  | stop => exact hnil _ _
  | cutSize => exact hnil _ _
  | cutByte => exact hnil _ _
  | badKind => exact hnil _ _
  | @lit k b inp out h ih =>
    have hf : rFeed (.crle (crleSt (k + 1)), none) b = some (.crle (crleSt k), some (.byte b)) := by
      have : crleSt (k + 1) = .scatteredData (k + 1) := by simp [crleSt]
      rw [this]
      simp [rFeed, crleSt]
    refine .feed (by intro h; cases h) (hnx _) hf (.next (by intro h; cases h) rfl ?_)
    rw [show expectSink.step (some (b :: out)) (.byte b) = some out from if_pos rfl]
    exact ih
  | @scattered n inp rest out h1 h2 h3 ih =>
    cases out with
    | nil => exact hnil _ _
    | cons y out =>
      have hf : rFeed (.crle (crleSt 0), none) 0 = some (.crle (.scatteredSize ({} : USize).start), none) := rfl
      refine .feed (by intro h; cases h) (hnx _) hf (expect_usize _ _ (.inl ⟨rfl, rfl⟩) _ _ _ _ h1 ?_)
      have : crleSt n = .scatteredData n := by unfold crleSt; rw [if_neg (by omega)]
      rw [← this]; exact ih
  | @repeated n b inp rest out h1 h2 h3 ih =>
    have hf : rFeed (.crle (crleSt 0), none) 1 = some (.crle (.repeatedRepetitions ({} : USize).start), none) := rfl
    obtain ⟨m, rfl⟩ : ∃ m, n = m + 1 := ⟨n - 1, by omega⟩
    rw [List.replicate_succ, List.cons_append]
    refine .feed (by intro h; cases h) (hnx _) hf (expect_usize _ _ (.inr ⟨rfl, rfl⟩) _ _ _ _ h1 ?_)
    refine .feed (by intro h; cases h) rfl (r' := (.crle (.repeatedDataRead b (m + 1)), none)) rfl ?_
    have := expect_repeat b rest out ih (m + 1) (by omega)
    rwa [List.replicate_succ, List.cons_append] at this

theorem decodes_crle {inp out : Bytes} (h : CrleDec 0 inp out) (hs : CrleSmall 0 inp) : Decodes (.crle .idle) inp out :=
  decodes_crleSt (h.out hs)

end Detools
