import Verif.Proofs.CSeqComp
/-
Histories of calls: what the header said, for any callbacks.
-/
namespace Detools

variable [Build]

/-- `fed` is everything given to process so far: what it says about the state. -/
def HT (s : ApplyPatch) (fed : Bytes) : Prop :=
  match s.state with
  | .init =>
    match s.initState with
    | .fixedHeader => fed = s.chunk.rest ∧ s.size = {}
    | .toSize => ∃ b t, s.compression = b.toNat &&& 0xf ∧ fed = b :: (t ++ s.chunk.rest) ∧ hdrRun {} t = .more s.size
  | .failed => True
  | _ => ∃ b t a t', s.compression = b.toNat &&& 0xf ∧ fed = b :: t ∧ hdrRun {} t = .value s.toSize a t'

omit [Build] in
theorem HT.body {s : ApplyPatch} {fed : Bytes} (h1 : s.state ≠ .init) (h2 : s.state ≠ .failed) :
    HT s fed ↔ ∃ b t a t', s.compression = b.toNat &&& 0xf ∧ fed = b :: t ∧ hdrRun {} t = .value s.toSize a t' := by
  unfold HT
  cases hs : s.state <;> simp only <;> first | (exfalso; first | exact h1 hs | exact h2 hs)

omit [Build] in
theorem HT.failed {s : ApplyPatch} {fed : Bytes} (h : s.state = .failed) : HT s fed := by
  simp [HT, h]

theorem once_ht (E : SeqEnv σ) {s : ApplyPatch} {w : World σ} (h : SInv s) {fed : Bytes} (ht : HT s fed) {out : SeqRes σ}
    (he : processOnce E s w = .ok out) : HT out.2.1 fed ∧ (out.1 = 1 → out.2.1.state = .init → out.2.1.chunk.rest = []) := by
  rcases once_ok E h w with (e | e) | ⟨out', e, ho⟩
  · rw [e] at he; cases he
  · rw [e] at he; cases he
  rw [e] at he
  cases he
  by_cases h1 : s.state = .init
  · obtain ⟨hc, _, _⟩ := h.live (by rw [h1]; decide)
    unfold processOnce at e
    rw [if_neg (by rw [h1]; decide)] at e
    simp only [processSwitch, h1, processInit] at e
    simp only [HT, h1] at ht
    cases hi : s.initState with
    | fixedHeader =>
      simp only [hi] at e ht
      obtain ⟨rfl, hsz⟩ := ht
      cases hr : s.chunk.rest with
      | nil =>
        simp only [processInitFixedHeader, s.chunk.get_nil hc hr, Bind.bind, Except.bind] at e
        rw [if_pos (by decide)] at e
        cases e
        exact ⟨HT.failed rfl, fun h => by cases h⟩
      | cons b t =>
        obtain ⟨f1, f2, f3⟩ := s.chunk.get_cons hc hr
        simp only [processInitFixedHeader, f1, Bind.bind, Except.bind] at e
        by_cases hty : (b.toNat >>> 4) &&& 0x7 = 0
        · simp only [hty, ne_eq, not_true, if_false] at e
          rw [if_neg (by decide)] at e
          cases e
          refine ⟨?_, fun h => by cases h⟩
          simp only [HT, h1]
          refine ⟨b, [], rfl, ?_, ?_⟩
          · rw [f2]; rfl
          · rw [hsz]; rfl
        · simp only [hty, ne_eq, not_false_iff, if_true] at e
          rw [if_pos (by decide)] at e
          cases e
          exact ⟨HT.failed rfl, fun h => by cases h⟩
    | toSize =>
      simp only [hi] at e ht
      obtain ⟨b, t, hcb, rfl, hmore⟩ := ht
      obtain ⟨out, q1, q2⟩ := headerSize_run (s.chunk.left + 1) s.chunk s.size hc h.size
        (by rw [s.chunk.left_eq hc]; omega)
      simp only [processInitToSize, q1, Bind.bind, Except.bind] at e
      have happ : hdrRun {} (t ++ s.chunk.rest) = hdrRun s.size s.chunk.rest := by
        rw [hdrRun_append, hmore]
      cases hrun : hdrRun s.size s.chunk.rest with
      | more a =>
        rw [hrun] at q2
        obtain ⟨c', rfl, g1, g2⟩ := q2
        simp only at e
        rw [if_neg (by decide)] at e
        cases e
        refine ⟨?_, fun _ _ => g2⟩
        simp only [HT, h1, hi]
        exact ⟨b, t ++ s.chunk.rest, hcb, by rw [g2, List.append_nil], by rw [happ, hrun]⟩
      | fail =>
        rw [hrun] at q2
        obtain ⟨c', a, rfl⟩ := q2
        simp only at e
        rw [if_pos (by decide)] at e
        cases e
        exact ⟨HT.failed rfl, fun h => by cases h⟩
      | value v a t' =>
        rw [hrun] at q2
        obtain ⟨c', rfl, g1, g2, g3⟩ := q2
        have hvlt := hdrRun_inv s.chunk.rest s.size h.size
        rw [hrun] at hvlt
        have hv : szOfInt (v : Int) = v := by unfold szOfInt; omega
        simp only at e
        cases hin : CReader.init (szOfInt ((s.patchSize : Int) - c'.offset)) s.compression with
        | none =>
          rw [hin] at e
          simp only at e
          rw [if_pos (by decide)] at e
          cases e
          exact ⟨HT.failed rfl, fun h => by cases h⟩
        | some r =>
          rw [hin] at e
          simp only at e
          rw [if_neg (by omega), hv] at e
          by_cases hvpos : (v : Int) > 0
          · rw [if_pos hvpos] at e
            simp only at e
            rw [if_neg (by decide)] at e
            cases e
            refine ⟨?_, fun h => by cases h⟩
            simp only [HT]
            exact ⟨b, t ++ s.chunk.rest, a, t', hcb, rfl, by rw [happ, hrun]⟩
          · rw [if_neg hvpos] at e
            simp only at e
            rw [if_neg (by decide)] at e
            cases e
            refine ⟨?_, fun h => by cases h⟩
            simp only [HT]
            exact ⟨b, t ++ s.chunk.rest, a, t', hcb, rfl, by rw [happ, hrun]⟩
  · cases ho with
    | @ok s' w' evs g1 g2 g3 g4 g5 g6 =>
      have hn := switch_init E h e h1
      refine ⟨?_, fun h => by cases h⟩
      rw [HT.body hn g6, g3.toSz h1, once_comp E h1 e]
      exact (HT.body h1 g2).1 ht
    | more g1 g2 g3 g4 g5 =>
      refine ⟨?_, fun _ _ => g4⟩
      rw [HT.body (by rw [g5]; exact h1) (by rw [g5]; exact g2), g3.toSz h1, once_comp E h1 e]
      exact (HT.body h1 g2).1 ht
    | done g1 => exact ⟨ht, fun h => by cases h⟩
    | already g1 => exact ⟨ht, fun h => by cases h⟩
    | fail _ _ _ g4 _ _ g => exact ⟨HT.failed g, fun h => by simp only at h; omega⟩
    | io _ _ _ _ _ _ _ g => exact ⟨HT.failed g, fun h => by cases h⟩

theorem loop_ht (E : SeqEnv σ) {fed : Bytes} : ∀ (fuel : Nat) (res : Int) (s : ApplyPatch) (w : World σ) (out : SeqRes σ), SInv s → HT s fed →
    processLoop E fuel res s w = .ok out → HT out.2.1 fed ∧ SInv out.2.1 ∧ (out.1 ≥ 0 → out.2.1.state = .init → out.2.1.chunk.rest = []) := by
  intro fuel
  induction fuel with
  | zero => intro res s w out _ _ h; cases h
  | succ fuel ih =>
    intro res s w out hs ht he
    unfold processLoop at he
    split at he
    · rename_i hcond
      cases ho : processOnce E s w with
      | error u => rw [ho] at he; cases he
      | ok o =>
        obtain ⟨r1, s1, w1⟩ := o
        rw [ho] at he
        obtain ⟨k1, k2⟩ := once_ht E hs ht ho
        have hs1 : SInv s1 := by
          rcases once_ok E hs w with (e | e) | ⟨out', e, ho'⟩
          · rw [e] at ho; cases ho
          · rw [e] at ho; cases ho
          · rw [e] at ho
            cases ho
            cases ho' with
            | ok _ _ _ g => exact g.inv
            | more _ _ g => exact g.inv
            | done => exact hs
            | already => exact hs
            | fail _ _ g => exact g.inv
            | io _ _ _ _ g => exact g.inv
        exact ih r1 s1 w1 out hs1 k1 he
    · rename_i hcond
      cases he
      refine ⟨ht, hs, fun hr hi => ?_⟩
      have hc := (hs.live (by rw [hi]; decide)).1
      have : ¬ s.chunk.available = true := fun h => hcond ⟨h, hr⟩
      rw [s.chunk.available_eq hc] at this
      cases hrest : s.chunk.rest with
      | nil => rfl
      | cons b t => rw [hrest] at this; simp at this

theorem finalLoop_ht (E : SeqEnv σ) {fed : Bytes} : ∀ (fuel : Nat) (s : ApplyPatch) (w : World σ) (out : SeqRes σ), SInv s → HT s fed →
    finalizeLoop E fuel s w = .ok out → HT out.2.1 fed ∧ (out.2.1.state = .init → out.2.1.chunk.rest = []) := by
  intro fuel
  induction fuel with
  | zero => intro s w out _ _ h; cases h
  | succ fuel ih =>
    intro s w out hs ht he
    unfold finalizeLoop at he
    cases ho : processOnce E s w with
    | error u => rw [ho] at he; cases he
    | ok o =>
      obtain ⟨r1, s1, w1⟩ := o
      rw [ho] at he
      simp only [Bind.bind, Except.bind] at he
      obtain ⟨k1, k2⟩ := once_ht E hs ht ho
      have hs1 : SInv s1 ∧ (r1 ≠ 0 → r1 ≠ 1 → s1.state ≠ .init) := by
        rcases once_ok E hs w with (e | e) | ⟨out', e, ho'⟩
        · rw [e] at ho; cases ho
        · rw [e] at ho; cases ho
        · rw [e] at ho
          cases ho
          cases ho' with
          | ok _ _ _ g => exact ⟨g.inv, fun h => absurd rfl h⟩
          | more _ _ g => exact ⟨g.inv, fun _ h => absurd rfl h⟩
          | done g => exact ⟨hs, fun _ _ => by rw [g]; decide⟩
          | already g => exact ⟨hs, fun _ _ => by rw [g]; decide⟩
          | fail _ _ g _ _ _ g' => exact ⟨g.inv, fun _ _ => by rw [g']; decide⟩
          | io _ _ _ _ g _ _ g' => exact ⟨g.inv, fun _ _ => by rw [g']; decide⟩
      split at he
      · exact ih s1 w1 out hs1.1 k1 he
      · rename_i h0
        cases he
        refine ⟨k1, fun hi => ?_⟩
        by_cases h1 : r1 = 1
        · exact k2 h1 hi
        · exact absurd hi (hs1.2 h0 h1)

/-- Between calls an unfinished header has no unread bytes. -/
structure HS (s : ApplyPatch) (fed : Bytes) : Prop where
  inv : SInv s
  ht : HT s fed
  rest : s.state = .init → s.chunk.rest = []

theorem HS.start (P : Nat) : HS (applyPatchInit P) [] := ⟨SInv.start P, ⟨rfl, rfl⟩, fun _ => rfl⟩

theorem HT.setChunk {s : ApplyPatch} {fed p : Bytes} (h : HS s fed) {po : Nat} :
    HT { s with patchOffset := po, chunk := { buf := p, offset := 0 } } (fed ++ p) := by
  by_cases h1 : s.state = .init
  · have hr := h.rest h1
    have ht := h.ht
    have hp : ({ buf := p, offset := 0 } : Chunk).rest = p := rfl
    simp only [HT, h1, hr, hp] at ht ⊢
    cases hi : s.initState with
    | fixedHeader =>
      simp only [hi] at ht ⊢
      obtain ⟨rfl, h2⟩ := ht
      exact ⟨rfl, h2⟩
    | toSize =>
      simp only [hi] at ht ⊢
      obtain ⟨b, t, hcb, rfl, h2⟩ := ht
      exact ⟨b, t, hcb, by simp, h2⟩
  · by_cases h2 : s.state = .failed
    · exact HT.failed h2
    · refine (HT.body (by exact h1) (by exact h2)).2 ?_
      obtain ⟨b, t, a, t', hcb, rfl, h3⟩ := (HT.body h1 h2).1 h.ht
      exact ⟨b, t ++ p, a, t' ++ p, hcb, rfl, by rw [hdrRun_append, h3]⟩

theorem process_hs (E : SeqEnv σ) {s : ApplyPatch} {w : World σ} {fed p : Bytes} (h : HS s fed) {res s' w'}
    (he : applyPatchProcess E s w p = .ok (res, s', w')) : HS s' (fed ++ p) := by
  have h1 := HT.setChunk (p := p) h (po := sz (s.patchOffset + p.length))
  have h2 := h.inv.setChunk (buf := p) (po := sz (s.patchOffset + p.length))
  have h3 : ({ s with patchOffset := sz (s.patchOffset + p.length), chunk := { buf := p, offset := 0 } } : ApplyPatch).chunk.Inv := Nat.zero_le _
  unfold applyPatchProcess at he
  simp only at he
  generalize ({ s with patchOffset := sz (s.patchOffset + p.length), chunk := { buf := p, offset := 0 } } : ApplyPatch) = s0 at *
  have hok := processLoop_ok E s0.fuel s0 w h2 (s0.fuel_mu h3)
  generalize s0.fuel = f at *
  have hht := loop_ht E (fed := fed ++ p) f 0 s0 w
  generalize processLoop E f 0 s0 w = pl at *
  cases pl with
  | error u => cases he
  | ok v =>
    obtain ⟨r1, s1, w1⟩ := v
    have hh := hht _ h2 h1 rfl
    simp only [Bind.bind, Except.bind] at he hh
    have hfin : s1 = s' := by
      split at he <;> cases he <;> rfl
    subst hfin
    refine ⟨hh.2.1, hh.1, fun hi => ?_⟩
    rcases hok with (e | e) | ⟨out, e, g1, g2, g3⟩
    · cases e
    · cases e
    · cases e
      refine hh.2.2 ?_ hi
      rcases g3 with ⟨_, g3⟩ | g3
      · cases g3; decide
      · cases g3 with
        | ok _ _ _ _ g => omega
        | done _ _ _ g => rw [g] at hi; cases hi
        | fail _ _ _ _ _ _ g => rw [g] at hi; cases hi
        | io _ _ _ _ _ g => rw [g] at hi; cases hi

theorem finalize_hs (E : SeqEnv σ) {s : ApplyPatch} {w : World σ} {fed : Bytes} (h : HS s fed) {res s' w'}
    (he : applyPatchFinalize E s w = .ok (res, s', w')) : HS s' fed := by
  have h1 := HT.setChunk (p := []) h (po := s.patchOffset)
  rw [List.append_nil] at h1
  have h2 := h.inv.setChunk (buf := []) (po := s.patchOffset)
  have h3 : ({ s with patchOffset := s.patchOffset, chunk := { buf := [], offset := 0 } } : ApplyPatch).chunk.Inv := Nat.zero_le _
  unfold applyPatchFinalize at he
  simp only at he
  have hs1' : ({ s with chunk := { buf := [], offset := 0 } } : ApplyPatch) = { s with patchOffset := s.patchOffset, chunk := { buf := [], offset := 0 } } := rfl
  rw [hs1'] at he
  generalize ({ s with patchOffset := s.patchOffset, chunk := { buf := [], offset := 0 } } : ApplyPatch) = s0 at *
  have hmu := s0.fuel_mu h3
  have hok := finalizeLoop_ok E s0.fuel s0 w h2 (by omega)
  generalize s0.fuel = f at *
  have hht := finalLoop_ht E (fed := fed) f s0 w
  generalize finalizeLoop E f s0 w = pl at *
  cases pl with
  | error u => cases he
  | ok v =>
    obtain ⟨r1, s1, w1⟩ := v
    have hh := hht _ h2 h1 rfl
    simp only [Bind.bind, Except.bind] at he hh
    cases he
    rcases hok with (e | e) | ⟨out, e, g1, g2, g3⟩
    · cases e
    · cases e
    · cases e
      exact ⟨g1.counted.inv, hh.1, hh.2⟩

/-- The trace invariants of a state. -/
structure HW (s : ApplyPatch) (w : World σ) : Prop where
  off : s.toOffset = sz (written w.trace).length
  small : ∀ ev ∈ w.trace, ev.count ≤ 128

theorem HW.of_counted {s s' : ApplyPatch} {w w' : World σ} (h : HW s w) (c : Counted s w s' w') : HW s' w' :=
  ⟨c.off h.off, c.small h.small⟩

theorem runCalls_ok (E : SeqEnv σ) : ∀ (calls : List Call) {s : ApplyPatch} {w : World σ} {fed : Bytes}, HS s fed → HW s w →
    (runCalls E s w calls = .error .uninit ∨ runCalls E s w calls = .error .overflow) ∨
    ∃ rs s' w', runCalls E s w calls = .ok (rs, s', w') ∧ HS s' (fed ++ fedBytes calls) ∧ HW s' w' := by
  intro calls
  induction calls with
  | nil => intro s w fed h1 h2; exact .inr ⟨_, _, _, rfl, by simpa [fedBytes] using h1, h2⟩
  | cons c cs ih =>
    intro s w fed h1 h2
    cases c with
    | process p =>
      simp only [runCalls, fedBytes]
      rcases process_ok E h1.inv w p with (e | e) | ⟨res, s1, w1, e, g1, g2, g3⟩
      · left; left; rw [e]; rfl
      · left; right; rw [e]; rfl
      · have hh := process_hs E h1 e
        rw [e]
        simp only [Bind.bind, Except.bind]
        rcases ih hh (h2.of_counted g2) with (e1 | e1) | ⟨rs, s2, w2, e1, k1, k2⟩
        · left; left; rw [e1]
        · left; right; rw [e1]
        · right
          rw [e1]
          exact ⟨_, _, _, rfl, by rw [← List.append_assoc]; exact k1, k2⟩
    | finalize =>
      simp only [runCalls, fedBytes]
      rcases finalize_ok E h1.inv w with (e | e) | ⟨res, s1, w1, e, g1, g2, g3⟩
      · left; left; rw [e]; rfl
      · left; right; rw [e]; rfl
      · have hh := finalize_hs E h1 e
        rw [e]
        simp only [Bind.bind, Except.bind]
        rcases ih hh (h2.of_counted g2) with (e1 | e1) | ⟨rs, s2, w2, e1, k1, k2⟩
        · left; left; rw [e1]
        · left; right; rw [e1]
        · right
          rw [e1]
          exact ⟨_, _, _, rfl, k1, k2⟩

omit [Build] in
theorem HW.start (P : Nat) (a : σ) : HW (applyPatchInit P) { arg := a } := ⟨rfl, by simp⟩

end Detools
