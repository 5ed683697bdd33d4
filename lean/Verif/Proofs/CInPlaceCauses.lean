import Verif.Proofs.CSeqCauses
import Verif.Proofs.CInPlaceCalls
import Verif.Proofs.Records
/-
Where the undefined behaviour of the in-place C API comes from.
-/
namespace Detools

variable [Build]

/-! The header. -/

omit [Build] in
theorem hdrRun_value_first {acc : SizeAcc} (hf : acc.state = .first) {x : Bytes} {v : Nat} {a : SizeAcc} {t : Bytes} (h : hdrRun acc x = .value v a t) :
    ∃ w k, unpackSizeWithLength x = .ok (w, k, t) ∧ v = w.natAbs := by
  have hi : acc.Inv := by intro h; rw [hf] at h; cases h
  have hr := run_first headerSizeByte_sizes (fun v => rfl) x acc hf
  rw [hdrRun_size x acc hi] at h
  cases hu : unpackSizeWithLength x with
  | error e =>
    rw [hu] at hr
    simp only at hr
    split at hr
    · obtain ⟨a', ha⟩ := hr
      rw [ha] at h; cases h
    · rw [hr] at h; cases h
  | ok p =>
    obtain ⟨w, k, t'⟩ := p
    rw [hu] at hr
    simp only at hr
    split at hr
    · obtain ⟨a', sn, h1, h2⟩ := hr
      rw [h2] at h
      cases h
      exact ⟨w, k, rfl, rfl⟩
    · rw [hr] at h; cases h

omit [Build] in
theorem hdrRun_prefix : ∀ (x : Bytes) {acc : SizeAcc} {v : Nat} {a : SizeAcc} {t : Bytes}, hdrRun acc x = .value v a t →
    ∃ u, x = u ++ t ∧ hdrRun acc u = .value v a []
  | [], acc, v, a, t, h => by cases h
  | b :: x, acc, v, a, t, h => by
    simp only [hdrRun] at h
    cases hb : headerSizeByte acc b with
    | error e => rw [hb] at h; cases h
    | ok p =>
      obtain ⟨acc', o⟩ := p
      rw [hb] at h
      match o with
      | none =>
        obtain ⟨u, h1, h2⟩ := hdrRun_prefix x h
        exact ⟨b :: u, by rw [h1]; rfl, by simp only [hdrRun, hb]; exact h2⟩
      | some (.value v') =>
        cases h
        exact ⟨[b], rfl, by simp only [hdrRun, hb]⟩
      | some .more => cases h
      | some (.fail e) => cases h

/-- The sizes `vs` one after the other, and what follows them. -/
def SizesRead : List Int → Bytes → Bytes → Prop
  | [], t, x => t = x
  | v :: vs, t, x => ∃ n t1, unpackSizeWithLength t = .ok (v, n, t1) ∧ SizesRead vs t1 x

omit [Build] in
theorem SizesRead.snoc {v : Int} {n : Nat} {x y : Bytes} (h : unpackSizeWithLength y = .ok (v, n, x)) : ∀ {vs : List Int} {t : Bytes},
    SizesRead vs t y → SizesRead (vs ++ [v]) t x
  | [], t, h1 => by cases h1; exact ⟨n, x, h, rfl⟩
  | _ :: _, _, ⟨n1, t1, h1, h2⟩ => ⟨n1, t1, h1, SizesRead.snoc h h2⟩

/-- In the header, with `f` fed so far. -/
def IHT (f : Bytes) (s : InPlace) : Prop :=
  if s.initState = .fixedHeader then f = s.chunk.rest ∧ s.size.state = .first
  else ∃ (b : UInt8) (t0 t : Bytes) (vs : List Int) (a0 : SizeAcc), f = b :: (t0 ++ (t ++ s.chunk.rest)) ∧ s.compression = b.toNat &&& 0xf ∧
    (b.toNat >>> 4) &&& 0x7 = 1 ∧ (∀ x, SizesRead vs (t0 ++ x) x) ∧ vs.length + 1 = s.initState.rank ∧
    (∀ seg, vs[1]? = some seg → s.segmentSize = seg.natAbs) ∧ a0.state = .first ∧ hdrRun a0 t = .more s.size

omit [Build] in
theorem IHT.chunk {f : Bytes} {s : InPlace} (h : IHT f s) (hr : s.chunk.rest = []) (p : Bytes) :
    IHT (f ++ p) { s with chunk := { buf := p, offset := 0 } } := by
  unfold IHT at h ⊢
  by_cases hi : s.initState = .fixedHeader
  · rw [if_pos hi] at h ⊢
    rw [h.1, hr]
    exact ⟨rfl, h.2⟩
  · rw [if_neg hi] at h ⊢
    obtain ⟨b, t0, t, vs, a0, h1, h2⟩ := h
    refine ⟨b, t0, t, vs, a0, ?_, h2⟩
    rw [h1, hr]
    simp [Chunk.rest]

omit [Build] in
/-- What the header decoder finds. -/
theorem IHT.size {f : Bytes} {s : InPlace} (hc : s.chunk.Inv) (hz : s.size.Inv) (h : IHT f s) (hi : s.initState ≠ .fixedHeader) :
    (∃ e s', s.headerSize = .ok (.fail e, s') ∧ e < 0) ∨
    (∃ c a, s.headerSize = .ok (.more, { s with chunk := c, size := a }) ∧ c.rest = [] ∧ IHT f { s with chunk := c, size := a }) ∨
    ∃ (v : Nat) (c : Chunk) (a : SizeAcc) (b : UInt8) (t1 : Bytes) (vs : List Int) (wv : Int),
      s.headerSize = .ok (.value v, { s with chunk := c, size := a }) ∧ f = b :: (t1 ++ c.rest) ∧ s.compression = b.toNat &&& 0xf ∧
      (b.toNat >>> 4) &&& 0x7 = 1 ∧ (∀ x, SizesRead (vs ++ [wv]) (t1 ++ x) x) ∧ v = wv.natAbs ∧ v < 2 ^ 27 ∧ vs.length + 1 = s.initState.rank ∧
      (∀ seg, vs[1]? = some seg → s.segmentSize = seg.natAbs) := by
  unfold IHT at h
  rw [if_neg hi] at h
  obtain ⟨b, t0, t, vs, a0, h1, h2, h3, h4, h5, h6, h7, h8⟩ := h
  obtain ⟨out, ho, hm⟩ := headerSize_run (s.chunk.left + 1) s.chunk s.size hc hz (by rw [s.chunk.left_eq hc]; omega)
  have hinv := hdrRun_inv s.chunk.rest s.size hz
  unfold InPlace.headerSize
  rw [ho]
  simp only [Bind.bind, Except.bind]
  cases hrun : hdrRun s.size s.chunk.rest with
  | fail =>
    rw [hrun] at hm
    obtain ⟨c', a, rfl⟩ := hm
    exact .inl ⟨_, _, rfl, by decide⟩
  | more a =>
    rw [hrun] at hm
    obtain ⟨c', rfl, _, hr⟩ := hm
    refine .inr (.inl ⟨c', a, rfl, hr, ?_⟩)
    unfold IHT
    rw [if_neg hi]
    refine ⟨b, t0, t ++ s.chunk.rest, vs, a0, ?_, h2, h3, h4, h5, h6, h7, ?_⟩
    · simp only [hr, List.append_nil]; exact h1
    · rw [hdrRun_append, h8]; exact hrun
  | value v a t1 =>
    rw [hrun] at hm hinv
    obtain ⟨c', rfl, hci, hrest, _⟩ := hm
    obtain ⟨u, e1, e2⟩ := hdrRun_prefix _ hrun
    have htot : hdrRun a0 (t ++ u) = .value v a [] := by
      rw [hdrRun_append, h8]; exact e2
    obtain ⟨wv, k, q1, q2⟩ := hdrRun_value_first h7 htot
    refine .inr (.inr ⟨v, c', a, b, t0 ++ (t ++ u), vs, wv, rfl, ?_, h2, h3, fun x => ?_, q2, hinv.2.1, h5, h6⟩)
    · rw [h1, hrest, e1]; simp
    · have := unpackSizeWithLength_append q1 x
      rw [List.nil_append] at this
      have h4' := h4 ((t ++ u) ++ x)
      rw [← List.append_assoc] at h4'
      exact SizesRead.snoc this h4'

/-! The body. -/

def InPlace.hits (s : InPlace) (x : Bytes) : Prop := ∃ r, s.reader = some r ∧ r.hits (s.chunk.rest ++ x)

theorem ip_unpack_back {s : InPlace} (h : IPInv s) (h2 : s.state ≠ .init) :
    (s.unpackSize = .error .uninit → ∀ x, s.hits x) ∧
    ∀ {v s'}, s.unpackSize = .ok (v, s') → (∃ e, v = .fail e ∧ e < 0) ∨ ∀ x, s'.hits x → s.hits x := by
  obtain ⟨r, hr1, hr2⟩ := h.reader h2
  have hs := h.unpackSize h2
  have hneg : ∀ {e s'}, s.unpackSize = .ok (.fail e, s') → e < 0 := by
    intro e s' he
    rcases hs with k | ⟨v, r, c, a, k, ho⟩
    · rw [k] at he; cases he
    · rw [k] at he
      cases he
      exact ho.1
  unfold InPlace.unpackSize at hneg ⊢
  rw [hr1] at hneg ⊢
  simp only [patchReaderUnpackSize] at hneg ⊢
  obtain ⟨k1, k2⟩ := unpackSizeC_back 6 r s.chunk s.readerSize hr2 h.chunk
  cases hu : unpackSizeC 6 r s.chunk s.readerSize with
  | error u =>
    refine ⟨fun he x => ?_, fun he => by cases he⟩
    simp only [Bind.bind, Except.bind] at he
    cases he
    exact ⟨r, hr1, k1 hu x⟩
  | ok o =>
    obtain ⟨v, r', c', a'⟩ := o
    rw [hu] at hneg
    refine ⟨(fun he => by cases he), fun he => ?_⟩
    cases he
    rcases k2 hu with ⟨e, rfl⟩ | k
    · exact .inl ⟨e, rfl, hneg rfl⟩
    · refine .inr fun x hx => ?_
      obtain ⟨r2, g1, g2⟩ := hx
      cases g1
      exact ⟨r, hr1, k x g2⟩

variable {E : MemEnv σ}

omit [Build] in
theorem ipRead_short {o : Int} {w : MWorld σ} {addr n : Nat} (h : ipRead E o w addr n = .error .uninit) : ShortMemRead E := by
  unfold ipRead at h
  simp only at h
  split at h
  · cases h
  · split at h
    · cases h
    · split at h
      · cases h
      · rename_i h0
        split at h
        · rename_i hl
          exact ⟨_, addr, n, _, _, Prod.ext (Decidable.not_not.1 h0) rfl, hl⟩
        · cases h

omit [Build] in
theorem ipDataWrite_frame {s : InPlace} {w : MWorld σ} {to : Bytes} {u} : ipDataWrite E s w to ≠ .error u ∧
    ∀ {res s' w'}, ipDataWrite E s w to = .ok (res, s', w') → s'.reader = s.reader ∧ s'.chunk = s.chunk ∧ s'.state = s.state := by
  unfold ipDataWrite
  simp only
  split
  · exact ⟨(fun h => by cases h), fun h => by cases h; exact ⟨rfl, rfl, rfl⟩⟩
  · exact ⟨(fun h => by cases h), fun h => by cases h; exact ⟨rfl, rfl, rfl⟩⟩

theorem ipData_back {s : InPlace} {w : MWorld σ} (h : IPInv s) (h2 : s.state ≠ .init) {next : SeqPhase} (hn : next ≠ .init) (diff : Bool) :
    (ipData E s w next diff = .error .uninit → ShortMemRead E) ∧
    ∀ {res s' w'}, ipData E s w next diff = .ok (res, s', w') → res < 0 ∨ (s'.state ≠ .init ∧ ∀ x, s'.hits x → s.hits x) := by
  obtain ⟨r, hr1, hr2⟩ := h.reader h2
  unfold ipData
  by_cases hz : min dataCap s.chunkSize = 0
  · simp only [hz, if_true]
    exact ⟨(fun h => by cases h), fun h => by cases h; exact .inr ⟨hn, fun x hx => hx⟩⟩
  · simp only [hz, if_false, hr1]
    obtain ⟨⟨d, r', c'⟩, e1, e2⟩ := dec_safe hr2 h.chunk (cap := dataCap) (size := min dataCap s.chunkSize) (by omega)
      (Nat.min_le_left ..) (by decide)
    have hb := dec_back hr2 h.chunk (by omega) (Nat.min_le_left ..) e1
    rw [e1]
    simp only [Bind.bind, Except.bind]
    have lift : (∀ x, r'.hits (c'.rest ++ x) → r.hits (s.chunk.rest ++ x)) → ∀ {s1 : InPlace}, s1.reader = some r' → s1.chunk = c' →
        ∀ x, s1.hits x → s.hits x := by
      intro hk s1 q1 q2 x hx
      obtain ⟨r2, g1, g2⟩ := hx
      rw [q1] at g1
      cases g1
      rw [q2] at g2
      exact ⟨r, hr1, hk x g2⟩
    match d, e2, hb with
    | .fail e, e2, _ => exact ⟨(fun h => by cases h), fun h => by cases h; exact .inl e2.1.neg.1⟩
    | .more, _, .inr hb => exact ⟨(fun h => by cases h), fun h => by cases h; exact .inr ⟨h2, lift hb.1 rfl rfl⟩⟩
    | .ok to, _, .inr hb =>
      cases diff with
      | false =>
        simp only [Bool.false_eq_true, if_false]
        refine ⟨fun h => absurd h ipDataWrite_frame.1, fun h => ?_⟩
        obtain ⟨w1, w2, w3⟩ := (ipDataWrite_frame (u := .oob)).2 h
        exact .inr ⟨by rw [w3]; exact h2, lift hb.1 w1 w2⟩
      | true =>
        simp only [if_true]
        cases hrd : ipRead E s.ongoingStep w (szOfInt s.segment.fromOffset) to.length with
        | error u =>
          refine ⟨fun he => ?_, fun he => by cases he⟩
          simp only at he
          cases he
          exact ipRead_short hrd
        | ok o =>
          obtain ⟨res, fr, w1⟩ := o
          simp only
          split
          · exact ⟨(fun h => by cases h), fun h => by cases h; exact .inl (by decide)⟩
          · split
            · exact ⟨(fun h => by cases h), fun h => by cases h⟩
            · refine ⟨fun h => absurd h ipDataWrite_frame.1, fun h => ?_⟩
              obtain ⟨w1, w2, w3⟩ := (ipDataWrite_frame (u := .oob)).2 h
              exact .inr ⟨by rw [w3]; exact h2, lift hb.1 w1 w2⟩

/-- Undefined behaviour and segments to come, for a step in the body of the patch. -/
theorem ipSwitch_back {s : InPlace} {w : MWorld σ} (h : IPInv s) (h1 : s.state ≠ .init) (h2 : s.state ≠ .failed) (h3 : s.state ≠ .done) :
    (ipSwitch E s w = .error .uninit → ShortMemRead E ∨ ∀ x, s.hits x) ∧
    (ipSwitch E s w ≠ .error .divZero) ∧
    ∀ {res s' w'}, ipSwitch E s w = .ok (res, s', w') → res < 0 ∨ (s'.state ≠ .init ∧ ∀ x, s'.hits x → s.hits x) := by
  obtain ⟨u1, u2⟩ := ip_unpack_back h h1
  have hst : ∀ {v s'}, s.unpackSize = .ok (v, s') → s'.state = s.state := by
    intro v s' he
    rcases h.unpackSize h1 with k | ⟨v, r, c, a, k, _⟩
    · rw [k] at he; cases he
    · rw [k] at he; cases he; rfl
  have ub : ∀ {u}, s.unpackSize = .error u → u = .uninit := by
    intro u he
    rcases h.unpackSize h1 with k | ⟨v, r, c, a, k, _⟩
    · rw [k] at he; cases he; rfl
    · rw [k] at he; cases he
  have nofail : ∀ {v : Int}, ¬ ∃ e, SizeRes.value v = .fail e ∧ e < 0 := fun ⟨_, h, _⟩ => by cases h
  have nofail' : ¬ ∃ e, SizeRes.more = .fail e ∧ e < 0 := fun ⟨_, h, _⟩ => by cases h
  have neg : ∀ {e s'}, s.unpackSize = .ok (.fail e, s') → e < 0 := by
    intro e s' he
    rcases h.unpackSize h1 with k | ⟨v, r, c, a, k, ho⟩
    · rw [k] at he; cases he
    · rw [k] at he; cases he; exact ho.1
  -- the steps that start with a size
  have main : ∀ (k : InPlace → MWorld σ → Int → C (IPRes σ)),
      (∀ s1 v, k s1 w v ≠ .error .uninit ∧ k s1 w v ≠ .error .divZero) →
      (∀ {s1 v res s' w'}, k s1 w v = .ok (res, s', w') → res < 0 ∨ (s'.state ≠ .init ∧ s'.reader = s1.reader ∧ s'.chunk = s1.chunk)) →
      ∀ (x : C (IPRes σ)), x = (do
        match ← s.unpackSize with
        | (.more, s) => .ok (1, s, w)
        | (.fail e, s) => .ok (e, s, w)
        | (.value size, s) => k s w size) →
      (x = .error .uninit → ShortMemRead E ∨ ∀ x, s.hits x) ∧ (x ≠ .error .divZero) ∧
      ∀ {res s' w'}, x = .ok (res, s', w') → res < 0 ∨ (s'.state ≠ .init ∧ ∀ x, s'.hits x → s.hits x) := by
    intro k hk1 hk2 x hx
    subst hx
    cases hu : s.unpackSize with
    | error u =>
      have := ub hu
      subst this
      simp only [Bind.bind, Except.bind]
      exact ⟨fun _ => .inr (u1 hu), (fun h => by cases h), fun h => by cases h⟩
    | ok o =>
      obtain ⟨v, s1⟩ := o
      simp only [Bind.bind, Except.bind]
      cases v with
      | more => exact ⟨(fun h => by cases h), (fun h => by cases h), fun h => by
          cases h; exact .inr ⟨by rw [hst hu]; exact h1, (u2 hu).resolve_left nofail'⟩⟩
      | fail e => exact ⟨(fun h => by cases h), (fun h => by cases h), fun h => by cases h; exact .inl (neg hu)⟩
      | value v =>
        have hb := (u2 hu).resolve_left nofail
        refine ⟨fun h => absurd h (hk1 s1 v).1, (hk1 s1 v).2, fun h => ?_⟩
        rcases hk2 h with g | ⟨g1, g2, g3⟩
        · exact .inl g
        · refine .inr ⟨g1, fun x hx => hb x ?_⟩
          obtain ⟨r, q1, q2⟩ := hx
          exact ⟨r, by rw [← g2]; exact q1, by rw [← g3]; exact q2⟩
  unfold ipSwitch
  rcases SeqPhase.body_cases h1 h2 h3 with hs | hs | hs | hs | hs | hs <;> rw [hs] <;> simp only
  · refine main (fun s w size => if size > 0 then .ok (NOT_IMPLEMENTED, s, w)
      else
        let toOffset := sz (s.segment.index * s.segmentSize)
        let s := { s with
          state := .diffSize
          segment := {
            index := sz (s.segment.index + 1)
            fromOffset := wrapInt (max (sz (s.segmentSize * sz (s.segment.index + 1))) s.shiftSize : Nat)
            toOffset := toOffset
            toSize := min s.segmentSize (szOfInt ((s.toSize : Int) - toOffset))
            toPos := 0 } }
        let (res, w) := ipErase E s.ongoingStep w s.segment.toOffset s.segment.toSize
        .ok (res, s, w)) ?_ ?_ _ rfl
    · intro s1 v
      simp only
      split <;> exact ⟨(fun h => by cases h), fun h => by cases h⟩
    · intro s1 v res s' w' he
      simp only at he
      split at he
      · cases he; exact .inl (by decide)
      · cases he; exact .inr ⟨by simp, rfl, rfl⟩
  · refine main (fun s w size => if sizeTooBig s.toPos s.toSize size then .ok (CORRUPT_PATCH, s, w)
      else .ok (0, { s with state := .diffData, chunkSize := szOfInt size }, w)) ?_ ?_ _ rfl
    · intro s1 v
      split <;> exact ⟨(fun h => by cases h), fun h => by cases h⟩
    · intro s1 v res s' w' he
      split at he
      · cases he; exact .inl (by decide)
      · cases he; exact .inr ⟨(by simp), rfl, rfl⟩
  · have hno : ipData E s w .extraSize true ≠ .error .divZero := by
      rcases ipData_ok (E := E) h (by rw [hs]; rfl) (next := .extraSize) rfl (by decide) (by decide) (by decide) true w with (k | k) | ⟨o, k, _⟩ <;>
        (rw [k]; intro h; cases h)
    have hd := ipData_back (E := E) (w := w) h h1 (next := .extraSize) (by decide) true
    exact ⟨fun h => .inl (hd.1 h), hno, hd.2⟩
  · refine main (fun s w size => if sizeTooBig s.toPos s.toSize size then .ok (CORRUPT_PATCH, s, w)
      else .ok (0, { s with state := .extraData, chunkSize := szOfInt size }, w)) ?_ ?_ _ rfl
    · intro s1 v
      split <;> exact ⟨(fun h => by cases h), fun h => by cases h⟩
    · intro s1 v res s' w' he
      split at he
      · cases he; exact .inl (by decide)
      · cases he; exact .inr ⟨(by simp), rfl, rfl⟩
  · have hno : ipData E s w .adjustment false ≠ .error .divZero := by
      rcases ipData_ok (E := E) h (by rw [hs]; rfl) (next := .adjustment) rfl (by decide) (by decide) (by decide) false w with (k | k) | ⟨o, k, _⟩ <;>
        (rw [k]; intro h; cases h)
    have hd := ipData_back (E := E) (w := w) h h1 (next := .adjustment) (by decide) false
    exact ⟨fun h => .inl (hd.1 h), hno, hd.2⟩
  · refine main (fun s w offset => if s.toPos = s.toSize then
        let (res, w) := allStepsCompleted E w
        .ok (res, { s with state := .done }, w)
      else if s.segment.toPos = s.segment.toSize then
        let (res, s, w) := nextStep E s w
        .ok (res, { s with state := .dfpatchSize }, w)
      else if s.segment.fromOffset + offset < -2 ^ 31 ∨ 2 ^ 31 ≤ s.segment.fromOffset + offset then .error .overflow
      else
        .ok (0, { s with
          segment := { s.segment with fromOffset := s.segment.fromOffset + offset }
          state := .diffSize }, w)) ?_ ?_ _ rfl
    · intro s1 v
      simp only
      split
      · exact ⟨(fun h => by cases h), fun h => by cases h⟩
      · split
        · exact ⟨(fun h => by cases h), fun h => by cases h⟩
        · split <;> exact ⟨(fun h => by cases h), fun h => by cases h⟩
    · intro s1 v res s' w' he
      simp only at he
      split at he
      · cases he; exact .inr ⟨(by simp), rfl, rfl⟩
      · split at he
        · obtain ⟨r1, k, w1, e, _⟩ := nextStep_ok E s1 w
          rw [e] at he
          cases he
          exact .inr ⟨(by simp), rfl, rfl⟩
        · split at he
          · cases he
          · cases he; exact .inr ⟨(by simp), rfl, rfl⟩

/-! Uninitialised bytes while the from-data is moved. -/

omit [Build] in
theorem copyLoop_short (o : Int) (seg ra wa : Nat) : ∀ (fuel off : Nat) (w : MWorld σ),
    copyLoop E o seg ra wa fuel off w = .error .uninit → ShortMemRead E
  | 0, _, _, h => by cases h
  | fuel + 1, off, w, h => by
    unfold copyLoop at h
    split at h
    · simp only [Bind.bind, Except.bind] at h
      split at h
      · rename_i e
        cases h
        exact ipRead_short e
      · split at h
        · cases h
        · split at h
          · cases h
          · exact copyLoop_short o seg ra wa fuel _ _ h
    · cases h

omit [Build] in
theorem shiftLoop_short : ∀ (n : Nat) (s : InPlace) (w : MWorld σ) (ra wa : Nat),
    shiftLoop E n s w ra wa = .error .uninit → ShortMemRead E
  | 0, _, _, _, _, h => by cases h
  | n + 1, s, w, ra, wa, h => by
    unfold shiftLoop at h
    simp only [Bind.bind, Except.bind] at h
    split at h
    · rename_i e
      cases h
      unfold shiftOne at e
      simp only [Bind.bind, Except.bind] at e
      split at e
      · cases e
      · split at e
        · rename_i e'
          cases e
          exact copyLoop_short _ _ _ _ _ _ _ e'
        · split at e <;> cases e
    · split at h
      · cases h
      · exact shiftLoop_short n _ _ _ _ h

omit [Build] in
theorem shift_causes {s : InPlace} {w : MWorld σ} {m f : Nat} :
    (inPlaceShiftMemory E s w m f = .error .uninit → ShortMemRead E) ∧
    (inPlaceShiftMemory E s w m f = .error .divZero → s.segmentSize = 0) := by
  unfold inPlaceShiftMemory
  split
  · rename_i h0
    exact ⟨(fun h => by cases h), fun _ => h0⟩
  · refine ⟨fun h => shiftLoop_short _ _ _ _ _ h, fun h => ?_⟩
    exfalso
    rcases shiftLoop_safe E _ _ _ _ _ with e | ⟨_, _, _, e, _⟩ <;> (rw [e] at h; cases h)

/-! The steps of the header. -/

omit [Build] in
theorem IHT.head {f : Bytes} {b : UInt8} {t1 rest : Bytes} {vs : List Int} {wv : Int} (hf : f = b :: (t1 ++ rest)) (hk : (b.toNat >>> 4) &&& 0x7 = 1)
    (hc : b.toNat &&& 0xf ≤ 6) (hv : ∀ x, SizesRead (vs ++ [wv]) (t1 ++ x) x) (hl : vs.length = 4) (x : Bytes) :
    ∃ memory seg shift from_, vs[1]? = some seg ∧ InPlaceHead (f ++ x) (b.toNat &&& 0xf) memory seg shift from_ wv (rest ++ x) := by
  match vs, hl with
  | [m, sg, sh, fr], _ =>
    obtain ⟨n0, t1', h1, n1, t2, h2, n2, t3, h3, n3, t4, h4, n4, t5, h5, h6⟩ := hv (rest ++ x)
    cases h6
    refine ⟨m, sg, sh, fr, rfl, b, _, t1', t2, t3, t4, n0, n1, n2, n3, n4, ?_, ?_, ?_, hc, h1, h2, h3, h4, h5⟩
    · rw [hf]; simp
    · have : (b.toNat >>> 4) &&& 0x7 = b.toNat / 16 % 8 := by
        rw [Nat.shiftRight_eq_div_pow, show (0x7 : Nat) = 2 ^ 3 - 1 from rfl, Nat.and_two_pow_sub_one_eq_mod]
      rw [← this]; exact hk
    · exact (Nat.and_two_pow_sub_one_eq_mod b.toNat 4).symm

/-- The readers, by compression. -/
theorem init_hits {n c : Nat} {r : CReader} (h : CReader.init n c = some r) : c ≤ 6 ∧ ∀ x, r.hits x → c = 2 ∧ CrleEmpty 0 x := by
  unfold CReader.init at h
  split at h
  · rename_i hc; cases h; exact ⟨by omega, fun x hx => hx.elim⟩
  · split at h
    · rename_i hc; cases h; exact ⟨by omega, fun x hx => ⟨hc, hx⟩⟩
    · split at h
      · rename_i hc; cases h; exact ⟨by omega, fun x hx => hx.elim⟩
      · split at h
        · rename_i hc
          cases hL : Build.lzma with
          | none => rw [hL] at h; cases h
          | some L => rw [hL] at h; cases h; exact ⟨by omega, fun x hx => hx.elim⟩
        · cases h

/-- What a step in the header leaves. -/
def InitOut (f : Bytes) (s' : InPlace) : Prop :=
  (s'.state = .init ∧ IHT f s') ∨ (s'.state ≠ .init ∧ ∀ x, s'.hits x → EmptyCrleInPlace (f ++ x))

theorem ipInitSize_step {f : Bytes} {s : InPlace} (hI : IPInv s) (hs : s.state = .init) (h : IHT f s) (hi : s.initState ≠ .fixedHeader) {w : MWorld σ}
    {next : IPInit} (hn : next.rank = s.initState.rank + 1) {set : InPlace → Nat → InPlace}
    (hset : ∀ s1 v, s1.initState = s.initState → (set s1 v).state = s1.state ∧ (set s1 v).chunk = s1.chunk ∧ (set s1 v).size = s1.size ∧ (set s1 v).compression = s1.compression ∧
      (set s1 v).segmentSize = if s.initState = .segmentSize then v else s1.segmentSize)
    {res s' w'} (he : ipInitSize s w next set = .ok (res, s', w')) : res < 0 ∨ InitOut f s' := by
  unfold ipInitSize at he
  rcases h.size hI.chunk hI.size hi with ⟨e, s1, e1, e2⟩ | ⟨c, a, e1, e2, e3⟩ | ⟨v, c, a, b, t1, vs, wv, e1, hf, hc, hk, hv, hw, hlt, hl, hseg⟩
  · rw [e1] at he; cases he; exact .inl e2
  · rw [e1] at he; cases he; exact .inr (.inl ⟨hs, e3⟩)
  · rw [e1] at he
    simp only [Bind.bind, Except.bind] at he
    have hz : szOfInt (v : Int) = v := by unfold szOfInt; omega
    rw [hz] at he
    generalize hs1 : ({ s with chunk := c, size := a } : InPlace) = s1 at he
    obtain ⟨k1, k2, k3, k4, k5⟩ := hset s1 v (by rw [← hs1])
    cases he
    refine .inr (.inl ⟨?_, ?_⟩)
    · show (set s1 v).state = _
      rw [k1, ← hs1]; exact hs
    · unfold IHT
      rw [if_neg (by intro h0; have h0 : next = .fixedHeader := h0; rw [h0] at hn; simp [IPInit.rank] at hn)]
      refine ⟨b, t1, [], vs ++ [wv], { (set s1 v).size with state := .first }, ?_, ?_, hk, hv, ?_, ?_, rfl, rfl⟩
      · show f = b :: (t1 ++ ([] ++ (set s1 v).chunk.rest))
        rw [k2, ← hs1]; exact hf
      · show (set s1 v).compression = _
        rw [k4, ← hs1]; exact hc
      · show (vs ++ [wv]).length + 1 = next.rank
        simp only [List.length_append, List.length_cons, List.length_nil]
        omega
      · intro seg hg
        show (set s1 v).segmentSize = _
        rw [k5]
        have hsg : s1.segmentSize = s.segmentSize := by rw [← hs1]
        rw [hsg]
        by_cases hq : s.initState = .segmentSize
        · rw [if_pos hq]
          rw [hq] at hl
          have hl1 : vs.length = 1 := by simp [IPInit.rank] at hl; omega
          rw [List.getElem?_append_right (by omega), hl1] at hg
          cases hg
          exact hw
        · rw [if_neg hq]
          by_cases hl2 : vs.length ≤ 1
          · exfalso
            have : vs.length = 0 := by
              rcases Nat.lt_or_ge vs.length 1 with h | h
              · omega
              · exfalso
                have : s.initState.rank = 2 := by omega
                cases hx : s.initState <;> rw [hx] at this hq <;> simp [IPInit.rank] at this hq
            rw [List.getElem?_eq_none (by rw [List.length_append, this]; exact Nat.le_refl 1)] at hg
            cases hg
          · rw [List.getElem?_append_left (by omega)] at hg
            exact hseg seg hg

theorem ipInitToSize_step (hE : NeverPositive E) {f : Bytes} {s : InPlace} (hI : IPInv s) (hs : s.state = .init) (h : IHT f s) (hi : s.initState = .toSize) {w : MWorld σ} :
    (ipInitToSize E s w = .error .uninit → ShortMemRead E) ∧
    (ipInitToSize E s w = .error .divZero → ∀ x, ZeroSegmentSize (f ++ x)) ∧
    ∀ {res s' w'}, ipInitToSize E s w = .ok (res, s', w') → res < 0 ∨ InitOut f s' := by
  unfold ipInitToSize
  rcases h.size hI.chunk hI.size (by rw [hi]; decide) with ⟨e, s1, e1, e2⟩ | ⟨c, a, e1, e2, e3⟩ | ⟨v, c, a, b, t1, vs, wv, e1, hf, hc, hk, hv, hw, hlt, hl, hseg⟩
  · rw [e1]; exact ⟨(fun h => by cases h), (fun h => by cases h), fun h => by cases h; exact .inl e2⟩
  · rw [e1]; exact ⟨(fun h => by cases h), (fun h => by cases h), fun h => by cases h; exact .inr (.inl ⟨hs, e3⟩)⟩
  · rw [e1]
    simp only [Bind.bind, Except.bind]
    have hz : szOfInt (v : Int) = v := by unfold szOfInt; omega
    cases hin : CReader.init (szOfInt ((s.patchSize : Int) - c.offset)) s.compression with
    | none => exact ⟨(fun h => by cases h), (fun h => by cases h), fun h => by cases h; exact .inl (by decide)⟩
    | some r =>
      obtain ⟨hc6, hhits⟩ := init_hits hin
      have hl4 : vs.length = 4 := by rw [hi] at hl; simp [IPInit.rank] at hl; omega
      have hempty : ∀ x, r.hits (c.rest ++ x) → EmptyCrleInPlace (f ++ x) := by
        intro x hx
        obtain ⟨hc2, hx⟩ := hhits _ hx
        obtain ⟨m, sg, sh, fr, _, hh⟩ := IHT.head hf hk (by rw [← hc]; exact hc6) hv hl4 x
        rw [← hc, hc2] at hh
        exact ⟨m, sg, sh, fr, wv, _, hh, hx⟩
      simp only
      rw [if_neg (by omega), hz]
      by_cases hp : (v : Int) > 0
      · simp only [hp, if_true]
        generalize hs1 : ({ s with chunk := c, size := a, readerSize := { s.readerSize with state := .first }, reader := some r, toPos := 0, toSize := v, segment := { s.segment with index := 0 } } : InPlace) = s1
        have hr1 : s1.reader = some r := by rw [← hs1]
        have hch : s1.chunk = c := by rw [← hs1]
        have hsg : s1.segmentSize = s.segmentSize := by rw [← hs1]
        have hms : s1.memorySize = s.memorySize := by rw [← hs1]
        have hfs : s1.fromSize = s.fromSize := by rw [← hs1]
        rcases inPlaceShiftMemory_safe E s1 w s.memorySize s.fromSize with (e | e) | ⟨res, k, w1, e, hcb⟩
        · rw [e]
          exact ⟨fun _ => shift_causes.1 e, (fun h => by cases h), fun h => by cases h⟩
        · rw [e]
          refine ⟨(fun h => by cases h), fun _ x => ?_, fun h => by cases h⟩
          have h0 := shift_causes.2 e
          rw [hsg] at h0
          obtain ⟨m, sg, sh, fr, hg, hh⟩ := IHT.head hf hk (by rw [← hc]; exact hc6) hv hl4 x
          have := hseg sg hg
          have hsg0 : sg = 0 := by omega
          subst hsg0
          exact ⟨_, m, sh, fr, wv, _, hh, by omega⟩
        · rw [e]
          simp only
          refine ⟨?_, ?_, ?_⟩
          · split <;> exact fun h => by cases h
          · split <;> exact fun h => by cases h
          · intro res' s' w' he
            by_cases hr : res = 0
            · rw [if_neg (by simp [hr])] at he
              cases he
              refine .inr (.inr ⟨by simp, fun x hx => hempty x ?_⟩)
              obtain ⟨r2, g1, g2⟩ := hx
              have g1 : s1.reader = some r2 := g1
              have g2 : r2.hits (s1.chunk.rest ++ x) := g2
              rw [hr1] at g1
              cases g1
              rw [hch] at g2
              exact g2
            · rw [if_pos hr] at he
              cases he
              rcases hcb.2 with k | ⟨k, _⟩ | k
              · exact absurd k hr
              · exact .inl k
              · have := hE _ k
                exact .inl (by omega)
      · simp only [hp, if_false]
        refine ⟨(fun h => by cases h), (fun h => by cases h), fun h => ?_⟩
        cases h
        refine .inr (.inr ⟨by simp, fun x hx => hempty x ?_⟩)
        obtain ⟨r2, g1, g2⟩ := hx
        cases g1
        exact g2

theorem ipInit_step (hE : NeverPositive E) {f : Bytes} {s : InPlace} (hI : IPInv s) (hs : s.state = .init) (h : IHT f s) {w : MWorld σ} :
    (ipInit E s w = .error .uninit → ShortMemRead E) ∧
    (ipInit E s w = .error .divZero → ∀ x, ZeroSegmentSize (f ++ x)) ∧
    ∀ {res s' w'}, ipInit E s w = .ok (res, s', w') → res < 0 ∨ InitOut f s' := by
  have noerr : ∀ (next : IPInit) (set : InPlace → Nat → InPlace), (∀ s v, ∃ a b c d, set s v = { s with memorySize := a, segmentSize := b, shiftSize := c, fromSize := d }) →
      ∀ u, ipInitSize s w next set ≠ .error u := by
    intro next set hset u he
    obtain ⟨o, ho, _⟩ := ipInitSize_ok (E := E) hI hs w next set hset
    rw [ho] at he
    cases he
  unfold ipInit
  cases hi : s.initState with
  | fixedHeader =>
    unfold IHT at h
    rw [if_pos hi] at h
    simp only [ipInitFixedHeader]
    cases hr : s.chunk.rest with
    | nil =>
      rw [s.chunk.get_nil hI.chunk hr]
      exact ⟨(fun h => by cases h), (fun h => by cases h), fun h => by cases h; exact .inl (by decide)⟩
    | cons b t =>
      obtain ⟨e1, e2, e3⟩ := s.chunk.get_cons hI.chunk hr
      rw [e1]
      simp only [Bind.bind, Except.bind]
      by_cases hk : (b.toNat >>> 4) &&& 0x7 = 1
      · rw [if_neg (by simp [hk])]
        refine ⟨(fun h => by cases h), (fun h => by cases h), fun h' => ?_⟩
        cases h'
        refine .inr (.inl ⟨hs, ?_⟩)
        unfold IHT
        rw [if_neg (by simp)]
        refine ⟨b, [], [], [], { s.size with state := .first }, ?_, rfl, hk, fun x => rfl, rfl, (fun seg h => by cases h), rfl, rfl⟩
        rw [h.1, hr]
        show b :: t = b :: ([] ++ ([] ++ _))
        simp only [List.nil_append]
        rw [e2]
      · rw [if_pos hk]
        exact ⟨(fun h => by cases h), (fun h => by cases h), fun h => by cases h; exact .inl (by decide)⟩
  | memorySize =>
    simp only
    exact ⟨fun he => absurd he (noerr _ _ (fun s v => ⟨_, _, _, _, rfl⟩) _), fun he => absurd he (noerr _ _ (fun s v => ⟨_, _, _, _, rfl⟩) _),
      fun {res s' w'} he => by
        refine ipInitSize_step hI hs h (by rw [hi]; decide) ?_ ?_ he
        · rw [hi]; rfl
        · exact fun s v _ => ⟨rfl, rfl, rfl, rfl, by rw [hi]; rfl⟩⟩
  | segmentSize =>
    simp only
    exact ⟨fun he => absurd he (noerr _ _ (fun s v => ⟨_, _, _, _, rfl⟩) _), fun he => absurd he (noerr _ _ (fun s v => ⟨_, _, _, _, rfl⟩) _),
      fun {res s' w'} he => by
        refine ipInitSize_step hI hs h (by rw [hi]; decide) ?_ ?_ he
        · rw [hi]; rfl
        · exact fun s v _ => ⟨rfl, rfl, rfl, rfl, by rw [hi]; rfl⟩⟩
  | shiftSize =>
    simp only
    exact ⟨fun he => absurd he (noerr _ _ (fun s v => ⟨_, _, _, _, rfl⟩) _), fun he => absurd he (noerr _ _ (fun s v => ⟨_, _, _, _, rfl⟩) _),
      fun {res s' w'} he => by
        refine ipInitSize_step hI hs h (by rw [hi]; decide) ?_ ?_ he
        · rw [hi]; rfl
        · exact fun s v _ => ⟨rfl, rfl, rfl, rfl, by rw [hi]; rfl⟩⟩
  | fromSize =>
    simp only
    exact ⟨fun he => absurd he (noerr _ _ (fun s v => ⟨_, _, _, _, rfl⟩) _), fun he => absurd he (noerr _ _ (fun s v => ⟨_, _, _, _, rfl⟩) _),
      fun {res s' w'} he => by
        refine ipInitSize_step hI hs h (by rw [hi]; decide) ?_ ?_ he
        · rw [hi]; rfl
        · exact fun s v _ => ⟨rfl, rfl, rfl, rfl, by rw [hi]; rfl⟩⟩
  | toSize => exact ipInitToSize_step hE hI hs h hi

/-! Steps, loops and histories. -/

def IPAtRest (s : InPlace) : Prop := s.state = .done ∨ s.state = .failed ∨ s.chunk.rest = []

theorem ipOnce_rest (hE : NeverPositive E) {s : InPlace} {w : MWorld σ} (h : IPState s) {res s' w'} (he : ipOnce E s w = .ok (res, s', w')) :
    IPState s' ∧ (res ≠ 0 → IPAtRest s') := by
  by_cases hf : s.state = .failed
  · rw [ipOnce_failed hf] at he
    cases he
    exact ⟨h, fun _ => .inr (.inl hf)⟩
  · have hI : IPInv s := h.resolve_left hf
    rcases ipOnce_ok (E := E) hI w hf with ⟨u, e, _⟩ | ⟨out, e, ho⟩
    · rw [e] at he; cases he
    · rw [e] at he
      cases he
      cases ho with
      | ok _ g0 gc g1 =>
        refine ⟨.inr g1, fun hr => ?_⟩
        rcases gc with k | ⟨k, _⟩ | k
        · exact absurd k hr
        · omega
        · have := hE _ k
          omega
      | more _ g1 g2 => exact ⟨.inr g1, fun _ => .inr (.inr g2)⟩
      | done g => exact ⟨h, fun _ => .inl g⟩
      | fail _ _ _ g => exact ⟨.inl g, fun _ => .inr (.inl g)⟩

/-- Where the object is, with `f` fed so far. -/
structure IPFed (f : Bytes) (s : InPlace) : Prop where
  inv : IPState s
  header : s.state = .init → IHT f s
  empty : s.state ≠ .init → s.state ≠ .failed → s.state ≠ .done → ∀ x, s.hits x → EmptyCrleInPlace (f ++ x)

theorem IPFed.start (n : Nat) : IPFed [] (inPlaceInit n) :=
  ⟨.start n, fun _ => by unfold IHT; rw [if_pos (show (inPlaceInit n).initState = .fixedHeader from rfl)]; exact ⟨rfl, rfl⟩, fun h => absurd rfl h⟩

theorem IPFed.chunk {f : Bytes} {s : InPlace} (h : IPFed f s) (ha : IPAtRest s) (p : Bytes) :
    IPFed (f ++ p) { s with chunk := { buf := p, offset := 0 } } := by
  refine ⟨?_, fun hs => ?_, fun h1 h2 h3 x hx => ?_⟩
  · exact h.inv.imp id fun k => k.setChunk p
  · refine IHT.chunk (h.header hs) ?_ p
    have hs : s.state = .init := hs
    rcases ha with ha | ha | ha
    · rw [hs] at ha; cases ha
    · rw [hs] at ha; cases ha
    · exact ha
  · have hr : s.chunk.rest = [] := by
      rcases ha with ha | ha | ha
      · exact absurd ha h3
      · exact absurd ha h2
      · exact ha
    rw [List.append_assoc]
    refine h.empty h1 h2 h3 (p ++ x) ?_
    obtain ⟨r, g1, g2⟩ := hx
    refine ⟨r, g1, ?_⟩
    rw [hr]
    exact g2

theorem IPFed.once (hE : NeverPositive E) {f : Bytes} {s : InPlace} {w : MWorld σ} (h : IPFed f s) {res s' w'} (he : ipOnce E s w = .ok (res, s', w')) :
    IPFed f s' := by
  have hinv := (ipOnce_rest hE h.inv he).1
  by_cases hf : s.state = .failed
  · rw [ipOnce_failed hf] at he
    cases he
    exact h
  have hI : IPInv s := h.inv.resolve_left hf
  unfold ipOnce at he
  by_cases hd : s.state = .done
  · rw [if_pos hd] at he
    cases he
    exact h
  · rw [if_neg hd] at he
    cases hsw : ipSwitch E s w with
    | error u => rw [hsw] at he; cases he
    | ok v =>
      obtain ⟨r1, s1, w1⟩ := v
      rw [hsw] at he
      simp only [Bind.bind, Except.bind] at he
      by_cases hneg : r1 < 0
      · rw [if_pos hneg] at he
        cases he
        exact ⟨hinv, (fun h => by cases h), fun _ h => absurd rfl h⟩
      · rw [if_neg hneg] at he
        cases he
        by_cases hi : s.state = .init
        · simp only [ipSwitch, hi] at hsw
          rcases (ipInit_step hE hI hi (h.header hi)).2.2 hsw with k | ⟨k1, k2⟩ | ⟨k1, k2⟩
          · exact absurd k hneg
          · exact ⟨hinv, fun _ => k2, fun h => absurd k1 h⟩
          · exact ⟨hinv, fun h => absurd h k1, fun _ _ _ => k2⟩
        · obtain ⟨k1, k2⟩ := ((ipSwitch_back hI hi hf hd).2.2 hsw).resolve_left hneg
          exact ⟨hinv, fun h => absurd h k1, fun _ _ _ x hx => h.empty hi hf hd x (k2 x hx)⟩

theorem IPFed.cause (hE : NeverPositive E) {f : Bytes} {s : InPlace} {w : MWorld σ} (h : IPFed f s) :
    (ipOnce E s w = .error .uninit → ShortMemRead E ∨ ∀ x, EmptyCrleInPlace (f ++ x)) ∧
    (ipOnce E s w = .error .divZero → ∀ x, ZeroSegmentSize (f ++ x)) := by
  by_cases hf : s.state = .failed
  · rw [ipOnce_failed hf]
    exact ⟨(fun h => by cases h), fun h => by cases h⟩
  have hI : IPInv s := h.inv.resolve_left hf
  by_cases hd : s.state = .done
  · unfold ipOnce
    rw [if_pos hd]
    exact ⟨(fun h => by cases h), fun h => by cases h⟩
  have key : ∀ {u}, ipOnce E s w = .error u → ipSwitch E s w = .error u := by
    intro u he
    unfold ipOnce at he
    rw [if_neg hd] at he
    cases hsw : ipSwitch E s w with
    | error u => rw [hsw] at he; simp only [Bind.bind, Except.bind] at he; cases he; rfl
    | ok v =>
      rw [hsw] at he
      simp only [Bind.bind, Except.bind] at he
      split at he <;> cases he
  by_cases hi : s.state = .init
  · obtain ⟨k1, k2, _⟩ := ipInit_step hE hI hi (h.header hi) (w := w)
    simp only [ipSwitch, hi] at key
    exact ⟨fun he => .inl (k1 (key he)), fun he => k2 (key he)⟩
  · obtain ⟨k1, k2, _⟩ := ipSwitch_back (E := E) (w := w) hI hi hf hd
    exact ⟨fun he => (k1 (key he)).imp id fun k x => h.empty hi hf hd x (k x), fun he => absurd (key he) k2⟩

theorem ipLoop_cause (hE : NeverPositive E) {f : Bytes} : ∀ (fuel : Nat) (res : Int) (s : InPlace) (w : MWorld σ), IPFed f s → (res ≠ 0 → IPAtRest s) →
      (∀ {u}, ipProcessLoop E fuel res s w = .error u → u = .timeout ∨ ∃ s' w', IPFed f s' ∧ ipOnce E s' w' = .error u) ∧
      ∀ {out}, ipProcessLoop E fuel res s w = .ok out → IPFed f out.2.1 ∧ IPAtRest out.2.1
  | 0, _, _, _, _, _ => ⟨fun h => by cases h; exact .inl rfl, fun h => by cases h⟩
  | fuel + 1, res, s, w, h, hr => by
    unfold ipProcessLoop
    by_cases hc : s.chunk.available = true ∧ res ≥ 0
    · rw [if_pos hc]
      cases ho : ipOnce E s w with
      | error u =>
        refine ⟨fun he => ?_, fun he => by cases he⟩
        simp only [Bind.bind, Except.bind] at he
        cases he
        exact .inr ⟨s, w, h, ho⟩
      | ok o =>
        obtain ⟨r1, s1, w1⟩ := o
        exact ipLoop_cause hE fuel r1 s1 w1 (h.once hE ho) (ipOnce_rest hE h.inv ho).2
    · rw [if_neg hc]
      refine ⟨(fun he => by cases he), fun he => ?_⟩
      cases he
      refine ⟨h, ?_⟩
      by_cases h0 : res = 0
      · by_cases hf : s.state = .failed
        · exact .inr (.inl hf)
        · right; right
          have hci := (h.inv.resolve_left hf).chunk
          have : ¬ s.chunk.available = true := fun hx => hc ⟨hx, by omega⟩
          rw [s.chunk.available_eq hci] at this
          cases hrest : s.chunk.rest with
          | nil => rfl
          | cons b t => rw [hrest] at this; simp at this
      · exact hr h0

theorem ipFinalizeLoop_cause (hE : NeverPositive E) {f : Bytes} : ∀ (fuel : Nat) (s : InPlace) (w : MWorld σ), IPFed f s →
      (∀ {u}, ipFinalizeLoop E fuel s w = .error u → u = .timeout ∨ ∃ s' w', IPFed f s' ∧ ipOnce E s' w' = .error u) ∧
      ∀ {out}, ipFinalizeLoop E fuel s w = .ok out → IPFed f out.2.1 ∧ IPAtRest out.2.1
  | 0, _, _, _ => ⟨fun h => by cases h; exact .inl rfl, fun h => by cases h⟩
  | fuel + 1, s, w, h => by
    unfold ipFinalizeLoop
    cases ho : ipOnce E s w with
    | error u =>
      refine ⟨fun he => ?_, fun he => by cases he⟩
      simp only [Bind.bind, Except.bind] at he
      cases he
      exact .inr ⟨s, w, h, ho⟩
    | ok o =>
      obtain ⟨r1, s1, w1⟩ := o
      simp only [Bind.bind, Except.bind]
      by_cases h0 : r1 = 0
      · rw [if_pos h0]
        exact ipFinalizeLoop_cause hE fuel s1 w1 (h.once hE ho)
      · rw [if_neg h0]
        refine ⟨(fun he => by cases he), fun he => ?_⟩
        cases he
        exact ⟨h.once hE ho, (ipOnce_rest hE h.inv ho).2 h0⟩

/-- Undefined behaviour in a history of calls happens in a step. -/
theorem ipCalls_cause (hE : NeverPositive E) : ∀ (calls : List Call) {f s w u}, IPFed f s → IPAtRest s → runInPlaceCalls E s w calls = .error u →
      u = .timeout ∨ ∃ f' later s' w', f ++ fedBytes calls = f' ++ later ∧ IPFed f' s' ∧ ipOnce E s' w' = .error u
  | [], f, s, w, u, _, _, h => by cases h
  | .process p :: cs, f, s, w, u, hp, ha, h => by
    have h1 := hp.chunk ha p
    unfold runInPlaceCalls inPlaceProcess at h
    simp only at h
    generalize ({ s with chunk := { buf := p, offset := 0 } } : InPlace) = s0 at *
    obtain ⟨k1, k2⟩ := ipLoop_cause hE s0.fuel 0 s0 w h1 (fun h => absurd rfl h)
    cases hl : ipProcessLoop E s0.fuel 0 s0 w with
    | error e =>
      rw [hl] at h
      simp only [Bind.bind, Except.bind] at h
      cases h
      refine (k1 hl).imp id fun ⟨s', w', g1, g2⟩ => ⟨f ++ p, fedBytes cs, s', w', by simp [fedBytes], g1, g2⟩
    | ok o =>
      obtain ⟨r1, s1, w1⟩ := o
      rw [hl] at h
      obtain ⟨g1, g2⟩ := k2 hl
      have key : runInPlaceCalls E s1 w1 cs = .error u := by
        simp only [Bind.bind, Except.bind] at h
        split at h
        · rename_i hx
          split at hx <;> cases hx
        · rename_i hx
          have : ∃ r, (r, s1, w1) = ‹IPRes σ› := by
            split at hx <;> (cases hx; exact ⟨_, rfl⟩)
          obtain ⟨r, rfl⟩ := this
          simp only at h
          split at h
          · rename_i e
            cases h
            exact e
          · cases h
      rcases ipCalls_cause hE cs g1 g2 key with q | ⟨f', later, s', w', q1, q2, q3⟩
      · exact .inl q
      · exact .inr ⟨f', later, s', w', by rw [← q1]; simp [fedBytes], q2, q3⟩
  | .finalize :: cs, f, s, w, u, hp, ha, h => by
    have h1 := hp.chunk ha []
    rw [List.append_nil] at h1
    unfold runInPlaceCalls inPlaceFinalize at h
    simp only at h
    generalize ({ s with chunk := { buf := [], offset := 0 } } : InPlace) = s0 at *
    obtain ⟨k1, k2⟩ := ipFinalizeLoop_cause hE s0.fuel s0 w h1
    cases hl : ipFinalizeLoop E s0.fuel s0 w with
    | error e =>
      rw [hl] at h
      simp only [Bind.bind, Except.bind] at h
      cases h
      refine (k1 hl).imp id fun ⟨s', w', g1, g2⟩ => ⟨f, fedBytes cs, s', w', by simp [fedBytes], g1, g2⟩
    | ok o =>
      obtain ⟨r1, s1, w1⟩ := o
      rw [hl] at h
      obtain ⟨g1, g2⟩ := k2 hl
      have key : runInPlaceCalls E s1 w1 cs = .error u := by
        simp only [Bind.bind, Except.bind] at h
        split at h
        · rename_i e
          cases h
          exact e
        · cases h
      rcases ipCalls_cause hE cs g1 g2 key with q | ⟨f', later, s', w', q1, q2, q3⟩
      · exact .inl q
      · exact .inr ⟨f', later, s', w', by rw [← q1]; simp [fedBytes], q2, q3⟩

end Detools
