import Verif.Proofs.CInPlaceBody
/-
The header of an in-place patch in the C library.
-/
namespace Detools

variable [Build]

/-- The contents of a patch: the header and what follows. -/
structure HV where
  M : Nat
  S : Nat
  H : Nat
  F : Nat
  T : Nat
  comp : Nat
  body : Bytes
  total : Nat

structure HV.Ok (V : HV) : Prop where
  m : V.M < 2 ^ 27
  s : V.S < 2 ^ 27
  h : V.H < 2 ^ 27
  f : V.F < 2 ^ 27
  t : V.T < 2 ^ 27
  total : V.total < 2 ^ 63

/-- The size decoded in a state of the header. -/
def HV.val (V : HV) : IPInit → Nat
  | .fixedHeader => 0
  | .memorySize => V.M
  | .segmentSize => V.S
  | .shiftSize => V.H
  | .fromSize => V.F
  | .toSize => V.T

/-- What follows it. -/
def HV.tail (V : HV) : IPInit → Bytes
  | .fixedHeader => packSize V.M ++ (packSize V.S ++ (packSize V.H ++ (packSize V.F ++ (packSize V.T ++ V.body))))
  | .memorySize => packSize V.S ++ (packSize V.H ++ (packSize V.F ++ (packSize V.T ++ V.body)))
  | .segmentSize => packSize V.H ++ (packSize V.F ++ (packSize V.T ++ V.body))
  | .shiftSize => packSize V.F ++ (packSize V.T ++ V.body)
  | .fromSize => packSize V.T ++ V.body
  | .toSize => V.body

def IPInit.next : IPInit → IPInit
  | .fixedHeader => .memorySize
  | .memorySize => .segmentSize
  | .segmentSize => .shiftSize
  | .shiftSize => .fromSize
  | .fromSize => .toSize
  | .toSize => .toSize

def IPInit.rank : IPInit → Nat
  | .fixedHeader => 0
  | .memorySize => 1
  | .segmentSize => 2
  | .shiftSize => 3
  | .fromSize => 4
  | .toSize => 5

omit [Build] in
theorem HV.tail_next (V : HV) {st : IPInit} (h : st ≠ .toSize) : V.tail st = packSize (V.val st.next : Nat) ++ V.tail st.next := by
  cases st <;> first | rfl | exact absurd rfl h

/-- The update inside the header; `x` is the rest of the patch. -/
structure Hd (V : HV) (s : InPlace) (x : Bytes) : Prop where
  state : s.state = .init
  reader : s.reader = none
  size : s.size.Inv
  acc : s.readerSize.Inv
  chunk : s.chunk.Inv
  index : s.segment.index = 0
  step : s.ongoingStep = 1
  psize : s.patchSize = V.total
  first : s.initState = .fixedHeader → ∃ b : UInt8, x = b :: V.tail .fixedHeader ∧ b.toNat &&& 0xf = V.comp ∧ (b.toNat >>> 4) &&& 0x7 = 1
  next : s.initState ≠ .fixedHeader → s.compression = V.comp ∧ ∃ a, hdrRun s.size x = .value (V.val s.initState) a (V.tail s.initState)
  mem : 2 ≤ s.initState.rank → s.memorySize = V.M
  seg : 3 ≤ s.initState.rank → s.segmentSize = V.S
  shift : 4 ≤ s.initState.rank → s.shiftSize = V.H
  frm : 5 ≤ s.initState.rank → s.fromSize = V.F

/-- An uncompressed patch has its header in the current piece; `later` follows it. -/
def Whole (V : HV) (s : InPlace) (later : Bytes) : Prop :=
  V.comp = 0 → later.length ≤ V.body.length ∧ s.chunk.buf.length + later.length = V.total

omit [Build] in
theorem hdrRun_pack {v : Nat} (hv : v < 2 ^ 27) (D : Bytes) (acc : SizeAcc) (hi : acc.Inv) (h : acc.state = .first) :
    ∃ a, hdrRun acc (packSize (v : Nat) ++ D) = .value v a D := by
  have := run_first headerSizeByte_sizes (fun v => rfl) (packSize (v : Nat) ++ D) acc h
  rw [unpackSizeWithLength_packSize] at this
  simp only at this
  rw [if_pos (packSize_length_four v (by omega))] at this
  obtain ⟨a, sn, h1, h2⟩ := this
  refine ⟨a, ?_⟩
  rw [hdrRun_size _ acc hi, h2]
  simp [signHeader]

omit [Build] in
/-- The size decoder on the current piece. -/
theorem header_size {V : HV} {s : InPlace} {x : Bytes} (h : Hd V s (s.chunk.rest ++ x)) (hn : s.initState ≠ .fixedHeader) :
    (∃ c' a', s.headerSize = .ok (.value (V.val s.initState : Nat), { s with chunk := c', size := a' }) ∧ c'.Inv ∧ a'.Inv ∧
      c'.rest ++ x = V.tail s.initState ∧ c'.rest.length < s.chunk.rest.length ∧ c'.offset + c'.rest.length = s.chunk.buf.length) ∨
    (∃ c' a', s.headerSize = .ok (.more, { s with chunk := c', size := a' }) ∧ c'.Inv ∧ a'.Inv ∧ c'.rest = [] ∧
      (∃ a, hdrRun a' x = .value (V.val s.initState) a (V.tail s.initState)) ∧ (V.tail s.initState).length < x.length) := by
  obtain ⟨_, a, ha⟩ := h.next hn
  unfold InPlace.headerSize
  obtain ⟨out, e1, e2⟩ := headerSize_run (s.chunk.left + 1) s.chunk s.size h.chunk h.size (by rw [s.chunk.left_eq h.chunk]; omega)
  rw [e1]
  have hi := hdrRun_inv s.chunk.rest s.size h.size
  rw [hdrRun_append] at ha
  cases hr : hdrRun s.size s.chunk.rest with
  | more a' =>
    rw [hr] at ha e2 hi
    simp only at ha hi
    obtain ⟨c', rfl, g1, g2⟩ := e2
    have hlt := hdrRun_inv x a' hi
    rw [ha] at hlt
    exact .inr ⟨c', a', rfl, g1, hi, g2, ⟨a, ha⟩, hlt.2.2⟩
  | value v a' t =>
    rw [hr] at ha e2 hi
    simp only [HdrOut.value.injEq] at ha hi
    obtain ⟨c', rfl, g1, g2, g3⟩ := e2
    obtain ⟨rfl, _, h3⟩ := ha
    refine .inl ⟨c', a', rfl, g1, hi.1, by rw [g2]; exact h3, by rw [g2]; exact hi.2.2, by rw [g2]; exact g3⟩
  | fail =>
    rw [hr] at ha
    cases ha

/-- What a step in the header achieves. -/
inductive HOut (V : HV) (s : InPlace) (w : MWorld σ) (x : Bytes) : IPRes σ → Prop
  | ok {s'} : Hd V s' (s'.chunk.rest ++ x) → Whole V s' x → s'.mu < s.mu → s'.initState ≠ .fixedHeader → HOut V s w x (0, s', w)
  | more {s'} : Hd V s' x → s'.chunk.rest = [] → x ≠ [] → V.comp ≠ 0 → s'.initState ≠ .fixedHeader → HOut V s w x (1, s', w)

omit [Build] in
theorem SizeAcc.Inv.setFirst {a : SizeAcc} : SizeAcc.Inv { a with state := .first } := by
  intro h; cases h

theorem hd_mu {s s' : InPlace} (h1 : s.reader = none) (h2 : s'.reader = none) (h3 : s.state = .init) (h4 : s'.state = .init)
    (h : s'.chunk.rest.length < s.chunk.rest.length) : s'.mu < s.mu := by
  unfold InPlace.mu
  simp only [h1, h2, h3, h4]
  omega

theorem initSize_step {V : HV} (hV : V.Ok) {s : InPlace} (w : MWorld σ) {x : Bytes} (h : Hd V s (s.chunk.rest ++ x)) (hw : Whole V s x)
    (hn : s.initState ≠ .fixedHeader) (hn2 : s.initState ≠ .toSize) (set : InPlace → Nat → InPlace)
    (hset : ∀ (s : InPlace) v, ∃ a b c d : Nat, set s v = { s with memorySize := a, segmentSize := b, shiftSize := c, fromSize := d })
    (hmem : ∀ c a, 1 ≤ s.initState.rank → (set { s with chunk := c, size := a } (V.val s.initState)).memorySize = V.M)
    (hseg : ∀ c a, 2 ≤ s.initState.rank → (set { s with chunk := c, size := a } (V.val s.initState)).segmentSize = V.S)
    (hshift : ∀ c a, 3 ≤ s.initState.rank → (set { s with chunk := c, size := a } (V.val s.initState)).shiftSize = V.H)
    (hfrm : ∀ c a, 4 ≤ s.initState.rank → (set { s with chunk := c, size := a } (V.val s.initState)).fromSize = V.F) :
    ∃ out, ipInitSize s w s.initState.next set = .ok out ∧ HOut V s w x out := by
  have hnn : s.initState.next ≠ .fixedHeader := by cases s.initState <;> decide
  have hrank : s.initState.next.rank = s.initState.rank + 1 := by
    revert hn2
    cases s.initState <;> intro h <;> first | rfl | exact absurd rfl h
  have hv : ∀ st, V.val st < 2 ^ 27 := by
    intro st
    cases st
    · exact Nat.two_pow_pos _
    · exact hV.m
    · exact hV.s
    · exact hV.h
    · exact hV.f
    · exact hV.t
  obtain ⟨hc, _⟩ := h.next hn
  unfold ipInitSize
  rcases header_size h hn with ⟨c', a', e, g1, g2, g3, g4, g5⟩ | ⟨c', a', e, g1, g2, g3, g4, g5⟩
  · have hz : szOfInt ((V.val s.initState : Nat) : Int) = V.val s.initState := by
      have := hv s.initState
      rw [szOfInt_nat (by omega) (by omega)]; omega
    simp only [e, Bind.bind, Except.bind, hz]
    obtain ⟨m1, m2, m3, m4, hs'⟩ := hset { s with chunk := c', size := a' } (V.val s.initState)
    have q1 := hmem c' a'
    have q2 := hseg c' a'
    have q3 := hshift c' a'
    have q4 := hfrm c' a'
    rw [hs'] at q1 q2 q3 q4 ⊢
    refine ⟨_, rfl, .ok ?_ ?_ (hd_mu h.reader h.reader h.state h.state g4) hnn⟩
    · simp only [g3]
      rw [V.tail_next hn2]
      refine ⟨h.state, h.reader, SizeAcc.Inv.setFirst, h.acc, g1, h.index, h.step, h.psize, fun hf => absurd hf hnn, fun _ => ⟨hc, ?_⟩, ?_, ?_, ?_, ?_⟩
      · exact hdrRun_pack (hv _) _ _ SizeAcc.Inv.setFirst rfl
      · intro hr; exact q1 (by simp only [hrank] at hr; omega)
      · intro hr; exact q2 (by simp only [hrank] at hr; omega)
      · intro hr; exact q3 (by simp only [hrank] at hr; omega)
      · intro hr; exact q4 (by simp only [hrank] at hr; omega)
    · intro h0
      obtain ⟨w1, w2⟩ := hw h0
      refine ⟨w1, ?_⟩
      simp only
      have : c'.rest.length = c'.buf.length - c'.offset := by simp [Chunk.rest]
      have : c'.offset ≤ c'.buf.length := g1
      omega
  · simp only [e, Bind.bind, Except.bind]
    have hx : x ≠ [] := by rintro rfl; simp at g5
    refine ⟨_, rfl, .more ?_ g3 hx ?_ hn⟩
    · exact ⟨h.state, h.reader, g2, h.acc, g1, h.index, h.step, h.psize, fun hf => absurd hf hn, fun _ => ⟨hc, g4⟩, h.mem, h.seg, h.shift, h.frm⟩
    · intro h0
      obtain ⟨w1, w2⟩ := hw h0
      have hle : V.body.length ≤ (V.tail s.initState).length := by
        cases s.initState <;> simp only [HV.tail, List.length_append] <;> omega
      omega

/-- The steps before the to-size. -/
theorem header_step (E : MemEnv σ) {V : HV} (hV : V.Ok) {s : InPlace} (w : MWorld σ) {x : Bytes} (h : Hd V s (s.chunk.rest ++ x)) (hw : Whole V s x)
    (hn2 : s.initState ≠ .toSize) (hx : s.chunk.rest = [] → x = []) :
    ∃ out, ipInit E s w = .ok out ∧ HOut V s w x out := by
  unfold ipInit
  cases hi : s.initState with
  | fixedHeader =>
    simp only
    obtain ⟨b, hb, h1, h2⟩ := h.first hi
    cases hr : s.chunk.rest with
    | nil =>
      rw [hx hr, hr] at hb
      cases hb
    | cons b' t =>
      rw [hr] at hb
      simp only [List.cons_append, List.cons.injEq] at hb
      obtain ⟨rfl, ht⟩ := hb
      unfold ipInitFixedHeader
      obtain ⟨e1, e2, e3⟩ := s.chunk.get_cons h.chunk hr
      rw [e1]
      simp only [Bind.bind, Except.bind, h2, ne_eq, not_true, if_false, h1]
      refine ⟨_, rfl, .ok ?_ ?_ (hd_mu h.reader h.reader h.state h.state ?_) (by intro h; cases h)⟩
      · simp only [e2]
        rw [ht]
        refine ⟨h.state, h.reader, SizeAcc.Inv.setFirst, h.acc, e3, h.index, h.step, h.psize, fun hf => (by cases hf), fun _ => ⟨rfl, ?_⟩, ?_, ?_, ?_, ?_⟩
        · exact hdrRun_pack hV.m _ _ SizeAcc.Inv.setFirst rfl
        all_goals (intro hr; simp only [IPInit.rank] at hr; omega)
      · exact hw
      · rw [e2, hr]; simp
  | memorySize =>
    have := initSize_step hV w h hw (by rw [hi]; decide) hn2 (fun s v => { s with memorySize := v }) (fun s v => ⟨_, _, _, _, rfl⟩)
      (fun c a _ => by rw [hi]; rfl) (fun c a hr => by rw [hi] at hr; simp [IPInit.rank] at hr) (fun c a hr => by rw [hi] at hr; simp [IPInit.rank] at hr)
      (fun c a hr => by rw [hi] at hr; simp [IPInit.rank] at hr)
    rw [hi] at this
    exact this
  | segmentSize =>
    have := initSize_step hV w h hw (by rw [hi]; decide) hn2 (fun s v => { s with segmentSize := v }) (fun s v => ⟨_, _, _, _, rfl⟩)
      (fun c a _ => h.mem (by rw [hi]; decide)) (fun c a hr => by rw [hi]; rfl) (fun c a hr => by rw [hi] at hr; simp [IPInit.rank] at hr)
      (fun c a hr => by rw [hi] at hr; simp [IPInit.rank] at hr)
    rw [hi] at this
    exact this
  | shiftSize =>
    have := initSize_step hV w h hw (by rw [hi]; decide) hn2 (fun s v => { s with shiftSize := v }) (fun s v => ⟨_, _, _, _, rfl⟩)
      (fun c a _ => h.mem (by rw [hi]; decide)) (fun c a hr => h.seg (by rw [hi]; decide)) (fun c a hr => by rw [hi]; rfl)
      (fun c a hr => by rw [hi] at hr; simp [IPInit.rank] at hr)
    rw [hi] at this
    exact this
  | fromSize =>
    have := initSize_step hV w h hw (by rw [hi]; decide) hn2 (fun s v => { s with fromSize := v }) (fun s v => ⟨_, _, _, _, rfl⟩)
      (fun c a _ => h.mem (by rw [hi]; decide)) (fun c a hr => h.seg (by rw [hi]; decide)) (fun c a hr => h.shift (by rw [hi]; decide))
      (fun c a hr => by rw [hi]; rfl)
    rw [hi] at this
    exact this
  | toSize => exact absurd hi hn2

/-- The reader made by the header reads the body. -/
structure BodyReads (V : HV) (plain : Bytes) : Prop where
  reads : ∃ r, CReader.init V.body.length V.comp = some r ∧ r.Good ∧ r.backlog = 0 ∧ Decodes r V.body plain

theorem init_any {n m c : Nat} (h : c ≠ 0) : CReader.init n c = CReader.init m c := by
  unfold CReader.init
  simp [h]

/-- The to-size: the last step of the header. The rest is a function of the reader. -/
theorem toSize_step (E : MemEnv σ) {V : HV} (hV : V.Ok) {plain : Bytes} (hB : BodyReads V plain) {s : InPlace} (w : MWorld σ) {x : Bytes}
    (h : Hd V s (s.chunk.rest ++ x)) (hw : Whole V s x) (hi : s.initState = .toSize) :
    (∃ out, ipInit E s w = .ok out ∧ HOut V s w x out) ∨
    (∃ r c' a' acc', r.Good ∧ r.backlog = 0 ∧ Decodes r (c'.rest ++ x) plain ∧ c'.Inv ∧ c'.rest.length < s.chunk.rest.length ∧
      acc'.Inv ∧ acc'.state = .first ∧
      ipInit E s w =
        (if V.T = 0 then .ok (0, { s with chunk := c', size := a', readerSize := acc', reader := some r, toPos := 0, toSize := 0, state := .done }, w)
         else (do
          let (res, s, w) ← inPlaceShiftMemory E { s with
              chunk := c', size := a', readerSize := acc', reader := some r, toPos := 0, toSize := V.T, segment := { s.segment with index := 0 } }
            w V.M V.F
          if res ≠ 0 then .ok (res, s, w) else .ok (0, { s with state := .dfpatchSize }, w)))) := by
  have hn : s.initState ≠ .fixedHeader := by rw [hi]; decide
  obtain ⟨hc, _⟩ := h.next hn
  unfold ipInit
  rw [hi]
  simp only
  unfold ipInitToSize
  have ht := hV.t
  have hto := hV.total
  rcases header_size h hn with ⟨c', a', e, g1, g2, g3, g4, g5⟩ | ⟨c', a', e, g1, g2, g3, g4, g5⟩
  · right
    rw [hi] at g3 e
    have g3 : c'.rest ++ x = V.body := g3
    have hval : V.val .toSize = V.T := rfl
    rw [hval] at e
    obtain ⟨r, r1, r2, r3, r4⟩ := hB.reads
    have hinit : CReader.init (szOfInt ((s.patchSize : Int) - c'.offset)) s.compression = some r := by
      rw [← r1, hc]
      by_cases h0 : V.comp = 0
      · obtain ⟨w1, w2⟩ := hw h0
        have hbl := congrArg List.length g3
        simp only [List.length_append] at hbl
        rw [h.psize, szOfInt_nat (by omega) (by omega)]
        congr 1
        omega
      · exact init_any h0
    have hz : szOfInt ((V.T : Nat) : Int) = V.T := by rw [szOfInt_nat (by omega) (by omega)]; omega
    refine ⟨r, c', a', { s.readerSize with state := .first }, r2, r3, by rw [g3]; exact r4, g1, g4, SizeAcc.Inv.setFirst, rfl, ?_⟩
    simp only [e, Bind.bind, Except.bind, hinit, hz]
    rw [if_neg (by omega)]
    have m1 := h.mem (by rw [hi]; decide)
    have m2 := h.frm (by rw [hi]; decide)
    by_cases hT : V.T = 0
    · rw [if_neg (by omega), if_pos hT]
      have := h.index
      have hsg : ({ s.segment with index := 0 } : Segment) = s.segment := by rw [← this]
      simp only [hsg, hT]
    · rw [if_pos (by omega), if_neg hT]
      simp only [m1, m2]
  · left
    simp only [e, Bind.bind, Except.bind]
    have hx : x ≠ [] := by rintro rfl; simp at g5
    refine ⟨_, rfl, .more ?_ g3 hx ?_ hn⟩
    · exact ⟨h.state, h.reader, g2, h.acc, g1, h.index, h.step, h.psize, fun hf => absurd hf hn, fun _ => ⟨hc, g4⟩, h.mem, h.seg, h.shift, h.frm⟩
    · intro h0
      obtain ⟨w1, w2⟩ := hw h0
      rw [hi] at g5
      have g5 : V.body.length < x.length := g5
      omega

end Detools
