import Verif.Proofs.CHeader
/-
The sequential C API with files, as a consumer of decompressed bytes.
-/
namespace Detools

variable [Build]

/-- The consumer: what a sequential update has done so far. -/
structure SeqA where
  phase : SeqPhase
  acc : SizeAcc
  toOffset : Nat
  toSize : Nat
  left : Nat
  pos : Int
  out : Bytes

/-- A data phase with nothing left is the next phase. -/
def SeqA.norm (a : SeqA) : SeqA :=
  match a.phase with
  | .diffData => if a.left = 0 then { a with phase := .extraSize } else a
  | .extraData => if a.left = 0 then { a with phase := .adjustment } else a
  | _ => a

def SeqA.fail (_ : SeqA) : SeqA := ⟨.failed, {}, 0, 0, 0, 0, []⟩

/-- A size has been read. -/
def SeqA.onSize (a : SeqA) (v : Int) : SeqA :=
  match a.phase with
  | .dfpatchSize => if v > 0 then a.fail else { a with phase := .diffSize }
  | .diffSize =>
    if sizeTooBig a.toOffset a.toSize v then a.fail else SeqA.norm { a with phase := .diffData, left := szOfInt v }
  | .extraSize =>
    if sizeTooBig a.toOffset a.toSize v then a.fail else SeqA.norm { a with phase := .extraData, left := szOfInt v }
  | .adjustment =>
    if a.pos + v < 0 ∨ 2 ^ 31 ≤ a.pos + v then a.fail
    else { a with pos := a.pos + v, phase := if a.toOffset = a.toSize then .done else .diffSize }
  | _ => a.fail

def SeqA.sizeTok (a : SeqA) : Tok → SeqA
  | .zero => a.fail
  | .byte b =>
    match sizeByte a.acc b with
    | .ok (acc, none) => { a with acc := acc }
    | .ok (acc, some (.value v)) => SeqA.onSize { a with acc := acc } v
    | _ => a.fail

def SeqA.put (a : SeqA) (b : UInt8) : SeqA :=
  SeqA.norm { a with out := a.out ++ [b], toOffset := sz (a.toOffset + 1), left := a.left - 1 }

def SeqA.step (fr : Bytes) (a : SeqA) (t : Tok) : SeqA :=
  match a.phase with
  | .dfpatchSize => a.sizeTok t
  | .diffSize => a.sizeTok t
  | .extraSize => a.sizeTok t
  | .adjustment => a.sizeTok t
  | .diffData =>
    match t with
    | .zero => a
    | .byte b =>
      match fr[a.pos.toNat]? with
      | none => a.fail
      | some f => SeqA.put { a with pos := a.pos + 1 } (b + f)
  | .extraData =>
    match t with
    | .zero => a
    | .byte b => a.put b
  | _ => a

abbrev seqSink (fr : Bytes) : Sink where
  A := SeqA
  step := SeqA.step fr
  done a := a.phase = .done

omit [Build] in
theorem never_fail (fr : Bytes) (a : SeqA) (h : a.phase = .failed) : Never (seqSink fr) a := by
  intro ts
  induction ts with
  | nil => simp [seqSink, h]
  | cons t ts ih =>
    have : (seqSink fr).step a t = a := by simp [SeqA.step, h]
    rw [Sink.steps_cons, this]
    exact ih

/-- The state of an object and its files as a consumer. -/
def seqAbs (s : ApplyPatch) (f : Files) : SeqA :=
  SeqA.norm { phase := s.state, acc := s.readerSize, toOffset := s.toOffset, toSize := s.toSize,
              left := (match s.state with | .diffData => s.chunkSize | .extraData => s.chunkSize | _ => 0),
              pos := f.pos, out := f.out }

/-- The phases that read a size. -/
def SeqPhase.isSize : SeqPhase → Bool
  | .dfpatchSize => true
  | .diffSize => true
  | .extraSize => true
  | .adjustment => true
  | _ => false

omit [Build] in
theorem SeqA.step_size {fr : Bytes} {a : SeqA} (h : a.phase.isSize = true) (t : Tok) : a.step fr t = a.sizeTok t := by
  unfold SeqA.step
  cases hp : a.phase <;> simp_all [SeqPhase.isSize]

/-- Reading a size in phase `ph`. -/
def seqSizeSink (fr : Bytes) (a : SeqA) (h : a.phase.isSize = true) : SizeSink (seqSink fr) where
  a acc := { a with acc := acc }
  k acc v := SeqA.onSize { a with acc := acc } v
  dead := a.fail
  notDone acc := by
    show ¬ a.phase = .done
    intro hd; rw [hd] at h; cases h
  never := never_fail fr _ rfl
  zero acc := by
    apply never_fail
    show (SeqA.step fr _ _).phase = _
    rw [SeqA.step_size (by exact h)]
    rfl
  byte acc b := by
    show SeqA.step fr _ _ = _
    rw [SeqA.step_size (by exact h)]
    simp only [SeqA.sizeTok]
    rfl

/-! Data. -/

omit [Build] in
theorem SeqA.norm_of_left {a : SeqA} (h : a.left ≠ 0) : a.norm = a := by
  unfold SeqA.norm
  split <;> simp [h]

omit [Build] in
theorem sz_add' (a n : Nat) : sz (sz (a + 1) + n) = sz (a + (n + 1)) := by
  unfold sz; omega

omit [Build] in
theorem steps_diff (fr : Bytes) : ∀ (data : Bytes) (a : SeqA), a.phase = .diffData → 0 ≤ a.pos → data ≠ [] →
    data.length ≤ a.left →
    (a.pos + data.length ≤ fr.length → (seqSink fr).steps a (data.map .byte) =
      SeqA.norm { a with out := a.out ++ sumBytes data ((fr.drop a.pos.toNat).take data.length), pos := a.pos + data.length, toOffset := sz (a.toOffset + data.length), left := a.left - data.length }) ∧
    (¬ a.pos + data.length ≤ fr.length → SeqA.phase ((seqSink fr).steps a (data.map .byte)) = .failed) := by
  intro data
  induction data with
  | nil => intro a _ _ h; exact absurd rfl h
  | cons b t ih =>
    intro a hp h0 _ hl
    simp only [List.length_cons] at hl
    have hstep : SeqA.step fr a (.byte b) =
        match fr[a.pos.toNat]? with
        | none => a.fail
        | some f => SeqA.put { a with pos := a.pos + 1 } (b + f) := by
      simp only [SeqA.step, hp]
    simp only [List.map_cons, Sink.steps_cons, hstep]
    cases hf : fr[a.pos.toNat]? with
    | none =>
      have hge : fr.length ≤ a.pos.toNat := by simpa using hf
      refine ⟨fun h => ?_, fun _ => ?_⟩
      · simp only [List.length_cons] at h; omega
      · have : ∀ ts, (seqSink fr).steps a.fail ts = a.fail := by
          intro ts
          induction ts with
          | nil => rfl
          | cons t ts ih => rw [Sink.steps_cons]; exact ih
        rw [this]; rfl
    | some f =>
      have hlt : a.pos.toNat < fr.length := by
        rcases Nat.lt_or_ge a.pos.toNat fr.length with h | h
        · exact h
        · rw [List.getElem?_eq_none h] at hf; cases hf
      have hfe : fr[a.pos.toNat] = f := by
        rw [List.getElem?_eq_getElem hlt] at hf
        exact Option.some.inj hf
      have hdrop : fr.drop a.pos.toNat = f :: fr.drop (a.pos.toNat + 1) := by
        rw [List.drop_eq_getElem_cons hlt, hfe]
      have hpos1 : (a.pos + 1).toNat = a.pos.toNat + 1 := by omega
      cases t with
      | nil =>
        simp only [List.map_nil, Sink.steps_nil, List.length_cons, List.length_nil]
        refine ⟨fun _ => ?_, fun h => by omega⟩
        rw [hdrop]
        simp [SeqA.put, sumBytes]
      | cons b2 t2 =>
        have hput : SeqA.put { a with pos := a.pos + 1 } (b + f) =
            { a with pos := a.pos + 1, out := a.out ++ [b + f], toOffset := sz (a.toOffset + 1), left := a.left - 1 } := by
          unfold SeqA.put
          exact SeqA.norm_of_left (by simp only [List.length_cons] at hl ⊢; omega)
        dsimp only
        rw [hput]
        obtain ⟨i1, i2⟩ := ih { a with pos := a.pos + 1, out := a.out ++ [b + f], toOffset := sz (a.toOffset + 1), left := a.left - 1 }
          hp (by show 0 ≤ a.pos + 1; omega) (by simp) (by simp only [List.length_cons] at hl ⊢; omega)
        refine ⟨fun h => ?_, fun h => ?_⟩
        · rw [i1 (by simp only [List.length_cons] at h ⊢; omega)]
          simp only [List.length_cons, hpos1, sz_add']
          rw [hdrop]
          have e1 : a.pos + 1 + ((t2.length + 1 : Nat) : Int) = a.pos + ((t2.length + 1 + 1 : Nat) : Int) := by omega
          have e2 : a.left - 1 - (t2.length + 1) = a.left - (t2.length + 1 + 1) := by omega
          rw [e1, e2]
          simp [sumBytes]
        · apply i2
          simp only [List.length_cons] at h ⊢
          omega

omit [Build] in
theorem steps_extra (fr : Bytes) : ∀ (data : Bytes) (a : SeqA), a.phase = .extraData → data ≠ [] →
    data.length ≤ a.left →
    (seqSink fr).steps a (data.map .byte) =
      SeqA.norm { a with out := a.out ++ data, toOffset := sz (a.toOffset + data.length), left := a.left - data.length } := by
  intro data
  induction data with
  | nil => intro a _ h; exact absurd rfl h
  | cons b t ih =>
    intro a hp _ hl
    simp only [List.length_cons] at hl
    have hstep : SeqA.step fr a (.byte b) = a.put b := by
      simp only [SeqA.step, hp]
    simp only [List.map_cons, Sink.steps_cons, hstep]
    cases t with
    | nil => simp [SeqA.put]
    | cons b2 t2 =>
      have hput : a.put b = { a with out := a.out ++ [b], toOffset := sz (a.toOffset + 1), left := a.left - 1 } := by
        unfold SeqA.put
        exact SeqA.norm_of_left (by simp only [List.length_cons] at hl ⊢; omega)
      rw [hput, ih _ (by exact hp) (by simp) (by simp only [List.length_cons] at hl ⊢; omega)]
      simp only [List.length_cons, sz_add']
      have e2 : a.left - 1 - (t2.length + 1) = a.left - (t2.length + 1 + 1) := by omega
      rw [e2]
      simp

omit [Build] in
/-- A consumer of data is hungry. -/
theorem hungry_data (fr : Bytes) : ∀ (ts : List Tok) (a : SeqA), a.phase = .diffData ∨ a.phase = .extraData →
    byteCount ts < a.left → ¬ (seqSink fr).done ((seqSink fr).steps a ts) := by
  intro ts
  induction ts with
  | nil =>
    intro a h _
    rcases h with h | h <;> simp [h]
  | cons t ts ih =>
    intro a h hl
    rw [Sink.steps_cons]
    cases t with
    | zero =>
      have : (seqSink fr).step a .zero = a := by
        rcases h with h | h <;> simp [SeqA.step, h]
      rw [this]
      exact ih a h (by simpa [byteCount] using hl)
    | byte b =>
      simp only [byteCount] at hl
      have hput : ∀ (a' : SeqA) (b : UInt8), a'.phase = a.phase → a'.left = a.left →
          (a'.put b).phase = a.phase ∧ (a'.put b).left = a.left - 1 := by
        intro a' b h1 h2
        unfold SeqA.put
        rw [SeqA.norm_of_left (by simp only [h2]; omega)]
        exact ⟨h1, by simp only [h2]⟩
      rcases h with h | h
      · have hst : (seqSink fr).step a (.byte b) =
            match fr[a.pos.toNat]? with
            | none => a.fail
            | some f => SeqA.put { a with pos := a.pos + 1 } (b + f) := by
          simp only [SeqA.step, h]
        rw [hst]
        cases fr[a.pos.toNat]? with
        | none => exact never_fail fr _ rfl ts
        | some f =>
          obtain ⟨p1, p2⟩ := hput { a with pos := a.pos + 1 } (b + f) rfl rfl
          exact ih _ (.inl (by rw [p1]; exact h)) (by rw [p2]; omega)
      · have hst : (seqSink fr).step a (.byte b) = a.put b := by
          simp only [SeqA.step, h]
        rw [hst]
        obtain ⟨p1, p2⟩ := hput a b rfl rfl
        exact ih _ (.inr (by rw [p1]; exact h)) (by rw [p2]; omega)

/-! One step. -/

omit [Build] in
theorem szOfInt_lt (v : Int) : szOfInt v < 2 ^ 64 := by
  unfold szOfInt; omega


/-- The state of the reader and of the old image, in the body of a patch. -/
structure Body (s : ApplyPatch) (w : World Files) (r : CReader) : Prop where
  reader : s.reader = some r
  rinv : r.Inv
  pos : s.fromOffset = w.arg.pos
  pos0 : 0 ≤ w.arg.pos
  pos1 : w.arg.pos < 2 ^ 31
  cs : s.chunkSize < 2 ^ 64

/-- The outcome of a step in the body of a patch. -/
inductive SimOut (fr : Bytes) (s : ApplyPatch) (w : World Files) (r : CReader) : SeqRes Files → Prop
  | fail {e s' w'} : e < 0 → (∀ x res, ¬ Succ (seqSink fr) r.abs (seqAbs s w.arg) (s.chunk.rest ++ x) res) →
      SimOut fr s w r (e, s', w')
  | ok {s' w' r'} : Body s' w' r' → s'.state ≠ .init → s'.state ≠ .failed →
      (∀ x res, Succ (seqSink fr) r.abs (seqAbs s w.arg) (s.chunk.rest ++ x) res ↔
        Succ (seqSink fr) r'.abs (seqAbs s' w'.arg) (s'.chunk.rest ++ x) res) →
      SimOut fr s w r (0, s', w')
  | more {s' r'} : Body s' w r' → s'.state = s.state → s'.chunk.rest = [] → rNext r'.abs = none →
      (∀ x res, Succ (seqSink fr) r.abs (seqAbs s w.arg) (s.chunk.rest ++ x) res ↔
        Succ (seqSink fr) r'.abs (seqAbs s' w.arg) x res) →
      SimOut fr s w r (1, s', w)

/-- Either the step has no defined result and the patch is not accepted, or the
result is as described. -/
def StepSim (fr : Bytes) (s : ApplyPatch) (w : World Files) (r : CReader) (x : C (SeqRes Files)) : Prop :=
  (∃ u, x = .error u ∧ ∀ x res, ¬ Succ (seqSink fr) r.abs (seqAbs s w.arg) (s.chunk.rest ++ x) res) ∨
    ∃ out, x = .ok out ∧ SimOut fr s w r out

omit [Build] in
theorem seqAbs_size {s : ApplyPatch} {f : Files} (h : s.state.isSize = true) :
    seqAbs s f = { phase := s.state, acc := s.readerSize, toOffset := s.toOffset, toSize := s.toSize, left := 0, pos := f.pos, out := f.out } := by
  unfold seqAbs SeqA.norm
  cases hs : s.state <;> simp_all [SeqPhase.isSize]

theorem unpackSize_sim (fr : Bytes) {s : ApplyPatch} {w : World Files} {r : CReader} (hi : SInv s) (hb : Body s w r)
    (hs : s.state.isSize = true) :
    (s.unpackSize = .error .uninit ∧ ∀ x res, ¬ Succ (seqSink fr) r.abs (seqAbs s w.arg) (s.chunk.rest ++ x) res) ∨
    ∃ d r' c' a', s.unpackSize = .ok (d, { s with reader := some r', chunk := c', readerSize := a' }) ∧
      match d with
      | .value v => Body { s with reader := some r', chunk := c', readerSize := a' } w r' ∧
          ∀ x res, Succ (seqSink fr) r.abs (seqAbs s w.arg) (s.chunk.rest ++ x) res ↔
            Succ (seqSink fr) r'.abs (SeqA.onSize { seqAbs s w.arg with acc := a' } v) (c'.rest ++ x) res
      | .more => Body { s with reader := some r', chunk := c', readerSize := a' } w r' ∧ c'.rest = [] ∧ rNext r'.abs = none ∧
          ∀ x res, Succ (seqSink fr) r.abs (seqAbs s w.arg) (s.chunk.rest ++ x) res ↔
            Succ (seqSink fr) r'.abs { seqAbs s w.arg with acc := a' } x res
      | .fail e => e < 0 ∧ ∀ x res, ¬ Succ (seqSink fr) r.abs (seqAbs s w.arg) (s.chunk.rest ++ x) res := by
  have h1 : s.state ≠ .failed := by intro h; rw [h] at hs; cases hs
  obtain ⟨hc, hrs, -⟩ := hi.live h1
  have hph : (seqAbs s w.arg).phase.isSize = true := by rw [seqAbs_size hs]; exact hs
  let F := seqSizeSink fr (seqAbs s w.arg) hph
  have hFa : F.a s.readerSize = seqAbs s w.arg := by
    show { seqAbs s w.arg with acc := s.readerSize } = seqAbs s w.arg
    rw [seqAbs_size hs]
  simp only [ApplyPatch.unpackSize, hb.reader]
  rcases patchReaderUnpackSize_spec hb.rinv hc hrs with ⟨e, hno⟩ | ⟨⟨d, r', c', a'⟩, e, ho⟩
  · left
    refine ⟨by rw [e]; rfl, fun x res => ?_⟩
    rw [← hFa]
    exact hno _ F x res
  · right
    refine ⟨d, r', c', a', by rw [e]; rfl, ?_⟩
    match d, ho with
    | .value v, ⟨g1, g2, g3, g4, g5, g6, g7, g8⟩ =>
      refine ⟨⟨rfl, g1, hb.pos, hb.pos0, hb.pos1, hb.cs⟩, fun x res => ?_⟩
      have := g8 _ F x res
      rw [hFa] at this
      exact this
    | .more, ⟨g1, g2, g3, g4, g5, g6, g7⟩ =>
      refine ⟨⟨rfl, g1, hb.pos, hb.pos0, hb.pos1, hb.cs⟩, g4, g5, fun x res => ?_⟩
      have := g7 _ F x res
      rw [hFa] at this
      exact this
    | .fail e, ⟨g0, g1, g2⟩ =>
      refine ⟨g0, fun x res => ?_⟩
      rw [← hFa]
      exact g2 _ F x res

omit [Build] in
theorem not_succ_fail {fr : Bytes} {r : RState} {a : SeqA} {x res} : ¬ Succ (seqSink fr) r a.fail x res :=
  Never.not_succ (never_fail fr _ rfl)

theorem dfpatch_sim (fr : Bytes) {s : ApplyPatch} {w : World Files} {r : CReader} (hi : SInv s) (hb : Body s w r)
    (hs : s.state = .dfpatchSize) : StepSim fr s w r (processDfpatchSize s w) := by
  have hz : s.state.isSize = true := by rw [hs]; rfl
  unfold processDfpatchSize
  rcases unpackSize_sim fr hi hb hz with ⟨e, hno⟩ | ⟨d, r', c', a', e, ho⟩
  · left; exact ⟨_, by rw [e]; rfl, hno⟩
  · right
    rw [e]
    simp only [Bind.bind, Except.bind]
    match d, ho with
    | .fail e, ⟨g1, g2⟩ => exact ⟨_, rfl, .fail g1 g2⟩
    | .more, ⟨g1, g2, g3, g4⟩ =>
      refine ⟨_, rfl, .more g1 rfl g2 g3 fun x res => ?_⟩
      rw [g4, seqAbs_size hz, seqAbs_size (by exact hz)]
    | .value v, ⟨g1, g2⟩ =>
      simp only [seqAbs_size hz, SeqA.onSize, hs] at g2
      simp only
      split
      · rename_i hv
        simp only [hv, if_true] at g2
        refine ⟨_, rfl, .fail (by decide) fun x res => ?_⟩
        rw [seqAbs_size hz, hs, g2]
        exact not_succ_fail
      · rename_i hv
        simp only [hv, if_false] at g2
        refine ⟨_, rfl, .ok ⟨rfl, g1.rinv, g1.pos, g1.pos0, g1.pos1, g1.cs⟩ (by simp) (by simp) fun x res => ?_⟩
        rw [seqAbs_size hz, hs, g2, seqAbs_size (by rfl)]

theorem size_sim (fr : Bytes) {s : ApplyPatch} {w : World Files} {r : CReader} (hi : SInv s) (hb : Body s w r)
    {next : SeqPhase} (hs : s.state = .diffSize ∧ next = .diffData ∨ s.state = .extraSize ∧ next = .extraData) :
    StepSim fr s w r (processSize s w next) := by
  have hz : s.state.isSize = true := by rcases hs with ⟨h, _⟩ | ⟨h, _⟩ <;> rw [h] <;> rfl
  have hn : next ≠ .init ∧ next ≠ .failed := by rcases hs with ⟨_, h⟩ | ⟨_, h⟩ <;> rw [h] <;> simp
  unfold processSize
  rcases unpackSize_sim fr hi hb hz with ⟨e, hno⟩ | ⟨d, r', c', a', e, ho⟩
  · left; exact ⟨_, by rw [e]; rfl, hno⟩
  · right
    rw [e]
    simp only [Bind.bind, Except.bind]
    match d, ho with
    | .fail e, ⟨g1, g2⟩ => exact ⟨_, rfl, .fail g1 g2⟩
    | .more, ⟨g1, g2, g3, g4⟩ =>
      refine ⟨_, rfl, .more g1 rfl g2 g3 fun x res => ?_⟩
      rw [g4, seqAbs_size hz, seqAbs_size (by exact hz)]
    | .value v, ⟨g1, g2⟩ =>
      have hon : SeqA.onSize { seqAbs s w.arg with acc := a' } v =
          if sizeTooBig s.toOffset s.toSize v then (seqAbs s w.arg).fail
          else SeqA.norm { phase := next, acc := a', toOffset := s.toOffset, toSize := s.toSize, left := szOfInt v, pos := w.arg.pos, out := w.arg.out } := by
        rw [seqAbs_size hz]
        rcases hs with ⟨h, h'⟩ | ⟨h, h'⟩ <;> simp only [SeqA.onSize, h, h'] <;> rfl
      rw [hon] at g2
      simp only
      split
      · rename_i hv
        simp only [hv, if_true] at g2
        refine ⟨_, rfl, .fail (by decide) fun x res => ?_⟩
        rw [g2]
        exact not_succ_fail
      · rename_i hv
        simp only [hv] at g2
        refine ⟨_, rfl, .ok ⟨rfl, g1.rinv, g1.pos, g1.pos0, g1.pos1, szOfInt_lt v⟩ hn.1 hn.2 fun x res => ?_⟩
        have : seqAbs { s with reader := some r', chunk := c', readerSize := a', state := next, chunkSize := szOfInt v } w.arg =
            SeqA.norm { phase := next, acc := a', toOffset := s.toOffset, toSize := s.toSize, left := szOfInt v, pos := w.arg.pos, out := w.arg.out } := by
          rcases hs with ⟨_, h'⟩ | ⟨_, h'⟩ <;> simp only [seqAbs, h']
        rw [g2, this]
        rfl

theorem adjustment_sim (fr : Bytes) {s : ApplyPatch} {w : World Files} {r : CReader} (hi : SInv s) (hb : Body s w r)
    (hs : s.state = .adjustment) : StepSim fr s w r (processAdjustment (fileEnv fr) s w) := by
  have hz : s.state.isSize = true := by rw [hs]; rfl
  unfold processAdjustment
  rcases unpackSize_sim fr hi hb hz with ⟨e, hno⟩ | ⟨d, r', c', a', e, ho⟩
  · left; exact ⟨_, by rw [e]; rfl, hno⟩
  · rw [e]
    simp only [Bind.bind, Except.bind]
    match d, ho with
    | .fail e, ⟨g1, g2⟩ => exact .inr ⟨_, rfl, .fail g1 g2⟩
    | .more, ⟨g1, g2, g3, g4⟩ =>
      refine .inr ⟨_, rfl, .more g1 rfl g2 g3 fun x res => ?_⟩
      rw [g4, seqAbs_size hz, seqAbs_size (by exact hz)]
    | .value v, ⟨g1, g2⟩ =>
      have hon : SeqA.onSize { seqAbs s w.arg with acc := a' } v =
          if w.arg.pos + v < 0 ∨ 2 ^ 31 ≤ w.arg.pos + v then (seqAbs s w.arg).fail
          else { phase := if s.toOffset = s.toSize then .done else .diffSize, acc := a', toOffset := s.toOffset, toSize := s.toSize, left := 0, pos := w.arg.pos + v, out := w.arg.out } := by
        rw [seqAbs_size hz]
        simp only [SeqA.onSize, hs]; rfl
      rw [hon] at g2
      have hp0 := hb.pos0
      have hp1 := hb.pos1
      have hpe := hb.pos
      simp only [fileEnv]
      by_cases h1 : w.arg.pos + v < 0
      · right
        simp only [h1, true_or, if_true] at g2
        simp only [h1, if_true]
        refine ⟨_, if_pos (by decide), .fail (by decide) fun x res => ?_⟩
        rw [g2]
        exact not_succ_fail
      · simp only [h1, if_false, ne_eq, not_true]
        simp only [h1, false_or] at g2
        by_cases h2 : (2:Int) ^ 31 ≤ w.arg.pos + v
        · left
          simp only [h2, if_true] at g2
          refine ⟨.overflow, if_pos (by rw [hpe]; exact .inr h2), fun x res => ?_⟩
          rw [g2]
          exact not_succ_fail
        · right
          simp only [h2, if_false] at g2
          rw [if_neg (by rw [hpe]; omega)]
          by_cases h3 : s.toOffset = s.toSize
          · simp only [h3, if_true] at g2 ⊢
            refine ⟨_, rfl, .ok ⟨rfl, g1.rinv, by show s.fromOffset + v = w.arg.pos + v; rw [hpe], by show 0 ≤ w.arg.pos + v; omega, by show w.arg.pos + v < 2 ^ 31; omega, g1.cs⟩ (by simp) (by simp) fun x res => ?_⟩
            rw [g2]
            rfl
          · simp only [h3, if_false] at g2 ⊢
            refine ⟨_, rfl, .ok ⟨rfl, g1.rinv, by show s.fromOffset + v = w.arg.pos + v; rw [hpe], by show 0 ≤ w.arg.pos + v; omega, by show w.arg.pos + v < 2 ^ 31; omega, g1.cs⟩ (by simp) (by simp) fun x res => ?_⟩
            rw [g2]
            rfl

theorem data_sim (fr : Bytes) (hfr : fr.length < 2 ^ 31) {s : ApplyPatch} {w : World Files} {r : CReader} (hi : SInv s)
    (hb : Body s w r) {next : SeqPhase} {diff : Bool}
    (hs : s.state = .diffData ∧ next = .extraSize ∧ diff = true ∨ s.state = .extraData ∧ next = .adjustment ∧ diff = false) :
    StepSim fr s w r (processData (fileEnv fr) s w next diff) := by
  have hst : s.state = .diffData ∨ s.state = .extraData := by rcases hs with ⟨h, _⟩ | ⟨h, _⟩ <;> simp [h]
  have h1 : s.state ≠ .failed := by rcases hst with h | h <;> rw [h] <;> decide
  have h2 : s.state ≠ .init := by rcases hst with h | h <;> rw [h] <;> decide
  have hn : next ≠ .init ∧ next ≠ .failed := by rcases hs with ⟨_, h, _⟩ | ⟨_, h, _⟩ <;> rw [h] <;> simp
  obtain ⟨hc, hrs, -⟩ := hi.live h1
  right
  unfold processData
  by_cases hz : min dataCap s.chunkSize = 0
  · have hcs : s.chunkSize = 0 := by
      have : dataCap = 128 := rfl
      omega
    simp only [hz, if_true]
    refine ⟨_, rfl, .ok ⟨hb.reader, hb.rinv, hb.pos, hb.pos0, hb.pos1, hb.cs⟩ hn.1 hn.2 fun x res => ?_⟩
    have : seqAbs { s with state := next } w.arg = seqAbs s w.arg := by
      rcases hs with ⟨h, h', _⟩ | ⟨h, h', _⟩ <;> simp [seqAbs, SeqA.norm, h, h', hcs]
    rw [this]
  · have hcs : s.chunkSize ≠ 0 := by omega
    simp only [hz, if_false, hb.reader]
    have habs : ∀ (s' : ApplyPatch) (f : Files), s'.state = s.state → s'.chunkSize ≠ 0 → seqAbs s' f =
        { phase := s.state, acc := s'.readerSize, toOffset := s'.toOffset, toSize := s'.toSize, left := s'.chunkSize, pos := f.pos, out := f.out } := by
      intro s' f h1 h2
      rcases hst with h | h <;> simp [seqAbs, SeqA.norm, h1, h, h2]
    have habs' : ∀ (s' : ApplyPatch) (f : Files), s'.state = s.state → seqAbs s' f =
        SeqA.norm { phase := s.state, acc := s'.readerSize, toOffset := s'.toOffset, toSize := s'.toSize, left := s'.chunkSize, pos := f.pos, out := f.out } := by
      intro s' f h1
      rcases hst with h | h <;> simp [seqAbs, h1, h]
    have hA := habs s w.arg rfl hcs
    have hh : Hungry (seqSink fr) (min dataCap s.chunkSize) (seqAbs s w.arg) := by
      intro ts ht
      apply hungry_data
      · rw [hA]; exact hst
      · rw [hA]
        show byteCount ts < s.chunkSize
        omega
    have hnd : ¬ (seqSink fr).done (seqAbs s w.arg) := hh.notDone (by omega)
    obtain ⟨⟨d, r', c'⟩, e1, e2⟩ := dec_spec hb.rinv hc (cap := dataCap) (size := min dataCap s.chunkSize) (by omega)
      (Nat.min_le_left ..) (by decide)
    rw [e1]
    simp only [Bind.bind, Except.bind]
    match d, e2 with
    | .fail e, ⟨g1, g2, g3⟩ => exact ⟨_, rfl, .fail g1 fun x res => g3 _ _ x res hh⟩
    | .more, ⟨g1, g2, g3, g4, _, _, g7⟩ =>
      refine ⟨_, rfl, .more ⟨rfl, g1, hb.pos, hb.pos0, hb.pos1, hb.cs⟩ rfl g3 g4 fun x res => ?_⟩
      rw [g7 _ _ x res hnd]
      exact Iff.rfl
    | .ok to, ⟨g1, g2, g3, g4, g5⟩ =>
      have hto : to.length ≤ s.chunkSize := Nat.le_trans g3 (Nat.min_le_right ..)
      have hto' : to.length ≤ 128 := Nat.le_trans g3 (Nat.min_le_left ..)
      have hp0 := hb.pos0
      have hp1 := hb.pos1
      have hpe := hb.pos
      have hleft : szOfInt ((s.chunkSize : Int) - to.length) = s.chunkSize - to.length := by
        have := hb.cs
        unfold szOfInt; omega
      have hwrap : ∀ n : Nat, n ≤ 128 → w.arg.pos + n ≤ fr.length ∨ n = 0 → wrapInt (w.arg.pos + n) = w.arg.pos + n := by
        intro n h1 h2
        unfold wrapInt; omega
      have hzero : (seqSink fr).step (seqAbs s w.arg) .zero = seqAbs s w.arg := by
        rw [hA]
        rcases hst with h | h <;> simp [SeqA.step, h]
      have hto64 : s.toOffset < 2 ^ 64 := hi.off
      have hlt := szOfInt_lt ((s.chunkSize : Int) - to.length)
      have hnormA : SeqA.norm (seqAbs s w.arg) = seqAbs s w.arg := by
        rw [hA]; exact SeqA.norm_of_left hcs
      rcases hs with ⟨hs1, hs2, hs3⟩ | ⟨hs1, hs2, hs3⟩
      · subst hs3
        simp only [if_true, fileEnv]
        have hAp : (seqAbs s w.arg).phase = .diffData := by rw [hA]; exact hs1
        by_cases hrd : to.length = 0 ∨ w.arg.pos + to.length ≤ fr.length
        · simp only [hrd, if_true, ne_eq, not_true, if_false]
          have hfl : ((fr.drop w.arg.pos.toNat).take to.length).length = to.length := by
            rw [List.length_take, List.length_drop]; omega
          have hsl : (sumBytes to ((fr.drop w.arg.pos.toNat).take to.length)).length = to.length := by
            simp only [sumBytes, List.length_zipWith, hfl, Nat.min_self]
          simp only [hfl, not_true, if_false, processWrite, hsl]
          refine ⟨_, rfl, .ok ⟨rfl, g1, ?_, ?_, ?_, hlt⟩ (by exact h2) (by exact h1) fun x res => ?_⟩
          · show wrapInt (s.fromOffset + to.length) = w.arg.pos + to.length
            rw [hpe, hwrap _ hto' (by omega)]
          · show 0 ≤ w.arg.pos + to.length; omega
          · show w.arg.pos + to.length < 2 ^ 31; omega
          · refine (g5 _ _ x res hh).trans (iff_of_eq (congrArg (fun a => Succ (seqSink fr) r'.abs a (c'.rest ++ x) res) ?_))
            refine Eq.trans ?_ (habs' _ _ (by rfl)).symm
            simp only [hleft]
            by_cases hnil : to = []
            · subst hnil
              have : ∀ l, sumBytes [] l = [] := by simp [sumBytes]
              simp only [toks, Sink.steps_cons, Sink.steps_nil, hzero, this, List.length_nil, List.append_nil, Nat.sub_zero,
                Int.natCast_zero, Int.add_zero, sz_self hto64]
              rw [← hA]
              exact hzero.trans hnormA.symm
            · have := (steps_diff fr to (seqAbs s w.arg) hAp (by rw [hA]; exact hp0) hnil (by rw [hA]; exact hto)).1
                (by rw [hA]; show w.arg.pos + to.length ≤ _; have := List.length_pos_iff.2 hnil; omega)
              rw [toks_of_ne hnil, this]
              simp only [hA]
        · simp only [hrd, if_false]
          have hnil : to ≠ [] := by intro h; apply hrd; left; rw [h]; rfl
          refine ⟨_, if_pos (by decide), .fail (by decide) fun x res => ?_⟩
          rw [g5 _ _ x res hh, toks_of_ne hnil]
          apply Never.not_succ
          apply never_fail
          refine (steps_diff fr to (seqAbs s w.arg) hAp (by rw [hA]; exact hp0) hnil (by rw [hA]; exact hto)).2 ?_
          rw [hA]
          show ¬ w.arg.pos + to.length ≤ _
          omega
      · subst hs3
        have hAp : (seqAbs s w.arg).phase = .extraData := by rw [hA]; exact hs1
        simp only [Bool.false_eq_true, if_false, fileEnv, processWrite, ne_eq, not_true]
        refine ⟨_, rfl, .ok ⟨rfl, g1, hpe, hp0, hp1, hlt⟩ (by exact h2) (by exact h1) fun x res => ?_⟩
        refine (g5 _ _ x res hh).trans (iff_of_eq (congrArg (fun a => Succ (seqSink fr) r'.abs a (c'.rest ++ x) res) ?_))
        refine Eq.trans ?_ (habs' _ _ (by rfl)).symm
        simp only [hleft]
        by_cases hnil : to = []
        · subst hnil
          simp only [toks, Sink.steps_cons, Sink.steps_nil, hzero, List.length_nil, List.append_nil, Nat.sub_zero,
            sz_self hto64]
          rw [← hA]
          exact hzero.trans hnormA.symm
        · rw [toks_of_ne hnil, steps_extra fr to (seqAbs s w.arg) hAp hnil (by rw [hA]; exact hto)]
          simp only [hA]

/-- One step in the body of a patch. -/
theorem once_sim (fr : Bytes) (hfr : fr.length < 2 ^ 31) {s : ApplyPatch} {w : World Files} {r : CReader} (hi : SInv s)
    (hb : Body s w r) (h1 : s.state ≠ .init) (h2 : s.state ≠ .failed) (h3 : s.state ≠ .done) :
    StepSim fr s w r (processOnce (fileEnv fr) s w) := by
  have key : StepSim fr s w r (processSwitch (fileEnv fr) s w) := by
    unfold processSwitch
    cases hs : s.state with
    | init => exact absurd hs h1
    | failed => exact absurd hs h2
    | done => exact absurd hs h3
    | dfpatchSize => exact dfpatch_sim fr hi hb hs
    | diffSize => exact size_sim fr hi hb (.inl ⟨hs, rfl⟩)
    | extraSize => exact size_sim fr hi hb (.inr ⟨hs, rfl⟩)
    | diffData => exact data_sim fr hfr hi hb (.inl ⟨hs, rfl, rfl⟩)
    | extraData => exact data_sim fr hfr hi hb (.inr ⟨hs, rfl, rfl⟩)
    | adjustment => exact adjustment_sim fr hi hb hs
  unfold processOnce
  rw [if_neg h3]
  rcases key with ⟨u, e, hno⟩ | ⟨out, e, ho⟩
  · exact .inl ⟨u, by rw [e]; rfl, hno⟩
  · right
    rw [e]
    simp only [Bind.bind, Except.bind]
    cases ho with
    | fail g1 g2 => exact ⟨_, if_pos g1, .fail g1 g2⟩
    | ok g1 g2 g3 g4 => exact ⟨_, if_neg (by show ¬ (0 : Int) < 0; decide), .ok g1 g2 g3 g4⟩
    | more g1 g2 g3 g4 g5 => exact ⟨_, if_neg (by show ¬ (1 : Int) < 0; decide), .more g1 g2 g3 g4 g5⟩

end Detools
