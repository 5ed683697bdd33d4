import Verif.Proofs.CInPlaceShift
import Verif.Proofs.CDecodes
import Verif.Proofs.PyInPlace
import Verif.Proofs.CSeqCalls
/-
The C in-place update after the header and the shift, on a memory that may lose power.
-/
namespace Detools

variable [Build]

/-- Segment `i` of the new image. -/
def Geo.segData (G : Geo) (i : Nat) : Bytes := (G.to.drop (i * G.S)).take G.S
/-- The from-data segment `i` is rebuilt from. -/
def Geo.frd (G : Geo) (i : Nat) : Bytes := G.frc.drop (G.S * (i + 1) - G.H)
/-- Its address. -/
def Geo.base (G : Geo) (i : Nat) : Nat := max (G.S * (i + 1)) G.H

/-- Adjustments the C decoder can read. -/
def OpsSmall (ops : List Op) : Prop := ∀ op ∈ ops, op.adjustment.natAbs < 2 ^ 27

@[irreducible] def InPlace.mu (s : InPlace) : Nat :=
  3 * (2 ^ 32 * s.chunk.rest.length + (match s.reader with | none => 0 | some r => r.backlog)) +
    match s.state with | .diffData => 1 | .extraData => 1 | _ => 0

variable {G : Geo} {P : Power} {steps : Bool} {k0 : Nat}

omit [Build] in
theorem segData_length (G : Geo) (i : Nat) : (G.segData i).length = min G.S (G.to.length - i * G.S) := by
  simp [Geo.segData]

omit [Build] in
theorem Ready.segSafe {i : Nat} {m : Bytes} (h : Ready G (G.nS + i) m) {addr : Nat} {d : Bytes}
    (h1 : i * G.S ≤ addr) (h2 : addr + d.length ≤ i * G.S + G.S) (h3 : addr + d.length ≤ G.M) :
    Ready G (G.nS + i) (fileWrite m addr d) := by
  have hiS : G.S * (i + 1) = i * G.S + G.S := by rw [Nat.mul_add, Nat.mul_one, Nat.mul_comm]
  refine ⟨?_, fun h => by omega, fun h => by omega, fun hk => ?_, fun hk => ?_⟩
  · rw [fileWrite_length _ _ _ (by rw [h.len]; exact h3), h.len]
  · refine (h.low hk).kept (.inl ?_)
    rw [show G.nS + i - G.nS = i by omega, List.length_take]; omega
  · refine (h.high hk).kept (.inr ?_)
    rw [show G.nS + i - G.nS = i by omega]; omega

omit [Build] in
theorem Ready.low' {i : Nat} {m : Bytes} (h : Ready G (G.nS + i) m) : Holds m 0 (G.to.take (i * G.S)) := by
  have := h.low (by omega)
  rwa [show G.nS + i - G.nS = i by omega] at this

omit [Build] in
theorem Ready.high' {i : Nat} {m : Bytes} (h : Ready G (G.nS + i) m) : Holds m (G.base i) (G.frd i) := by
  have := h.high (by omega)
  rwa [show G.nS + i - G.nS = i by omega] at this

omit [Build] in
/-- The segments up to and including `i` are in place. -/
theorem Ready.upTo {i : Nat} {m : Bytes} (h : Ready G (G.nS + i) m) (hlt : i * G.S < G.to.length)
    (hs : Holds m (i * G.S) (G.segData i)) : Holds m 0 (G.to.take ((i + 1) * G.S)) := by
  rw [Nat.add_mul, Nat.one_mul, List.take_add, Holds.append]
  refine ⟨h.low', ?_⟩
  rw [List.length_take, Nat.min_eq_left (by omega), Nat.zero_add]
  exact hs

omit [Build] in
theorem Ready.segNext {i : Nat} {m : Bytes} (h : Ready G (G.nS + i) m) (hlt : i * G.S < G.to.length)
    (hs : Holds m (i * G.S) (G.segData i)) : Ready G (G.nS + i + 1) m := by
  have hi1 : G.nS + i + 1 - G.nS = i + 1 := by omega
  refine ⟨h.len, fun h => by omega, fun h => by omega, fun _ => ?_, fun _ => ?_⟩
  · rw [hi1]; exact h.upTo hlt hs
  · rw [hi1]
    have h2 : G.S * (i + 1 + 1) = G.S * (i + 1) + G.S := by rw [Nat.mul_add, Nat.mul_one]
    have hh := h.high'
    unfold Geo.base Geo.frd at hh
    rw [h2]
    generalize G.S * (i + 1) = a at *
    by_cases hl : a + G.S - G.H < G.frc.length
    · have := hh.drop (max (a + G.S) G.H - max a G.H) (by rw [List.length_drop]; omega)
      rw [List.drop_drop] at this
      rw [show max a G.H + (max (a + G.S) G.H - max a G.H) = max (a + G.S) G.H by omega,
        show a - G.H + (max (a + G.S) G.H - max a G.H) = a + G.S - G.H by omega] at this
      exact this
    · rw [List.drop_eq_nil_of_le (by omega)]
      exact Holds.nil _ _

/-- What does not change after the header. -/
structure Konst (G : Geo) (s : InPlace) : Prop where
  seg : s.segmentSize = G.S
  shift : s.shiftSize = G.H
  toSz : s.toSize = G.to.length
  chunk : s.chunk.Inv
  acc : s.readerSize.Inv

/-- In segment `i`, `t` bytes of it done, the from cursor at `pos`. -/
structure InSeg (G : Geo) (P : Power) (steps : Bool) (k0 : Nat) (s : InPlace) (w : MWorld Flash) (i t : Nat) (pos : Int) : Prop where
  k : Konst G s
  lt : i * G.S < G.to.length
  step : s.ongoingStep = (G.nS + i + 1 : Nat)
  seg : s.segment = { index := i + 1, fromOffset := G.base i + pos, toOffset := i * G.S, toSize := (G.segData i).length, toPos := t }
  tpos : s.toPos = i * G.S + t
  le : t ≤ (G.segData i).length
  p0 : 0 ≤ pos
  p1 : pos ≤ (G.frd i).length
  live : Live G P steps k0 (G.nS + i) w
  data : k0 ≤ G.nS + i → Holds w.arg.mem (i * G.S) ((G.segData i).take t)

/-- The rest of the plain patch `E` in each state. -/
inductive Phase (G : Geo) (i t : Nat) (pos : Int) (Z : Bytes) (acc : SizeAcc) (cs : Nat) : SeqPhase → Bytes → Prop
  | diffSize {op : Op} {ops E a} : Rebuilds (G.frd i) pos (op :: ops) ((G.segData i).drop t) → OpsSmall (op :: ops) →
      sizeRun sizeByte acc E = .value op.diff.length a
        (op.diff ++ (packSize op.extra.length ++ (op.extra ++ (packSize op.adjustment ++ (encodeOps ops ++ Z))))) →
      Phase G i t pos Z acc cs .diffSize E
  | diffData {d ex rest : Bytes} {adj : Int} {ops E} :
      (G.segData i).drop t = List.zipWith (· + ·) d ((G.frd i).drop pos.toNat) ++ (ex ++ rest) → pos + d.length ≤ (G.frd i).length →
      0 ≤ pos + d.length + adj → pos + d.length + adj ≤ (G.frd i).length → Rebuilds (G.frd i) (pos + d.length + adj) ops rest →
      OpsSmall ops → adj.natAbs < 2 ^ 27 → cs = d.length → acc.state = .first →
      E = d ++ (packSize ex.length ++ (ex ++ (packSize adj ++ (encodeOps ops ++ Z)))) →
      Phase G i t pos Z acc cs .diffData E
  | extraSize {ex rest : Bytes} {adj : Int} {ops E a} :
      (G.segData i).drop t = ex ++ rest → 0 ≤ pos + adj → pos + adj ≤ (G.frd i).length → Rebuilds (G.frd i) (pos + adj) ops rest →
      OpsSmall ops → adj.natAbs < 2 ^ 27 →
      sizeRun sizeByte acc E = .value ex.length a (ex ++ (packSize adj ++ (encodeOps ops ++ Z))) →
      Phase G i t pos Z acc cs .extraSize E
  | extraData {ex rest : Bytes} {adj : Int} {ops E} :
      (G.segData i).drop t = ex ++ rest → 0 ≤ pos + adj → pos + adj ≤ (G.frd i).length → Rebuilds (G.frd i) (pos + adj) ops rest →
      OpsSmall ops → adj.natAbs < 2 ^ 27 → cs = ex.length → acc.state = .first →
      E = ex ++ (packSize adj ++ (encodeOps ops ++ Z)) →
      Phase G i t pos Z acc cs .extraData E
  | adjustment {adj : Int} {ops E a} :
      0 ≤ pos + adj → pos + adj ≤ (G.frd i).length → Rebuilds (G.frd i) (pos + adj) ops ((G.segData i).drop t) →
      OpsSmall ops →
      sizeRun sizeByte acc E = .value adj a (encodeOps ops ++ Z) →
      Phase G i t pos Z acc cs .adjustment E

/-- The segments still to come, from `i`. -/
structure Tail (G : Geo) (i : Nat) (opss : List (List Op)) : Prop where
  ops : SegOps G.frc G.to G.S G.H i opss
  count : i + opss.length = G.nT
  small : ∀ ops ∈ opss, OpsSmall ops

/-- The update after the header; `x` is the rest of the patch. -/
inductive Bd (G : Geo) (P : Power) (steps : Bool) (k0 : Nat) (s : InPlace) (w : MWorld Flash) (x : Bytes) : Prop
  | top (r : CReader) (E : Bytes) (a : SizeAcc) (i : Nat) (ops : List Op) (opss : List (List Op)) :
      s.state = .dfpatchSize → s.reader = some r → r.Good → Decodes r x E → Konst G s →
      sizeRun sizeByte s.readerSize E = .value 0 a (encodeOps ops ++ encodeSegments opss) → Tail G i (ops :: opss) →
      s.segment.index = i → s.toPos = i * G.S → s.ongoingStep = (G.nS + i + 1 : Nat) → Live G P steps k0 (G.nS + i) w →
      Bd G P steps k0 s w x
  | seg (r : CReader) (E : Bytes) (i t : Nat) (pos : Int) (opss : List (List Op)) :
      s.reader = some r → r.Good → Decodes r x E → InSeg G P steps k0 s w i t pos → Tail G (i + 1) opss →
      Phase G i t pos (encodeSegments opss) s.readerSize s.chunkSize s.state E → Bd G P steps k0 s w x
  | done (r : CReader) : s.state = .done → s.reader = some r → Decodes r x [] → s.toSize = G.to.length → s.chunk.Inv →
      Finished G steps k0 w → Bd G P steps k0 s w x

/-- What one step achieves. -/
inductive IPOut (G : Geo) (P : Power) (steps : Bool) (k0 : Nat) (s : InPlace) (x : Bytes) : IPRes Flash → Prop
  | ok {s' w'} : Bd G P steps k0 s' w' (s'.chunk.rest ++ x) → s'.mu < s.mu → IPOut G P steps k0 s x (0, s', w')
  | more {s' w'} : Bd G P steps k0 s' w' x → s'.chunk.Inv → s'.chunk.rest = [] → x ≠ [] → IPOut G P steps k0 s x (1, s', w')
  | dead {e s' w'} : e < 0 → e ≠ ALREADY_DONE → Dead G P steps k0 w' → IPOut G P steps k0 s x (e, s', w')

theorem unpack_ip {s : InPlace} {r : CReader} {x E D : Bytes} {v : Int} {a : SizeAcc} (hr : s.reader = some r) (hi : r.Good)
    (hc : s.chunk.Inv) (ha : s.readerSize.Inv) (hE : sizeRun sizeByte s.readerSize E = .value v a D)
    (hD : Decodes r (s.chunk.rest ++ x) E) :
    (∃ r' c' a', s.unpackSize = .ok (.value v, { s with reader := some r', chunk := c', readerSize := a' }) ∧ r'.Good ∧ c'.Inv ∧
      a'.Inv ∧ a'.state = .first ∧ 2 ^ 32 * c'.rest.length + r'.backlog < 2 ^ 32 * s.chunk.rest.length + r.backlog ∧
      Decodes r' (c'.rest ++ x) D) ∨
    (∃ r' c' a' E' a'', s.unpackSize = .ok (.more, { s with reader := some r', chunk := c', readerSize := a' }) ∧ r'.Good ∧ c'.Inv ∧
      a'.Inv ∧ c'.rest = [] ∧ x ≠ [] ∧ sizeRun sizeByte a' E' = .value v a'' D ∧ Decodes r' x E') := by
  obtain ⟨⟨d, r', c', a'⟩, e1, e2⟩ := decodes_size hi hc ha ⟨a, hE⟩ hD
  unfold InPlace.unpackSize
  simp only [hr, e1, Bind.bind, Except.bind, pure, Except.pure]
  match d, e2 with
  | .value v', ⟨g1, g2, g3, g4, g5, g6, g7⟩ =>
    subst g1
    exact .inl ⟨r', c', a', rfl, g2, g3, g4, g5, g6, g7⟩
  | .more, ⟨g1, g2, g3, g4, g5, g6, E', ⟨a'', g7⟩, g8⟩ =>
    refine .inr ⟨r', c', a', E', a'', rfl, g1, g2, g3, g4, g5, g7, g8⟩

omit [Build] in
theorem encodeOps_cons (op : Op) (ops : List Op) (Z : Bytes) : encodeOps (op :: ops) ++ Z =
    packSize op.diff.length ++ (op.diff ++ (packSize op.extra.length ++ (op.extra ++ (packSize op.adjustment ++ (encodeOps ops ++ Z))))) := by
  simp [encodeOps, Op.chunks]

omit [Build] in
theorem encodeSegments_cons (ops : List Op) (opss : List (List Op)) : encodeSegments (ops :: opss) =
    packSize 0 ++ (encodeOps ops ++ encodeSegments opss) := by
  simp [encodeSegments]

omit [Build] in
theorem OpsSmall.cons {op : Op} {ops : List Op} (h : OpsSmall (op :: ops)) : op.adjustment.natAbs < 2 ^ 27 ∧ OpsSmall ops :=
  ⟨h op (by simp), fun o ho => h o (by simp [ho])⟩

omit [Build] in
/-- The diff size of a triple. -/
theorem run_nat {n : Nat} (h : n < 2 ^ 27) (D : Bytes) (acc : SizeAcc) (hf : acc.state = .first) :
    ∃ a, sizeRun sizeByte acc (packSize n ++ D) = .value n a D :=
  sizeRun_pack (by omega) D acc hf

omit [Build] in
theorem geo_to (hG : G.Ok) : G.to.length < 2 ^ 27 := Nat.lt_of_le_of_lt hG.toM hG.small

omit [Build] in
theorem geo_frd (hG : G.Ok) (i : Nat) : (G.frd i).length < 2 ^ 27 := by
  have h1 := hG.fit
  have h2 := hG.len
  have h3 := hG.small
  have h4 := hG.pre.length_le
  simp only [Geo.frd, List.length_drop]
  omega

omit [Build] in
theorem geo_base (hG : G.Ok) {i : Nat} (hlt : i * G.S < G.to.length) : G.base i < 2 ^ 28 := by
  have hiS : G.S * (i + 1) = i * G.S + G.S := by rw [Nat.mul_add, Nat.mul_one, Nat.mul_comm]
  have h1 := hG.fit
  have h3 := hG.small
  have h4 := hG.shift
  have := geo_to hG
  unfold Geo.base
  omega

omit [Build] in
theorem geo_last (hG : G.Ok) {i : Nat} (hlt : i * G.S < G.to.length) : i < G.nT := by
  have hS := hG.seg
  obtain ⟨_, _, h3⟩ := segments_count G.to.length G.S hG.seg hG.toPos
  have h3 : G.to.length ≤ G.nT * G.S := h3
  exact Nat.lt_of_mul_lt_mul_right (Nat.lt_of_lt_of_le hlt h3)

/-- A segment starts: the size of the data format patch. -/
theorem top_step (hG : G.Ok) {s : InPlace} {w : MWorld Flash} {x : Bytes} {r : CReader} {E : Bytes} {a : SizeAcc} {i : Nat}
    {ops : List Op} {opss : List (List Op)} (hr : s.reader = some r) (hi : r.Good) (hD : Decodes r (s.chunk.rest ++ x) E)
    (hK : Konst G s) (hE : sizeRun sizeByte s.readerSize E = .value 0 a (encodeOps ops ++ encodeSegments opss))
    (hT : Tail G i (ops :: opss)) (hx : s.segment.index = i) (hp : s.toPos = i * G.S) (ho : s.ongoingStep = (G.nS + i + 1 : Nat))
    (hL : Live G P steps k0 (G.nS + i) w) (hst : s.state = .dfpatchSize) :
    ∃ out, ipDfpatchSize (flashEnv P steps) s w = .ok out ∧ IPOut G P steps k0 s x out := by
  unfold ipDfpatchSize
  rcases unpack_ip hr hi hK.chunk hK.acc hE hD with ⟨r', c', a', e, g1, g2, g3, g4, g5, g6⟩ | ⟨r', c', a', E', a'', e, g1, g2, g3, g4, g5, g6, g7⟩
  · obtain ⟨hlt, hR, hS'⟩ := hT.ops
    have hiS : G.S * (i + 1) = i * G.S + G.S := by rw [Nat.mul_add, Nat.mul_one, Nat.mul_comm]
    have hS := hG.seg
    have hsm := hG.small
    have htoM := hG.toM
    have hsh := hG.shift
    have hfit := hG.fit
    have hbase := geo_base hG hlt
    have hile : i ≤ i * G.S := Nat.le_mul_of_pos_right _ hS
    have hsd := segData_length G i
    simp only [e, Bind.bind, Except.bind, Int.lt_irrefl, gt_iff_lt, if_false]
    -- the numbers
    have n1 : sz (s.segment.index * s.segmentSize) = i * G.S := by rw [hx, hK.seg, sz_small (by omega)]
    have n2 : sz (s.segment.index + 1) = i + 1 := by rw [hx, sz_small (by omega)]
    have n3 : wrapInt (max (sz (s.segmentSize * (i + 1))) s.shiftSize : Nat) = (G.base i : Int) + 0 := by
      rw [hK.seg, hK.shift, sz_small (by omega)]
      show wrapInt (G.base i : Nat) = _
      unfold wrapInt; omega
    have n4 : min s.segmentSize (szOfInt ((s.toSize : Int) - (i * G.S : Nat))) = (G.segData i).length := by
      rw [hK.seg, hK.toSz, szOfInt_nat (by omega) (by omega), hsd]; omega
    simp only [n1, n2, n3, n4]
    -- the first triple
    have hne : (G.segData i) ≠ [] := by
      intro h
      have := congrArg List.length h
      rw [hsd] at this
      simp only [List.length_nil] at this
      omega
    obtain ⟨op, ops', rfl⟩ : ∃ op ops', ops = op :: ops' := by
      cases ops with
      | nil => exact absurd hR hne
      | cons op ops' => exact ⟨op, ops', rfl⟩
    have hsmall := hT.small _ (List.mem_cons_self ..)
    have hdl : op.diff.length < 2 ^ 27 := by
      have := hR.2.2.1
      have h2 := geo_frd hG i
      unfold Geo.frd at h2
      omega
    rw [encodeOps_cons] at g6
    obtain ⟨a2, ha2⟩ := run_nat hdl (op.diff ++ (packSize op.extra.length ++ (op.extra ++ (packSize op.adjustment ++ (encodeOps ops' ++ encodeSegments opss))))) a' g4
    have hseg : ∀ {w' : MWorld Flash}, Live G P steps k0 (G.nS + i) w' →
        Bd G P steps k0 { s with
          reader := some r', chunk := c', readerSize := a', state := .diffSize
          segment := { index := i + 1, fromOffset := (G.base i : Int) + 0, toOffset := i * G.S, toSize := (G.segData i).length, toPos := 0 } } w' (c'.rest ++ x) := by
      intro w' hL'
      refine .seg r' _ i 0 0 opss rfl g1 g6 ⟨⟨hK.seg, hK.shift, hK.toSz, g2, g3⟩, hlt, ho, rfl, hp, by omega, by omega, by omega, hL', fun _ => ?_⟩ ?_ ?_
      · rw [List.take_zero]; exact Holds.nil _ _
      · exact ⟨hS', by have := hT.count; simp only [List.length_cons] at this; omega, fun o ho => hT.small o (by simp [ho])⟩
      · exact .diffSize hR hsmall ha2
    have hmu : ∀ {sg : Segment}, InPlace.mu { s with
          reader := some r', chunk := c', readerSize := a', state := .diffSize, segment := sg } < s.mu := by
      intro sg
      unfold InPlace.mu
      simp only [hr, hst]
      omega
    by_cases hk : k0 ≤ G.nS + i
    · have hmax : max k0 (G.nS + i) = G.nS + i := by omega
      have hrec := hL.mem
      rw [hmax] at hrec
      obtain ⟨w', hw'⟩ := live_erase hL hk (addr := i * G.S) (n := (G.segData i).length) (by omega)
        (fun d hd => hrec.segSafe (by omega) (by omega) (by omega))
      rcases hw' with ⟨e1, hL1, _⟩ | ⟨e1, hd⟩
      · rw [← ho] at e1
        simp only [e1]
        exact ⟨_, rfl, .ok (hseg hL1) hmu⟩
      · rw [← ho] at e1
        simp only [e1]
        exact ⟨_, rfl, .dead (by decide) (by decide) hd⟩
    · obtain ⟨w', e1, hL1, _⟩ := skip_erase hL (by omega) (i * G.S) (G.segData i).length
      rw [← ho] at e1
      simp only [e1]
      exact ⟨_, rfl, .ok (hseg hL1) hmu⟩
  · simp only [e, Bind.bind, Except.bind]
    exact ⟨_, rfl, .more (.top r' E' a'' i ops opss hst rfl g1 g7 ⟨hK.seg, hK.shift, hK.toSz, g2, g3⟩ g6 hT hx hp ho hL) g2 g4 g5⟩

omit [Build] in
theorem InSeg.upd {s : InPlace} {w : MWorld Flash} {i t : Nat} {pos : Int} (h : InSeg G P steps k0 s w i t pos) {r : Option CReader}
    {c : Chunk} {a : SizeAcc} {st : SeqPhase} {cs : Nat} (hc : c.Inv) (ha : a.Inv) :
    InSeg G P steps k0 { s with reader := r, chunk := c, readerSize := a, state := st, chunkSize := cs } w i t pos :=
  ⟨⟨h.k.seg, h.k.shift, h.k.toSz, hc, ha⟩, h.lt, h.step, h.seg, h.tpos, h.le, h.p0, h.p1, h.live, h.data⟩

omit [Build] in
theorem zip_length {d f : Bytes} (h : d.length ≤ f.length) : (List.zipWith (· + ·) d f : Bytes).length = d.length := by
  rw [List.length_zipWith]; omega

omit [Build] in
/-- A size that fits. -/
theorem size_fits (hG : G.Ok) {s : InPlace} {w : MWorld Flash} {i t : Nat} {pos : Int} (h : InSeg G P steps k0 s w i t pos) {n : Nat}
    (hn : t + n ≤ (G.segData i).length) : sizeTooBig s.toPos s.toSize (n : Int) = false ∧ szOfInt (n : Int) = n := by
  have h1 := h.lt
  have h2 := segData_length G i
  have h3 := geo_to hG
  have hz : szOfInt (n : Int) = n := by rw [szOfInt_nat (by omega) (by omega)]; omega
  refine ⟨?_, hz⟩
  unfold sizeTooBig
  rw [hz, h.tpos, h.k.toSz, sz_small (by omega)]
  simp only [decide_eq_false_iff_not]
  omega

theorem mu_lt {s s' : InPlace} {r r' : CReader} (hr : s.reader = some r) (hr' : s'.reader = some r')
    (h : 2 ^ 32 * s'.chunk.rest.length + r'.backlog < 2 ^ 32 * s.chunk.rest.length + r.backlog) : s'.mu < s.mu := by
  unfold InPlace.mu
  simp only [hr, hr']
  split <;> split <;> omega

/-- The size of the diff or extra data. -/
theorem size_step (hG : G.Ok) {s : InPlace} {w : MWorld Flash} {x : Bytes} {r : CReader} {E D : Bytes} {i t : Nat} {pos : Int}
    {opss : List (List Op)} {n : Nat} {a : SizeAcc} {st next : SeqPhase}
    (hr : s.reader = some r) (hi : r.Good) (hD : Decodes r (s.chunk.rest ++ x) E)
    (hS : InSeg G P steps k0 s w i t pos) (hT : Tail G (i + 1) opss) (hst : s.state = st)
    (hE : sizeRun sizeByte s.readerSize E = .value n a D) (hn : t + n ≤ (G.segData i).length)
    (hmore : ∀ acc E' a', sizeRun sizeByte acc E' = .value n a' D → Phase G i t pos (encodeSegments opss) acc s.chunkSize st E')
    (hval : ∀ acc : SizeAcc, acc.state = .first → Phase G i t pos (encodeSegments opss) acc n next D) :
    ∃ out, ipSize s w next = .ok out ∧ IPOut G P steps k0 s x out := by
  obtain ⟨f1, f2⟩ := size_fits hG hS hn
  unfold ipSize
  rcases unpack_ip hr hi hS.k.chunk hS.k.acc hE hD with ⟨r', c', a', e, g1, g2, g3, g4, g5, g6⟩ | ⟨r', c', a', E', a'', e, g1, g2, g3, g4, g5, g6, g7⟩
  · simp only [e, Bind.bind, Except.bind, f1, f2, Bool.false_eq_true, if_false]
    refine ⟨_, rfl, .ok (.seg r' D i t pos opss rfl g1 g6 (hS.upd g2 g3) hT (hval a' g4)) ?_⟩
    exact mu_lt hr rfl g5
  · simp only [e, Bind.bind, Except.bind]
    refine ⟨_, rfl, .more (.seg r' E' i t pos opss rfl g1 g7 ?_ hT ?_) g2 g4 g5⟩
    · exact ⟨⟨hS.k.seg, hS.k.shift, hS.k.toSz, g2, g3⟩, hS.lt, hS.step, hS.seg, hS.tpos, hS.le, hS.p0, hS.p1, hS.live, hS.data⟩
    · simp only
      rw [hst]
      exact hmore _ _ _ g6

theorem diffSize_step (hG : G.Ok) {s : InPlace} {w : MWorld Flash} {x : Bytes} {r : CReader} {E : Bytes} {i t : Nat} {pos : Int}
    {opss : List (List Op)}
    (hr : s.reader = some r) (hi : r.Good) (hD : Decodes r (s.chunk.rest ++ x) E)
    (hS : InSeg G P steps k0 s w i t pos) (hT : Tail G (i + 1) opss) (hst : s.state = .diffSize)
    (hP : Phase G i t pos (encodeSegments opss) s.readerSize s.chunkSize .diffSize E) :
    ∃ out, ipSize s w .diffData = .ok out ∧ IPOut G P steps k0 s x out := by
  cases hP with
  | @diffSize op ops a _ h1 h2 h3 =>
  obtain ⟨q1, q2, q3, q4, q5, rest, q6, q7⟩ := h1
  have hz : (List.zipWith (· + ·) op.diff ((G.frd i).drop pos.toNat) : Bytes).length = op.diff.length :=
    zip_length (by rw [List.length_drop]; omega)
  have hlen := congrArg List.length q6
  simp only [List.length_drop, List.length_append, hz] at hlen
  have := hS.le
  refine size_step hG hr hi hD hS hT hst h3 (by omega) ?_ ?_
  · intro acc E' a' h
    exact .diffSize ⟨q1, q2, q3, q4, q5, rest, q6, q7⟩ h2 h
  · intro acc hacc
    rw [List.append_assoc] at q6
    exact .diffData q6 q3 q4 q5 q7 h2.cons.2 h2.cons.1 rfl hacc rfl

theorem extraSize_step (hG : G.Ok) {s : InPlace} {w : MWorld Flash} {x : Bytes} {r : CReader} {E : Bytes} {i t : Nat} {pos : Int}
    {opss : List (List Op)}
    (hr : s.reader = some r) (hi : r.Good) (hD : Decodes r (s.chunk.rest ++ x) E)
    (hS : InSeg G P steps k0 s w i t pos) (hT : Tail G (i + 1) opss) (hst : s.state = .extraSize)
    (hP : Phase G i t pos (encodeSegments opss) s.readerSize s.chunkSize .extraSize E) :
    ∃ out, ipSize s w .extraData = .ok out ∧ IPOut G P steps k0 s x out := by
  cases hP with
  | @extraSize ex rest adj ops a _ h1 h2 h3 h4 h5 h6 h7 =>
  have hlen := congrArg List.length h1
  simp only [List.length_drop, List.length_append] at hlen
  have := hS.le
  refine size_step hG hr hi hD hS hT hst h7 (by omega) ?_ ?_
  · intro acc E' a' h
    exact .extraSize h1 h2 h3 h4 h5 h6 h
  · intro acc hacc
    exact .extraData h1 h2 h3 h4 h5 h6 rfl hacc rfl

omit [Build] in
/-- Moving to the right in a segment. -/
theorem segData_take {i t n : Nat} {data rest : Bytes} (h : (G.segData i).drop t = data ++ rest) (hn : data.length = n) :
    (G.segData i).take (t + n) = (G.segData i).take t ++ data := by
  rw [List.take_add, h, List.take_append_of_le_length (by omega), List.take_of_length_le (l := data) (by omega)]

omit [Build] in
theorem segData_drop {i t n : Nat} {data rest : Bytes} (h : (G.segData i).drop t = data ++ rest) (hn : data.length = n) :
    (G.segData i).drop (t + n) = rest := by
  rw [← List.drop_drop, h, List.drop_append_of_le_length (by omega), List.drop_eq_nil_of_le (by omega), List.nil_append]

/-- The write at the end of a data step. `data` are the right bytes, `to` what is
written: the same unless the step is skipped. -/
theorem dataWrite_step (hG : G.Ok) {s : InPlace} {w : MWorld Flash} {x : Bytes} {r : CReader} {D : Bytes} {i t : Nat} {pos : Int}
    {opss : List (List Op)} {to data rest : Bytes} {s0 : InPlace}
    (hr : s.reader = some r) (hi : r.Good) (hD : Decodes r (s.chunk.rest ++ x) D)
    (hS : InSeg G P steps k0 s w i t pos) (hT : Tail G (i + 1) opss)
    (hdata : (G.segData i).drop t = data ++ rest) (hl : to.length = data.length) (hto : k0 ≤ G.nS + i → to = data)
    (hcs : data.length ≤ s.chunkSize) (hcs2 : s.chunkSize < 2 ^ 63)
    (hmu : ∀ s' : InPlace, s'.chunk = s.chunk → s'.reader = s.reader → s'.mu < s0.mu)
    (hP : Phase G i (t + data.length) pos (encodeSegments opss) s.readerSize (s.chunkSize - data.length) s.state D) :
    ∃ out, ipDataWrite (flashEnv P steps) s w to = .ok out ∧ IPOut G P steps k0 s0 x out := by
  have hlt := hS.lt
  have hsd := segData_length G i
  have hto' := geo_to hG
  have htoM := hG.toM
  have hlen := congrArg List.length hdata
  simp only [List.length_drop, List.length_append] at hlen
  have hle := hS.le
  unfold ipDataWrite
  have hseg := hS.seg
  have hp := hS.tpos
  have ho := hS.step
  have n1 : sz (s.segment.toPos + s.segment.toOffset) = i * G.S + t := by
    rw [hseg]; simp only; rw [sz_small (by omega)]; omega
  have n2 : sz (s.toPos + to.length) = i * G.S + (t + data.length) := by
    rw [hp, hl, sz_small (by omega)]; omega
  have n3 : sz (s.segment.toPos + to.length) = t + data.length := by
    rw [hseg]; simp only; rw [hl, sz_small (by omega)]
  have n4 : szOfInt ((s.chunkSize : Int) - to.length) = s.chunkSize - data.length := by
    rw [hl, szOfInt_nat (by omega) (by omega)]; omega
  simp only [n1, n2, n3, n4]
  have fin : ∀ {w' : MWorld Flash}, Live G P steps k0 (G.nS + i) w' →
      (k0 ≤ G.nS + i → Holds w'.arg.mem (i * G.S) ((G.segData i).take (t + data.length))) →
      Bd G P steps k0 { s with
        toPos := i * G.S + (t + data.length), segment := { s.segment with toPos := t + data.length }, chunkSize := s.chunkSize - data.length } w' (s.chunk.rest ++ x) := by
    intro w' hL' hH'
    refine .seg r D i (t + data.length) pos opss hr hi hD ?_ hT hP
    refine ⟨⟨hS.k.seg, hS.k.shift, hS.k.toSz, hS.k.chunk, hS.k.acc⟩, hlt, ho, ?_, rfl, by omega, hS.p0, hS.p1, hL', hH'⟩
    simp only [hseg]
  by_cases hk : k0 ≤ G.nS + i
  · have hmax : max k0 (G.nS + i) = G.nS + i := by omega
    have hrec := hS.live.mem
    rw [hmax] at hrec
    have htd := hto hk
    subst htd
    obtain ⟨w', hw'⟩ := live_write hS.live hk (addr := i * G.S + t) (data := to) (by omega)
      (fun d hd => hrec.segSafe (by omega) (by omega) (by omega))
    rw [← ho] at hw'
    rcases hw' with ⟨e1, hL1, m1⟩ | ⟨e1, hd⟩
    · simp only [e1, ne_eq, not_true, if_false]
      refine ⟨_, rfl, .ok (fin hL1 fun _ => ?_) (hmu _ rfl rfl)⟩
      rw [m1, segData_take hdata rfl, Holds.append]
      have hl : ((G.segData i).take t).length = t := by rw [List.length_take]; omega
      refine ⟨(hS.data hk).kept (.inl (by rw [hl]; omega)), ?_⟩
      rw [hl]
      exact Holds.written _ _ _
    · simp only [e1]
      rw [if_pos (by decide)]
      exact ⟨_, rfl, .dead ioNeg (by decide) hd⟩
  · obtain ⟨w', e1, hL1, _⟩ := skip_write hS.live (by omega) (i * G.S + t) to
    rw [← ho] at e1
    simp only [e1, ne_eq, not_true, if_false]
    exact ⟨_, rfl, .ok (fin hL1 fun h => absurd h hk) (hmu _ rfl rfl)⟩

omit [Build] in
theorem dataCap_eq : dataCap = 128 := rfl

theorem mu_zero {s : InPlace} {st next : SeqPhase} (hst : s.state = st) (h1 : st = .diffData ∨ st = .extraData)
    (h2 : next ≠ .diffData) (h3 : next ≠ .extraData) : ({ s with state := next } : InPlace).mu < s.mu := by
  unfold InPlace.mu
  rw [hst]
  have e1 : (match next with | .diffData => 1 | .extraData => 1 | _ => 0) = 0 := by
    cases next <;> first | rfl | exact absurd rfl h2 | exact absurd rfl h3
  have e2 : (match st with | .diffData => 1 | .extraData => 1 | _ => 0) = 1 := by
    rcases h1 with rfl | rfl <;> rfl
  simp only [e1, e2]
  omega

theorem diffData_step (hG : G.Ok) {s : InPlace} {w : MWorld Flash} {x : Bytes} {r : CReader} {E : Bytes} {i t : Nat} {pos : Int}
    {opss : List (List Op)}
    (hr : s.reader = some r) (hi : r.Good) (hD : Decodes r (s.chunk.rest ++ x) E)
    (hS : InSeg G P steps k0 s w i t pos) (hT : Tail G (i + 1) opss) (hst : s.state = .diffData)
    (hP : Phase G i t pos (encodeSegments opss) s.readerSize s.chunkSize .diffData E) :
    ∃ out, ipData (flashEnv P steps) s w .extraSize true = .ok out ∧ IPOut G P steps k0 s x out := by
  cases hP with
  | @diffData d ex rest adj ops _ h1 h2 h3 h4 h5 h6 h7 h8 h9 h10 =>
  have hsd := segData_length G i
  have hto' := geo_to hG
  have hp0 := hS.p0
  have hp1 := hS.p1
  have hle := hS.le
  have hlt := hS.lt
  have hz : (List.zipWith (· + ·) d ((G.frd i).drop pos.toNat) : Bytes).length = d.length :=
    zip_length (by rw [List.length_drop]; omega)
  have hlen := congrArg List.length h1
  simp only [List.length_drop, List.length_append, hz] at hlen
  unfold ipData
  by_cases h0 : d.length = 0
  · have hd : d = [] := List.eq_nil_of_length_eq_zero h0
    subst hd
    have hc0 : min dataCap s.chunkSize = 0 := by rw [h8]; simp
    simp only [hc0, if_true]
    obtain ⟨a, ha⟩ := run_nat (n := ex.length) (by omega) (ex ++ (packSize adj ++ (encodeOps ops ++ encodeSegments opss))) s.readerSize h9
    refine ⟨_, rfl, .ok (.seg r E i t pos opss hr hi hD (hS.upd hS.k.chunk hS.k.acc) hT ?_) (mu_zero hst (.inl rfl) (by decide) (by decide))⟩
    simp only [List.length_nil, Int.natCast_zero, Int.add_zero, List.zipWith_nil_left, List.nil_append] at h1 h3 h4 h5 h10
    subst h10
    exact .extraSize h1 h3 h4 h5 h6 h7 ha
  · have hsz : min dataCap s.chunkSize = min 128 d.length := by rw [h8]; rfl
    simp only [hsz]
    rw [if_neg (by omega)]
    simp only [hr]
    obtain ⟨⟨o, r', c'⟩, e1, e2⟩ := decodes_dec (cap := dataCap) (size := min 128 d.length) hi hS.k.chunk (by omega)
      (by rw [dataCap_eq]; omega) (by rw [dataCap_eq]; omega) (by rw [h10, List.length_append]; omega) hD
    simp only [e1, Bind.bind, Except.bind]
    match o, e2 with
    | .more, ⟨g1, g2, g3, g4, g5, g6⟩ =>
      refine ⟨_, rfl, .more (.seg r' E i t pos opss rfl g1 g6 ?_ hT ?_) g2 g3 ?_⟩
      · exact ⟨⟨hS.k.seg, hS.k.shift, hS.k.toSz, g2, hS.k.acc⟩, hS.lt, hS.step, hS.seg, hS.tpos, hS.le, hS.p0, hS.p1, hS.live, hS.data⟩
      · simp only
        rw [hst]
        exact .diffData h1 h2 h3 h4 h5 h6 h7 h8 h9 h10
      · exact g4
    | .ok to, ⟨g1, g2, g3, g4, g5, E', g6, g7⟩ =>
      simp only [if_true]
      -- the bytes read belong to the diff
      obtain ⟨d', hd'⟩ : ∃ d', d = to ++ d' := by
        have h := g6
        rw [h10] at h
        have hpre : to <+: d := by
          have h1 : to <+: d ++ (packSize ex.length ++ (ex ++ (packSize adj ++ (encodeOps ops ++ encodeSegments opss)))) := ⟨E', h.symm⟩
          exact List.prefix_of_prefix_length_le h1 (List.prefix_append _ _) (by omega)
        exact ⟨_, hpre.choose_spec.symm⟩
      subst hd'
      have hdl : (to ++ d').length = to.length + d'.length := List.length_append
      have hE' : E' = d' ++ (packSize ex.length ++ (ex ++ (packSize adj ++ (encodeOps ops ++ encodeSegments opss)))) := by
        rw [h10, List.append_assoc] at g6
        exact (List.append_cancel_left g6).symm
      have hzip : List.zipWith (· + ·) (to ++ d') ((G.frd i).drop pos.toNat) =
          List.zipWith (· + ·) to (((G.frd i).drop pos.toNat).take to.length) ++ List.zipWith (· + ·) d' ((G.frd i).drop (pos + to.length).toNat) := by
        conv => lhs; rw [← List.take_append_drop to.length ((G.frd i).drop pos.toNat)]
        rw [List.zipWith_append (by rw [List.length_take, List.length_drop]; omega), List.drop_drop,
          show pos.toNat + to.length = (pos + to.length).toNat by omega]
      have hzl : (List.zipWith (· + ·) to (((G.frd i).drop pos.toNat).take to.length) : Bytes).length = to.length :=
        zip_length (by rw [List.length_take, List.length_drop]; omega)
      rw [hzip, List.append_assoc] at h1
      have hfb := geo_frd hG i
      have hbb := geo_base hG hlt
      have hseg := hS.seg
      have hfo : s.segment.fromOffset = G.base i + pos := by rw [hseg]
      have n1 : szOfInt s.segment.fromOffset = G.base i + pos.toNat := by
        rw [hfo, szOfInt_nat (by omega) (by omega)]; omega
      simp only [n1]
      have hnov : ¬ 2 ^ 31 ≤ s.segment.fromOffset + to.length := by rw [hfo]; omega
      have hS' : ∀ {w' : MWorld Flash}, Live G P steps k0 (G.nS + i) w' → w'.arg = w.arg →
          InSeg G P steps k0 { s with reader := some r', chunk := c', segment := { s.segment with fromOffset := s.segment.fromOffset + to.length } } w' i t (pos + to.length) := by
        intro w' hL' ha
        refine ⟨⟨hS.k.seg, hS.k.shift, hS.k.toSz, g2, hS.k.acc⟩, hS.lt, hS.step, ?_, hS.tpos, hS.le, by omega, by omega, hL', by rw [ha]; exact hS.data⟩
        simp only [hseg]
        congr 1; omega
      have hmu : ∀ s' : InPlace, s'.chunk = c' → s'.reader = some r' → s'.mu < s.mu := by
        intro s' q1 q2
        refine mu_lt hr q2 ?_
        rw [q1]; exact g3
      have hPh : Phase G i (t + to.length) (pos + to.length) (encodeSegments opss) s.readerSize (s.chunkSize - to.length) s.state E' := by
        rw [hst]
        refine .diffData (d := d') (ex := ex) (rest := rest) (adj := adj) (ops := ops) (segData_drop h1 hzl) ?_ ?_ ?_ ?_ h6 h7 ?_ h9 hE'
        · omega
        · omega
        · omega
        · rw [show pos + to.length + d'.length + adj = pos + ((to ++ d').length : Nat) + adj by omega]; exact h5
        · omega
      by_cases hk : k0 ≤ G.nS + i
      · have hmax : max k0 (G.nS + i) = G.nS + i := by omega
        have hrec := hS.live.mem
        rw [hmax] at hrec
        have hH := hrec.high'
        have htpos : 0 < to.length := List.length_pos_iff.2 g4
        have hH2 : Holds w.arg.mem (G.base i + pos.toNat) (((G.frd i).drop pos.toNat).take to.length) :=
          (hH.drop pos.toNat (by omega)).take _
        have hfl : (((G.frd i).drop pos.toNat).take to.length).length = to.length := by
          rw [List.length_take, List.length_drop]; omega
        have hin := hH2.length_le (by intro h; rw [h] at hfl; simp only [List.length_nil] at hfl; omega)
        rw [hfl, hrec.len] at hin
        obtain ⟨w', e3, hL3, a3⟩ := live_read hS.live hk (addr := G.base i + pos.toNat) (n := to.length) hin
        have hrd := hH2.read
        rw [hfl] at hrd
        rw [← hS.step, hrd] at e3
        simp only [e3, ne_eq, not_true, if_false, hnov]
        refine dataWrite_step hG (s := { s with reader := some r', chunk := c', segment := { s.segment with fromOffset := s.segment.fromOffset + to.length } })
          rfl g1 g7 (hS' hL3 a3) hT (data := List.zipWith (· + ·) to (((G.frd i).drop pos.toNat).take to.length)) h1 rfl (fun _ => rfl)
          ?_ ?_ hmu ?_
        · simp only; omega
        · simp only; omega
        · rw [hzl]; exact hPh
      · obtain ⟨w', e3, hL3, a3⟩ := skip_read hS.live (by omega) (G.base i + pos.toNat) to.length
        rw [← hS.step] at e3
        simp only [e3, ne_eq, not_true, if_false, hnov]
        refine dataWrite_step hG (s := { s with reader := some r', chunk := c', segment := { s.segment with fromOffset := s.segment.fromOffset + to.length } })
          rfl g1 g7 (hS' hL3 a3) hT (data := List.zipWith (· + ·) to (((G.frd i).drop pos.toNat).take to.length)) h1 ?_ (fun h => absurd h hk)
          ?_ ?_ hmu ?_
        · rw [hzl, sumBytes, List.length_zipWith, List.length_replicate]; omega
        · simp only; omega
        · simp only; omega
        · rw [hzl]; exact hPh

theorem extraData_step (hG : G.Ok) {s : InPlace} {w : MWorld Flash} {x : Bytes} {r : CReader} {E : Bytes} {i t : Nat} {pos : Int}
    {opss : List (List Op)}
    (hr : s.reader = some r) (hi : r.Good) (hD : Decodes r (s.chunk.rest ++ x) E)
    (hS : InSeg G P steps k0 s w i t pos) (hT : Tail G (i + 1) opss) (hst : s.state = .extraData)
    (hP : Phase G i t pos (encodeSegments opss) s.readerSize s.chunkSize .extraData E) :
    ∃ out, ipData (flashEnv P steps) s w .adjustment false = .ok out ∧ IPOut G P steps k0 s x out := by
  cases hP with
  | @extraData ex rest adj ops _ h1 h3 h4 h5 h6 h7 h8 h9 h10 =>
  have hsd := segData_length G i
  have hto' := geo_to hG
  have hle := hS.le
  have hlt := hS.lt
  have hlen := congrArg List.length h1
  simp only [List.length_drop, List.length_append] at hlen
  unfold ipData
  by_cases h0 : ex.length = 0
  · have hd : ex = [] := List.eq_nil_of_length_eq_zero h0
    subst hd
    have hc0 : min dataCap s.chunkSize = 0 := by rw [h8]; simp
    simp only [hc0, if_true]
    obtain ⟨a, ha⟩ := sizeRun_pack h7 (encodeOps ops ++ encodeSegments opss) s.readerSize h9
    refine ⟨_, rfl, .ok (.seg r E i t pos opss hr hi hD (hS.upd hS.k.chunk hS.k.acc) hT ?_) (mu_zero hst (.inr rfl) (by decide) (by decide))⟩
    simp only [List.nil_append] at h1 h10
    subst h10
    exact .adjustment h3 h4 (by rw [h1]; exact h5) h6 ha
  · have hsz : min dataCap s.chunkSize = min 128 ex.length := by rw [h8]; rfl
    simp only [hsz]
    rw [if_neg (by omega)]
    simp only [hr]
    obtain ⟨⟨o, r', c'⟩, e1, e2⟩ := decodes_dec (cap := dataCap) (size := min 128 ex.length) hi hS.k.chunk (by omega)
      (by rw [dataCap_eq]; omega) (by rw [dataCap_eq]; omega) (by rw [h10, List.length_append]; omega) hD
    simp only [e1, Bind.bind, Except.bind]
    match o, e2 with
    | .more, ⟨g1, g2, g3, g4, g5, g6⟩ =>
      refine ⟨_, rfl, .more (.seg r' E i t pos opss rfl g1 g6 ?_ hT ?_) g2 g3 ?_⟩
      · exact ⟨⟨hS.k.seg, hS.k.shift, hS.k.toSz, g2, hS.k.acc⟩, hS.lt, hS.step, hS.seg, hS.tpos, hS.le, hS.p0, hS.p1, hS.live, hS.data⟩
      · simp only
        rw [hst]
        exact .extraData h1 h3 h4 h5 h6 h7 h8 h9 h10
      · exact g4
    | .ok to, ⟨g1, g2, g3, g4, g5, E', g6, g7⟩ =>
      simp only [Bool.false_eq_true, if_false]
      obtain ⟨d', hd'⟩ : ∃ d', ex = to ++ d' := by
        have h := g6
        rw [h10] at h
        have hpre : to <+: ex := by
          have h1 : to <+: ex ++ (packSize adj ++ (encodeOps ops ++ encodeSegments opss)) := ⟨E', h.symm⟩
          exact List.prefix_of_prefix_length_le h1 (List.prefix_append _ _) (by omega)
        exact ⟨_, hpre.choose_spec.symm⟩
      subst hd'
      have hdl : (to ++ d').length = to.length + d'.length := List.length_append
      have hE' : E' = d' ++ (packSize adj ++ (encodeOps ops ++ encodeSegments opss)) := by
        rw [h10, List.append_assoc] at g6
        exact (List.append_cancel_left g6).symm
      rw [List.append_assoc] at h1
      refine dataWrite_step hG (s := { s with reader := some r', chunk := c' }) rfl g1 g7 (pos := pos) ?_ hT (data := to) h1 rfl (fun _ => rfl)
          ?_ ?_ ?_ ?_
      · exact ⟨⟨hS.k.seg, hS.k.shift, hS.k.toSz, g2, hS.k.acc⟩, hS.lt, hS.step, hS.seg, hS.tpos, hS.le, hS.p0, hS.p1, hS.live, hS.data⟩
      · simp only; omega
      · simp only; omega
      · intro s' q1 q2
        refine mu_lt hr q2 ?_
        rw [q1]; exact g3
      · simp only
        rw [hst]
        exact .extraData (segData_drop h1 rfl) h3 h4 h5 h6 h7 (by omega) h9 hE'

theorem adjustment_step (hG : G.Ok) {s : InPlace} {w : MWorld Flash} {x : Bytes} {r : CReader} {E : Bytes} {i t : Nat} {pos : Int}
    {opss : List (List Op)}
    (hr : s.reader = some r) (hi : r.Good) (hD : Decodes r (s.chunk.rest ++ x) E)
    (hS : InSeg G P steps k0 s w i t pos) (hT : Tail G (i + 1) opss) (hst : s.state = .adjustment)
    (hP : Phase G i t pos (encodeSegments opss) s.readerSize s.chunkSize .adjustment E) :
    ∃ out, ipAdjustment (flashEnv P steps) s w = .ok out ∧ IPOut G P steps k0 s x out := by
  cases hP with
  | @adjustment adj ops a _ h1 h2 h3 h4 h5 =>
  have hsd := segData_length G i
  have hto' := geo_to hG
  have hp0 := hS.p0
  have hp1 := hS.p1
  have hle := hS.le
  have hlt := hS.lt
  have hsegp := hG.seg
  obtain ⟨c0, c1, c2⟩ := segments_count G.to.length G.S hG.seg hG.toPos
  have c1 : (G.nT - 1) * G.S < G.to.length := c1
  have c2 : G.to.length ≤ G.nT * G.S := c2
  have hmax : k0 ≤ G.nS + i → Ready G (G.nS + i) w.arg.mem := by
    intro h
    have := hS.live.mem
    rwa [show max k0 (G.nS + i) = G.nS + i by omega] at this
  have hcnt := hT.count
  unfold ipAdjustment
  rcases unpack_ip hr hi hS.k.chunk hS.k.acc h5 hD with ⟨r', c', a', e, g1, g2, g3, g4, g5, g6⟩ | ⟨r', c', a', E', a'', e, g1, g2, g3, g4, g5, g6, g7⟩
  · simp only [e, Bind.bind, Except.bind]
    have hseg := hS.seg
    have m1 : s.segment.toPos = t := by rw [hseg]
    have m2 : s.segment.toSize = (G.segData i).length := by rw [hseg]
    have m3 : s.segment.fromOffset = G.base i + pos := by rw [hseg]
    have m4 := hS.tpos
    have m5 := hS.k.toSz
    by_cases hfull : t = (G.segData i).length
    · have hops : ops = [] := by
        have hz : (G.segData i).drop t = [] := List.drop_eq_nil_of_le (by omega)
        rw [hz] at h3
        cases ops with
        | nil => rfl
        | cons op ops => exact absurd rfl h3.1
      subst hops
      have hdata : k0 ≤ G.nS + i → Holds w.arg.mem (i * G.S) (G.segData i) := by
        intro h
        have := hS.data h
        rwa [List.take_of_length_le (by omega)] at this
      have henc : encodeOps [] ++ encodeSegments opss = encodeSegments opss := by simp [encodeOps]
      rw [henc] at g6
      by_cases hlast : i * G.S + t = G.to.length
      · -- the last segment
        have hin : G.nT ≤ i + 1 := by
          by_cases hh : i + 1 < G.nT
          · exfalso
            have : (i + 1) * G.S ≤ (G.nT - 1) * G.S := Nat.mul_le_mul_right _ (by omega)
            rw [Nat.add_mul, Nat.one_mul] at this
            omega
          · omega
        have hnil : opss = [] := List.eq_nil_of_length_eq_zero (by omega)
        subst hnil
        have hn : G.nS + i + 1 = G.n := by unfold Geo.n; omega
        have hl := hS.live.lt
        have hk : k0 ≤ G.nS + i := by omega
        have hpre : G.to <+: w.arg.mem := by
          have := (hmax hk).upTo hlt (hdata hk)
          rw [List.take_of_length_le (by rw [Nat.add_mul, Nat.one_mul]; omega)] at this
          exact Holds.zero_iff.1 this
        obtain ⟨w', hw'⟩ := live_all hS.live hk hn hpre hG.toPos
        rw [if_pos (by omega)]
        rcases hw' with ⟨e1, hF⟩ | ⟨e1, hd⟩
        · simp only [e1]
          refine ⟨_, rfl, .ok (.done r' rfl rfl ?_ ?_ g2 hF) (mu_lt hr rfl g5)⟩
          · simpa [encodeSegments] using g6
          · exact hS.k.toSz
        · simp only [e1]
          exact ⟨_, rfl, .dead (by decide) (by decide) hd⟩
      · rw [if_neg (by omega), if_pos (by omega)]
        have hfs : t = G.S := by omega
        have hin : i + 1 < G.nT := by
          by_cases hh : i + 1 < G.nT
          · exact hh
          · exfalso
            have : G.nT * G.S ≤ (i + 1) * G.S := Nat.mul_le_mul_right _ (by omega)
            rw [Nat.add_mul, Nat.one_mul] at this
            omega
        have hn : G.nS + i + 1 < G.n := by unfold Geo.n; omega
        obtain ⟨ops', opss', rfl⟩ : ∃ o os, opss = o :: os := by
          cases opss with
          | nil => simp only [List.length_nil] at hcnt; omega
          | cons o os => exact ⟨o, os, rfl⟩
        rw [encodeSegments_cons] at g6
        obtain ⟨a2, ha2⟩ := sizeRun_pack (v := 0) (by decide) (encodeOps ops' ++ encodeSegments opss') a' g4
        obtain ⟨w', hw'⟩ := live_next (s := { s with reader := some r', chunk := c', readerSize := a' }) hS.live hS.step hn
          (fun h => (hmax h).segNext hlt (hdata h))
        rcases hw' with ⟨e1, hL1, _⟩ | ⟨e1, hd⟩
        · simp only [e1]
          refine ⟨_, rfl, .ok (.top r' _ a2 (i + 1) ops' opss' rfl rfl g1 g6 ⟨hS.k.seg, hS.k.shift, hS.k.toSz, g2, g3⟩ ha2 hT ?_ ?_ rfl hL1) (mu_lt hr rfl g5)⟩
          · simp only [hseg]
          · simp only [hS.tpos]
            rw [Nat.add_mul, Nat.one_mul]; omega
        · simp only [e1]
          exact ⟨_, rfl, .dead (by decide) (by decide) hd⟩
    · rw [if_neg (by omega), if_neg (by omega)]
      have hfb := geo_frd hG i
      have hbb := geo_base hG hlt
      rw [if_neg (by omega)]
      obtain ⟨op, ops', rfl⟩ : ∃ op ops', ops = op :: ops' := by
        cases ops with
        | nil =>
          have := congrArg List.length (show (G.segData i).drop t = [] from h3)
          rw [List.length_drop] at this
          simp only [List.length_nil] at this
          omega
        | cons op ops' => exact ⟨op, ops', rfl⟩
      rw [encodeOps_cons] at g6
      have hdl : op.diff.length < 2 ^ 27 := by
        have := h3.2.2.1
        omega
      obtain ⟨a2, ha2⟩ := run_nat hdl (op.diff ++ (packSize op.extra.length ++ (op.extra ++ (packSize op.adjustment ++ (encodeOps ops' ++ encodeSegments opss))))) a' g4
      refine ⟨_, rfl, .ok (.seg r' _ i t (pos + adj) opss rfl g1 g6 ?_ hT ?_) (mu_lt hr rfl g5)⟩
      · refine ⟨⟨hS.k.seg, hS.k.shift, hS.k.toSz, g2, g3⟩, hlt, hS.step, ?_, hS.tpos, hle, h1, h2, hS.live, hS.data⟩
        simp only [hseg, Int.add_assoc]
      · exact .diffSize h3 h4 ha2
  · simp only [e, Bind.bind, Except.bind]
    refine ⟨_, rfl, .more (.seg r' E' i t pos opss rfl g1 g7 ?_ hT ?_) g2 g4 g5⟩
    · exact ⟨⟨hS.k.seg, hS.k.shift, hS.k.toSz, g2, g3⟩, hS.lt, hS.step, hS.seg, hS.tpos, hS.le, hS.p0, hS.p1, hS.live, hS.data⟩
    · simp only
      rw [hst]
      exact .adjustment h1 h2 h3 h4 g6

/-- One step after the header. -/
theorem body_step (hG : G.Ok) {s : InPlace} {w : MWorld Flash} {x : Bytes} (hB : Bd G P steps k0 s w (s.chunk.rest ++ x))
    (hnd : s.state ≠ .done) : ∃ out, ipOnce (flashEnv P steps) s w = .ok out ∧ IPOut G P steps k0 s x out := by
  have key : ∃ out, ipSwitch (flashEnv P steps) s w = .ok out ∧ IPOut G P steps k0 s x out := by
    cases hB with
    | done r h => exact absurd h hnd
    | top r E a i ops opss h1 h2 h3 h4 h5 h6 h7 h8 h9 h10 h11 =>
      unfold ipSwitch
      rw [h1]
      exact top_step hG h2 h3 h4 h5 h6 h7 h8 h9 h10 h11 h1
    | seg r E i t pos opss h1 h2 h3 h4 h5 h6 =>
      unfold ipSwitch
      generalize hst : s.state = st at *
      cases h6 with
      | diffSize a1 a2 a3 => exact diffSize_step hG h1 h2 h3 h4 h5 hst (.diffSize a1 a2 a3)
      | diffData a1 a2 a3 a4 a5 a6 a7 a8 a9 a10 => exact diffData_step hG h1 h2 h3 h4 h5 hst (.diffData a1 a2 a3 a4 a5 a6 a7 a8 a9 a10)
      | extraSize a1 a2 a3 a4 a5 a6 a7 => exact extraSize_step hG h1 h2 h3 h4 h5 hst (.extraSize a1 a2 a3 a4 a5 a6 a7)
      | extraData a1 a2 a3 a4 a5 a6 a7 a8 a9 => exact extraData_step hG h1 h2 h3 h4 h5 hst (.extraData a1 a2 a3 a4 a5 a6 a7 a8 a9)
      | adjustment a1 a2 a3 a4 a5 => exact adjustment_step hG h1 h2 h3 h4 h5 hst (.adjustment a1 a2 a3 a4 a5)
  obtain ⟨⟨e, s', w'⟩, e1, e2⟩ := key
  unfold ipOnce
  rw [if_neg hnd, e1]
  simp only [Bind.bind, Except.bind]
  cases e2 with
  | ok a1 a2 => exact ⟨_, rfl, .ok a1 a2⟩
  | more a1 a2 a3 a4 => exact ⟨_, rfl, .more a1 a2 a3 a4⟩
  | dead a1 a2 a3 =>
    rw [if_pos a1]
    exact ⟨_, rfl, .dead a1 a2 a3⟩

end Detools
