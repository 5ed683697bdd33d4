import Verif.Proofs.CInPlaceRun
import Verif.Proofs.CSeqPieces
import Verif.Spec.CFormat
/-
The sequential C API on a patch whose body a reader decodes, for every reader that
does not depend on the announced patch size.
-/
namespace Detools

variable [Build]

/-- The rest of the plain patch `E` in each state; `todo` is the rest of the new
image. -/
inductive SPhase (fr : Bytes) (pos : Int) (todo : Bytes) (acc : SizeAcc) (cs : Nat) : SeqPhase → Bytes → Prop
  | dfpatch {ops : List Op} {E a} : Rebuilds fr pos ops todo → todo ≠ [] → OpsSmall ops →
      sizeRun sizeByte acc E = .value 0 a (encodeOps ops) → SPhase fr pos todo acc cs .dfpatchSize E
  | diffSize {op : Op} {ops E a} : Rebuilds fr pos (op :: ops) todo → OpsSmall (op :: ops) →
      sizeRun sizeByte acc E = .value op.diff.length a
        (op.diff ++ (packSize op.extra.length ++ (op.extra ++ (packSize op.adjustment ++ encodeOps ops)))) →
      SPhase fr pos todo acc cs .diffSize E
  | diffData {d ex rest : Bytes} {adj : Int} {ops E} :
      todo = List.zipWith (· + ·) d (fr.drop pos.toNat) ++ (ex ++ rest) → pos + d.length ≤ fr.length →
      0 ≤ pos + d.length + adj → pos + d.length + adj ≤ fr.length → Rebuilds fr (pos + d.length + adj) ops rest →
      OpsSmall ops → adj.natAbs < 2 ^ 27 → cs = d.length → acc.state = .first →
      E = d ++ (packSize ex.length ++ (ex ++ (packSize adj ++ encodeOps ops))) →
      SPhase fr pos todo acc cs .diffData E
  | extraSize {ex rest : Bytes} {adj : Int} {ops E a} :
      todo = ex ++ rest → 0 ≤ pos + adj → pos + adj ≤ fr.length → Rebuilds fr (pos + adj) ops rest →
      OpsSmall ops → adj.natAbs < 2 ^ 27 →
      sizeRun sizeByte acc E = .value ex.length a (ex ++ (packSize adj ++ encodeOps ops)) →
      SPhase fr pos todo acc cs .extraSize E
  | extraData {ex rest : Bytes} {adj : Int} {ops E} :
      todo = ex ++ rest → 0 ≤ pos + adj → pos + adj ≤ fr.length → Rebuilds fr (pos + adj) ops rest →
      OpsSmall ops → adj.natAbs < 2 ^ 27 → cs = ex.length → acc.state = .first →
      E = ex ++ (packSize adj ++ encodeOps ops) →
      SPhase fr pos todo acc cs .extraData E
  | adjustment {adj : Int} {ops E a} :
      0 ≤ pos + adj → pos + adj ≤ fr.length → Rebuilds fr (pos + adj) ops todo → OpsSmall ops →
      sizeRun sizeByte acc E = .value adj a (encodeOps ops) →
      SPhase fr pos todo acc cs .adjustment E
  | done : todo = [] → SPhase fr pos todo acc cs .done []

/-- The update after the header; `x` is the rest of the patch. -/
structure SBd (fr to : Bytes) (s : ApplyPatch) (w : World Files) (x : Bytes) (r : CReader) (E todo : Bytes) : Prop where
  reader : s.reader = some r
  good : r.Good
  dec : Decodes r x E
  chunk : s.chunk.Inv
  acc : s.readerSize.Inv
  toSz : s.toSize = to.length
  out : w.arg.out ++ todo = to
  off : s.toOffset = w.arg.out.length
  frm : s.fromOffset = w.arg.pos
  p0 : 0 ≤ w.arg.pos
  p1 : w.arg.pos ≤ fr.length
  phase : SPhase fr w.arg.pos todo s.readerSize s.chunkSize s.state E

/-- What one step achieves. -/
inductive SOut (fr to : Bytes) (s : ApplyPatch) (x : Bytes) : SeqRes Files → Prop
  | ok {s' w' r E todo} : SBd fr to s' w' (s'.chunk.rest ++ x) r E todo → s'.mu < s.mu → SOut fr to s x (0, s', w')
  | more {s' w' r E todo} : SBd fr to s' w' x r E todo → s'.chunk.rest = [] → x ≠ [] → SOut fr to s x (1, s', w')

variable {fr to : Bytes}

theorem unpack_seq {s : ApplyPatch} {r : CReader} {x E D : Bytes} {v : Int} {a : SizeAcc} (hr : s.reader = some r) (hi : r.Good)
    (hc : s.chunk.Inv) (ha : s.readerSize.Inv) (hE : sizeRun sizeByte s.readerSize E = .value v a D)
    (hD : Decodes r (s.chunk.rest ++ x) E) :
    (∃ r' c' a', s.unpackSize = .ok (.value v, { s with reader := some r', chunk := c', readerSize := a' }) ∧ r'.Good ∧ c'.Inv ∧
      a'.Inv ∧ a'.state = .first ∧ 2 ^ 32 * c'.rest.length + r'.backlog < 2 ^ 32 * s.chunk.rest.length + r.backlog ∧
      Decodes r' (c'.rest ++ x) D) ∨
    (∃ r' c' a' E' a'', s.unpackSize = .ok (.more, { s with reader := some r', chunk := c', readerSize := a' }) ∧ r'.Good ∧ c'.Inv ∧
      a'.Inv ∧ c'.rest = [] ∧ x ≠ [] ∧ sizeRun sizeByte a' E' = .value v a'' D ∧ Decodes r' x E') := by
  obtain ⟨⟨d, r', c', a'⟩, e1, e2⟩ := decodes_size hi hc ha ⟨a, hE⟩ hD
  unfold ApplyPatch.unpackSize
  simp only [hr, e1, Bind.bind, Except.bind, pure, Except.pure]
  match d, e2 with
  | .value v', ⟨g1, g2, g3, g4, g5, g6, g7⟩ =>
    subst g1
    exact .inl ⟨r', c', a', rfl, g2, g3, g4, g5, g6, g7⟩
  | .more, ⟨g1, g2, g3, g4, g5, g6, E', ⟨a'', g7⟩, g8⟩ =>
    refine .inr ⟨r', c', a', E', a'', rfl, g1, g2, g3, g4, g5, g7, g8⟩

theorem smu_lt {s s' : ApplyPatch} {r r' : CReader} (hr : s.reader = some r) (hr' : s'.reader = some r')
    (h : 2 ^ 32 * s'.chunk.rest.length + r'.backlog < 2 ^ 32 * s.chunk.rest.length + r.backlog) : s'.mu < s.mu := by
  unfold ApplyPatch.mu ApplyPatch.wk SeqPhase.weight
  simp only [hr, hr']
  split <;> split <;> omega

omit [Build] in
theorem encodeOps_cons' (op : Op) (ops : List Op) : encodeOps (op :: ops) =
    packSize op.diff.length ++ (op.diff ++ (packSize op.extra.length ++ (op.extra ++ (packSize op.adjustment ++ encodeOps ops)))) := by
  simp [encodeOps, Op.chunks]

omit [Build] in
/-- After the size of the data format patch, and between triples. -/
theorem SPhase.nextOp {fr todo : Bytes} {pos : Int} {ops : List Op} {acc : SizeAcc} {cs : Nat} (hfr : fr.length < 2 ^ 27)
    (h1 : Rebuilds fr pos ops todo) (h2 : todo ≠ []) (h3 : OpsSmall ops) (h4 : acc.state = .first) :
    SPhase fr pos todo acc cs .diffSize (encodeOps ops) := by
  cases ops with
  | nil => exact absurd h1 h2
  | cons op ops =>
    have := h1.2.1
    have := h1.2.2.1
    rw [encodeOps_cons']
    obtain ⟨a, ha⟩ := run_nat (n := op.diff.length) (by omega) (op.diff ++ (packSize op.extra.length ++ (op.extra ++ (packSize op.adjustment ++ encodeOps ops)))) acc h4
    exact .diffSize h1 h3 ha

theorem sdfpatch_step (hfr : fr.length < 2 ^ 27) {s : ApplyPatch} {w : World Files} {x : Bytes} {r : CReader} {E todo : Bytes}
    (h : SBd fr to s w (s.chunk.rest ++ x) r E todo) (hst : s.state = .dfpatchSize) :
    ∃ out, processDfpatchSize s w = .ok out ∧ SOut fr to s x out := by
  have hP := h.phase
  rw [hst] at hP
  cases hP with
  | @dfpatch ops _ a h1 h2 h3 h4 =>
  unfold processDfpatchSize
  rcases unpack_seq h.reader h.good h.chunk h.acc h4 h.dec with ⟨r', c', a', e, g1, g2, g3, g4, g5, g6⟩ | ⟨r', c', a', E', a'', e, g1, g2, g3, g4, g5, g6, g7⟩
  · simp only [e, Bind.bind, Except.bind, gt_iff_lt, Int.lt_irrefl, if_false]
    refine ⟨_, rfl, .ok ⟨rfl, g1, g6, g2, g3, h.toSz, h.out, h.off, h.frm, h.p0, h.p1, ?_⟩ (smu_lt h.reader rfl g5)⟩
    exact SPhase.nextOp hfr h1 h2 h3 g4
  · simp only [e, Bind.bind, Except.bind]
    refine ⟨_, rfl, .more ⟨rfl, g1, g7, g2, g3, h.toSz, h.out, h.off, h.frm, h.p0, h.p1, ?_⟩ g4 g5⟩
    simp only
    rw [hst]
    exact .dfpatch h1 h2 h3 g6

omit [Build] in
theorem ssize_fits {s : ApplyPatch} {todo o : Bytes} (hto : to.length < 2 ^ 27) (h1 : s.toSize = to.length) (h2 : o ++ todo = to)
    (h3 : s.toOffset = o.length) {n : Nat} (hn : n ≤ todo.length) :
    sizeTooBig s.toOffset s.toSize (n : Int) = false ∧ szOfInt (n : Int) = n := by
  have hl := congrArg List.length h2
  rw [List.length_append] at hl
  have hz : szOfInt (n : Int) = n := by rw [szOfInt_nat (by omega) (by omega)]; omega
  refine ⟨?_, hz⟩
  unfold sizeTooBig
  rw [hz, h1, h3, sz_small (by omega)]
  simp only [decide_eq_false_iff_not]
  omega

theorem ssize_step (hto : to.length < 2 ^ 27) {s : ApplyPatch} {w : World Files} {x : Bytes} {r : CReader} {E D todo : Bytes} {n : Nat}
    {a : SizeAcc} {st next : SeqPhase} (h : SBd fr to s w (s.chunk.rest ++ x) r E todo) (hst : s.state = st)
    (hE : sizeRun sizeByte s.readerSize E = .value n a D) (hn : n ≤ todo.length)
    (hmore : ∀ acc E' a', sizeRun sizeByte acc E' = .value n a' D → SPhase fr w.arg.pos todo acc s.chunkSize st E')
    (hval : ∀ acc : SizeAcc, acc.state = .first → SPhase fr w.arg.pos todo acc n next D) :
    ∃ out, processSize s w next = .ok out ∧ SOut fr to s x out := by
  obtain ⟨f1, f2⟩ := ssize_fits hto h.toSz h.out h.off hn
  unfold processSize
  rcases unpack_seq h.reader h.good h.chunk h.acc hE h.dec with ⟨r', c', a', e, g1, g2, g3, g4, g5, g6⟩ | ⟨r', c', a', E', a'', e, g1, g2, g3, g4, g5, g6, g7⟩
  · simp only [e, Bind.bind, Except.bind, f1, f2, Bool.false_eq_true, if_false]
    exact ⟨_, rfl, .ok ⟨rfl, g1, g6, g2, g3, h.toSz, h.out, h.off, h.frm, h.p0, h.p1, hval a' g4⟩ (smu_lt h.reader rfl g5)⟩
  · simp only [e, Bind.bind, Except.bind]
    refine ⟨_, rfl, .more ⟨rfl, g1, g7, g2, g3, h.toSz, h.out, h.off, h.frm, h.p0, h.p1, ?_⟩ g4 g5⟩
    simp only
    rw [hst]
    exact hmore _ _ _ g6

theorem sdiffSize_step (hto : to.length < 2 ^ 27) {s : ApplyPatch} {w : World Files} {x : Bytes} {r : CReader} {E todo : Bytes}
    (h : SBd fr to s w (s.chunk.rest ++ x) r E todo) (hst : s.state = .diffSize) :
    ∃ out, processSize s w .diffData = .ok out ∧ SOut fr to s x out := by
  have hP := h.phase
  rw [hst] at hP
  cases hP with
  | @diffSize op ops _ a h1 h2 h3 =>
  obtain ⟨q1, q2, q3, q4, q5, rest, q6, q7⟩ := h1
  have hz : (List.zipWith (· + ·) op.diff (fr.drop w.arg.pos.toNat) : Bytes).length = op.diff.length :=
    zip_length (by rw [List.length_drop]; omega)
  have hlen := congrArg List.length q6
  simp only [List.length_append, hz] at hlen
  refine ssize_step hto h hst h3 (by omega) ?_ ?_
  · intro acc E' a' h
    exact .diffSize ⟨q1, q2, q3, q4, q5, rest, q6, q7⟩ h2 h
  · intro acc hacc
    rw [List.append_assoc] at q6
    exact .diffData q6 q3 q4 q5 q7 h2.cons.2 h2.cons.1 rfl hacc rfl

theorem sextraSize_step (hto : to.length < 2 ^ 27) {s : ApplyPatch} {w : World Files} {x : Bytes} {r : CReader} {E todo : Bytes}
    (h : SBd fr to s w (s.chunk.rest ++ x) r E todo) (hst : s.state = .extraSize) :
    ∃ out, processSize s w .extraData = .ok out ∧ SOut fr to s x out := by
  have hP := h.phase
  rw [hst] at hP
  cases hP with
  | @extraSize ex rest adj ops _ a h1 h2 h3 h4 h5 h6 h7 =>
  have hlen := congrArg List.length h1
  simp only [List.length_append] at hlen
  refine ssize_step hto h hst h7 (by omega) ?_ ?_
  · intro acc E' a' h
    exact .extraSize h1 h2 h3 h4 h5 h6 h
  · intro acc hacc
    exact .extraData h1 h2 h3 h4 h5 h6 rfl hacc rfl

/-- The write at the end of a data step. -/
theorem swrite_step (hto : to.length < 2 ^ 27) {s s0 : ApplyPatch} {w : World Files} {x : Bytes} {r : CReader} {E data todo : Bytes}
    (hr : s.reader = some r) (hg : r.Good) (hD : Decodes r (s.chunk.rest ++ x) E) (hc : s.chunk.Inv) (ha : s.readerSize.Inv)
    (h1 : s.toSize = to.length) (h2 : w.arg.out ++ (data ++ todo) = to) (h3 : s.toOffset = w.arg.out.length)
    (h4 : s.fromOffset = w.arg.pos) (h5 : 0 ≤ w.arg.pos) (h6 : w.arg.pos ≤ fr.length) (hcs : data.length ≤ s.chunkSize)
    (hcs2 : s.chunkSize < 2 ^ 63)
    (hmu : ∀ s' : ApplyPatch, s'.chunk = s.chunk → s'.reader = s.reader → s'.mu < s0.mu)
    (hP : SPhase fr w.arg.pos todo s.readerSize (s.chunkSize - data.length) s.state E) :
    ∃ out, processWrite (fileEnv fr) s w data = .ok out ∧ SOut fr to s0 x out := by
  have hl := congrArg List.length h2
  simp only [List.length_append] at hl
  unfold processWrite
  have n2 : sz (s.toOffset + data.length) = w.arg.out.length + data.length := by rw [h3, sz_small (by omega)]
  have n4 : szOfInt ((s.chunkSize : Int) - data.length) = s.chunkSize - data.length := by
    rw [szOfInt_nat (by omega) (by omega)]; omega
  simp only [n2, n4, fileEnv, ne_eq, not_true, if_false]
  refine ⟨_, rfl, .ok (r := r) (E := E) (todo := todo) ⟨hr, hg, hD, hc, ha, h1, ?_, ?_, h4, h5, h6, hP⟩ (hmu _ rfl rfl)⟩
  · simpa using h2
  · simp

theorem smu_zero {s : ApplyPatch} {st next : SeqPhase} (hst : s.state = st) (h1 : st.weight = 1) (h2 : next.weight = 0) :
    ({ s with state := next } : ApplyPatch).mu < s.mu := by
  unfold ApplyPatch.mu ApplyPatch.wk
  simp only [hst, h1, h2]
  omega

theorem sdiffData_step (hto : to.length < 2 ^ 27) (hfr : fr.length < 2 ^ 27) {s : ApplyPatch} {w : World Files} {x : Bytes} {r : CReader}
    {E todo : Bytes} (h : SBd fr to s w (s.chunk.rest ++ x) r E todo) (hst : s.state = .diffData) :
    ∃ out, processData (fileEnv fr) s w .extraSize true = .ok out ∧ SOut fr to s x out := by
  have hP := h.phase
  rw [hst] at hP
  cases hP with
  | @diffData d ex rest adj ops _ h1 h2 h3 h4 h5 h6 h7 h8 h9 h10 =>
  have hp0 := h.p0
  have hp1 := h.p1
  have hz : (List.zipWith (· + ·) d (fr.drop w.arg.pos.toNat) : Bytes).length = d.length :=
    zip_length (by rw [List.length_drop]; omega)
  have hol := congrArg List.length h.out
  have hlen := congrArg List.length h1
  simp only [List.length_append, hz] at hlen hol
  unfold processData
  by_cases h0 : d.length = 0
  · have hd : d = [] := List.eq_nil_of_length_eq_zero h0
    subst hd
    have hc0 : min dataCap s.chunkSize = 0 := by rw [h8]; simp
    simp only [hc0, if_true]
    obtain ⟨a, ha⟩ := run_nat (n := ex.length) (by omega) (ex ++ (packSize adj ++ encodeOps ops)) s.readerSize h9
    refine ⟨_, rfl, .ok ⟨h.reader, h.good, h.dec, h.chunk, h.acc, h.toSz, h.out, h.off, h.frm, h.p0, h.p1, ?_⟩ (smu_zero hst rfl rfl)⟩
    simp only [List.length_nil, Int.natCast_zero, Int.add_zero, List.zipWith_nil_left, List.nil_append] at h1 h3 h4 h5 h10
    subst h10
    exact .extraSize h1 h3 h4 h5 h6 h7 ha
  · have hsz : min dataCap s.chunkSize = min 128 d.length := by rw [h8]; rfl
    simp only [hsz]
    rw [if_neg (by omega)]
    simp only [h.reader]
    obtain ⟨⟨o, r', c'⟩, e1, e2⟩ := decodes_dec (cap := dataCap) (size := min 128 d.length) h.good h.chunk (by omega)
      (by rw [dataCap_eq]; omega) (by rw [dataCap_eq]; omega) (by rw [h10, List.length_append]; omega) h.dec
    simp only [e1, Bind.bind, Except.bind]
    match o, e2 with
    | .more, ⟨g1, g2, g3, g4, g5, g6⟩ =>
      refine ⟨_, rfl, .more ⟨rfl, g1, g6, g2, h.acc, h.toSz, h.out, h.off, h.frm, h.p0, h.p1, ?_⟩ g3 g4⟩
      simp only
      rw [hst]
      exact .diffData h1 h2 h3 h4 h5 h6 h7 h8 h9 h10
    | .ok dat, ⟨g1, g2, g3, g4, g5, E', g6, g7⟩ =>
      simp only [if_true]
      obtain ⟨d', hd'⟩ : ∃ d', d = dat ++ d' := by
        have h := g6
        rw [h10] at h
        have hpre : dat <+: d := by
          have h1 : dat <+: d ++ (packSize ex.length ++ (ex ++ (packSize adj ++ encodeOps ops))) := ⟨E', h.symm⟩
          exact List.prefix_of_prefix_length_le h1 (List.prefix_append _ _) (by omega)
        exact ⟨_, hpre.choose_spec.symm⟩
      subst hd'
      have hdl : (dat ++ d').length = dat.length + d'.length := List.length_append
      have hE' : E' = d' ++ (packSize ex.length ++ (ex ++ (packSize adj ++ encodeOps ops))) := by
        rw [h10, List.append_assoc] at g6
        exact (List.append_cancel_left g6).symm
      have hzip : List.zipWith (· + ·) (dat ++ d') (fr.drop w.arg.pos.toNat) =
          List.zipWith (· + ·) dat ((fr.drop w.arg.pos.toNat).take dat.length) ++ List.zipWith (· + ·) d' (fr.drop (w.arg.pos + dat.length).toNat) := by
        conv => lhs; rw [← List.take_append_drop dat.length (fr.drop w.arg.pos.toNat)]
        rw [List.zipWith_append (by rw [List.length_take, List.length_drop]; omega), List.drop_drop,
          show w.arg.pos.toNat + dat.length = (w.arg.pos + dat.length).toNat by omega]
      have hzl : (List.zipWith (· + ·) dat ((fr.drop w.arg.pos.toNat).take dat.length) : Bytes).length = dat.length :=
        zip_length (by rw [List.length_take, List.length_drop]; omega)
      rw [hzip, List.append_assoc] at h1
      have hrd : (fileEnv fr).fromRead w.arg dat.length = (0, (fr.drop w.arg.pos.toNat).take dat.length, { w.arg with pos := w.arg.pos + dat.length }) := by
        simp only [fileEnv]
        rw [if_pos (.inr (by omega))]
      have hfl : ((fr.drop w.arg.pos.toNat).take dat.length).length = dat.length := by
        rw [List.length_take, List.length_drop]; omega
      simp only [hrd, ne_eq, not_true, if_false, hfl]
      have hwr : wrapInt (s.fromOffset + dat.length) = w.arg.pos + dat.length := by
        rw [h.frm]; unfold wrapInt; omega
      simp only [hwr]
      refine swrite_step hto (s := { s with reader := some r', chunk := c', fromOffset := w.arg.pos + dat.length })
        (w := { arg := { w.arg with pos := w.arg.pos + dat.length }, trace := .read dat.length 0 :: w.trace })
        (data := sumBytes dat ((fr.drop w.arg.pos.toNat).take dat.length)) (todo := List.zipWith (· + ·) d' (fr.drop (w.arg.pos + dat.length).toNat) ++ (ex ++ rest))
        rfl g1 g7 g2 h.acc h.toSz ?_ h.off rfl ?_ ?_ ?_ ?_ ?_ ?_
      · simp only [sumBytes]
        rw [← h1]
        exact h.out
      · simp only; omega
      · simp only; omega
      · simp only [sumBytes]; omega
      · simp only; omega
      · intro s' q1 q2
        refine smu_lt h.reader q2 ?_
        rw [q1]; exact g3
      · simp only [sumBytes, hzl]
        rw [hst]
        refine .diffData (d := d') rfl ?_ ?_ ?_ ?_ h6 h7 ?_ h9 hE'
        · omega
        · omega
        · omega
        · rw [show w.arg.pos + dat.length + d'.length + adj = w.arg.pos + ((dat ++ d').length : Nat) + adj by omega]; exact h5
        · omega

theorem sextraData_step (hto : to.length < 2 ^ 27) {s : ApplyPatch} {w : World Files} {x : Bytes} {r : CReader}
    {E todo : Bytes} (h : SBd fr to s w (s.chunk.rest ++ x) r E todo) (hst : s.state = .extraData) :
    ∃ out, processData (fileEnv fr) s w .adjustment false = .ok out ∧ SOut fr to s x out := by
  have hP := h.phase
  rw [hst] at hP
  cases hP with
  | @extraData ex rest adj ops _ h1 h3 h4 h5 h6 h7 h8 h9 h10 =>
  have hol := congrArg List.length h.out
  have hlen := congrArg List.length h1
  simp only [List.length_append] at hlen hol
  unfold processData
  by_cases h0 : ex.length = 0
  · have hd : ex = [] := List.eq_nil_of_length_eq_zero h0
    subst hd
    have hc0 : min dataCap s.chunkSize = 0 := by rw [h8]; simp
    simp only [hc0, if_true]
    obtain ⟨a, ha⟩ := sizeRun_pack h7 (encodeOps ops) s.readerSize h9
    refine ⟨_, rfl, .ok ⟨h.reader, h.good, h.dec, h.chunk, h.acc, h.toSz, h.out, h.off, h.frm, h.p0, h.p1, ?_⟩ (smu_zero hst rfl rfl)⟩
    simp only [List.nil_append] at h1 h10
    subst h10
    exact .adjustment h3 h4 (by rw [h1]; exact h5) h6 ha
  · have hsz : min dataCap s.chunkSize = min 128 ex.length := by rw [h8]; rfl
    simp only [hsz]
    rw [if_neg (by omega)]
    simp only [h.reader]
    obtain ⟨⟨o, r', c'⟩, e1, e2⟩ := decodes_dec (cap := dataCap) (size := min 128 ex.length) h.good h.chunk (by omega)
      (by rw [dataCap_eq]; omega) (by rw [dataCap_eq]; omega) (by rw [h10, List.length_append]; omega) h.dec
    simp only [e1, Bind.bind, Except.bind]
    match o, e2 with
    | .more, ⟨g1, g2, g3, g4, g5, g6⟩ =>
      refine ⟨_, rfl, .more ⟨rfl, g1, g6, g2, h.acc, h.toSz, h.out, h.off, h.frm, h.p0, h.p1, ?_⟩ g3 g4⟩
      simp only
      rw [hst]
      exact .extraData h1 h3 h4 h5 h6 h7 h8 h9 h10
    | .ok dat, ⟨g1, g2, g3, g4, g5, E', g6, g7⟩ =>
      simp only [Bool.false_eq_true, if_false]
      obtain ⟨d', hd'⟩ : ∃ d', ex = dat ++ d' := by
        have h := g6
        rw [h10] at h
        have hpre : dat <+: ex := by
          have h1 : dat <+: ex ++ (packSize adj ++ encodeOps ops) := ⟨E', h.symm⟩
          exact List.prefix_of_prefix_length_le h1 (List.prefix_append _ _) (by omega)
        exact ⟨_, hpre.choose_spec.symm⟩
      subst hd'
      have hdl : (dat ++ d').length = dat.length + d'.length := List.length_append
      have hE' : E' = d' ++ (packSize adj ++ encodeOps ops) := by
        rw [h10, List.append_assoc] at g6
        exact (List.append_cancel_left g6).symm
      rw [List.append_assoc] at h1
      refine swrite_step hto (s := { s with reader := some r', chunk := c' }) (data := dat) (todo := d' ++ rest)
        rfl g1 g7 g2 h.acc h.toSz ?_ h.off h.frm h.p0 h.p1 ?_ ?_ ?_ ?_
      · rw [← h1]
        exact h.out
      · simp only; omega
      · simp only; omega
      · intro s' q1 q2
        refine smu_lt h.reader q2 ?_
        rw [q1]; exact g3
      · simp only
        rw [hst]
        exact .extraData rfl h3 h4 h5 h6 h7 (by omega) h9 hE'

theorem sadjustment_step (hto : to.length < 2 ^ 27) (hfr : fr.length < 2 ^ 27) {s : ApplyPatch} {w : World Files} {x : Bytes} {r : CReader}
    {E todo : Bytes} (h : SBd fr to s w (s.chunk.rest ++ x) r E todo) (hst : s.state = .adjustment) :
    ∃ out, processAdjustment (fileEnv fr) s w = .ok out ∧ SOut fr to s x out := by
  have hP := h.phase
  rw [hst] at hP
  cases hP with
  | @adjustment adj ops _ a h1 h2 h3 h4 h5 =>
  have hol := congrArg List.length h.out
  simp only [List.length_append] at hol
  unfold processAdjustment
  rcases unpack_seq h.reader h.good h.chunk h.acc h5 h.dec with ⟨r', c', a', e, g1, g2, g3, g4, g5, g6⟩ | ⟨r', c', a', E', a'', e, g1, g2, g3, g4, g5, g6, g7⟩
  · have hsk : (fileEnv fr).fromSeek w.arg adj = (0, { w.arg with pos := w.arg.pos + adj }) := by
      simp only [fileEnv]
      rw [if_neg (by omega)]
    simp only [e, Bind.bind, Except.bind, hsk, ne_eq, not_true, if_false]
    rw [if_neg (by rw [h.frm]; omega)]
    have hmk : ∀ st E2, E2 = encodeOps ops → SPhase fr (w.arg.pos + adj) todo a' s.chunkSize st E2 →
        SOut fr to s x (0, { s with reader := some r', chunk := c', readerSize := a', fromOffset := s.fromOffset + adj, state := st },
          { arg := { w.arg with pos := w.arg.pos + adj }, trace := .seek adj 0 :: w.trace }) := by
      intro st E2 e2 hp
      subst e2
      exact .ok (r := r') (E := encodeOps ops) (todo := todo) ⟨rfl, g1, g6, g2, g3, h.toSz, h.out, h.off, by simp only [h.frm], h1, h2, hp⟩ (smu_lt h.reader rfl g5)
    by_cases hd : s.toOffset = s.toSize
    · rw [if_pos hd]
      have htodo : todo = [] := by
        refine List.eq_nil_of_length_eq_zero ?_
        rw [h.off, h.toSz] at hd
        omega
      have hops : ops = [] := by
        cases ops with
        | nil => rfl
        | cons op ops => exact absurd htodo h3.1
      exact ⟨_, rfl, hmk .done [] (by rw [hops]; rfl) (.done htodo)⟩
    · rw [if_neg hd]
      have htodo : todo ≠ [] := by
        rintro rfl
        rw [h.off, h.toSz] at hd
        simp only [List.length_nil] at hol
        omega
      exact ⟨_, rfl, hmk .diffSize _ rfl (SPhase.nextOp hfr h3 htodo h4 g4)⟩
  · simp only [e, Bind.bind, Except.bind]
    refine ⟨_, rfl, .more ⟨rfl, g1, g7, g2, g3, h.toSz, h.out, h.off, h.frm, h.p0, h.p1, ?_⟩ g4 g5⟩
    simp only
    rw [hst]
    exact .adjustment h1 h2 h3 h4 g6

theorem SOut.once {s : ApplyPatch} {w : World Files} {x : Bytes} (hnd : s.state ≠ .done) {out} (h1 : processSwitch (fileEnv fr) s w = .ok out)
    (h2 : SOut fr to s x out) : processOnce (fileEnv fr) s w = .ok out := by
  unfold processOnce
  rw [if_neg hnd, h1]
  simp only [Bind.bind, Except.bind]
  cases h2 <;> rfl

theorem sbody_step (hto : to.length < 2 ^ 27) (hfr : fr.length < 2 ^ 27) {s : ApplyPatch} {w : World Files} {x : Bytes} {r : CReader}
    {E todo : Bytes} (h : SBd fr to s w (s.chunk.rest ++ x) r E todo) (hnd : s.state ≠ .done) :
    ∃ out, processOnce (fileEnv fr) s w = .ok out ∧ SOut fr to s x out := by
  have key : ∃ out, processSwitch (fileEnv fr) s w = .ok out ∧ SOut fr to s x out := by
    have hp := h.phase
    unfold processSwitch
    cases hs : s.state with
    | init => rw [hs] at hp; cases hp
    | failed => rw [hs] at hp; cases hp
    | done => exact absurd hs hnd
    | dfpatchSize => exact sdfpatch_step hfr h hs
    | diffSize => exact sdiffSize_step hto h hs
    | extraSize => exact sextraSize_step hto h hs
    | diffData => exact sdiffData_step hto hfr h hs
    | extraData => exact sextraData_step hto h hs
    | adjustment => exact sadjustment_step hto hfr h hs
  obtain ⟨out, e1, e2⟩ := key
  exact ⟨out, e2.once hnd e1, e2⟩

/-! The header. -/

/-- What the patch is: `comp` and `body` after the header. -/
structure SPatch (fr to : Bytes) (comp : Nat) (body : Bytes) (ops : List Op) : Prop where
  frl : fr.length < 2 ^ 27
  tol : to.length < 2 ^ 27
  cne : comp ≠ 0
  reb : Rebuilds fr 0 ops to
  small : OpsSmall ops
  reads : ∃ r, CReader.init 0 comp = some r ∧ r.Good ∧ r.backlog = 0 ∧ Decodes r body (if to = [] then [] else packSize 0 ++ encodeOps ops)

/-- In the header; `x` is the rest of the patch. -/
structure SHd (to : Bytes) (comp : Nat) (body : Bytes) (s : ApplyPatch) (w : World Files) (x : Bytes) : Prop where
  state : s.state = .init
  reader : s.reader = none
  size : s.size.Inv
  chunk : s.chunk.Inv
  toff : s.toOffset = 0
  foff : s.fromOffset = 0
  arg : w.arg = {}
  first : s.initState = .fixedHeader → ∃ b : UInt8, x = b :: (packSize to.length ++ body) ∧ (b.toNat >>> 4) &&& 0x7 = 0 ∧ b.toNat &&& 0xf = comp
  next : s.initState = .toSize → s.compression = comp ∧ ∃ a, hdrRun s.size x = .value to.length a body

/-- In the loops; `later` follows the current piece. -/
inductive SLoop (fr to : Bytes) (comp : Nat) (body : Bytes) (s : ApplyPatch) (w : World Files) (later : Bytes) : Prop
  | hd : SHd to comp body s w (s.chunk.rest ++ later) → SLoop fr to comp body s w later
  | bd (r E todo) : SBd fr to s w (s.chunk.rest ++ later) r E todo → SLoop fr to comp body s w later

/-- Between pieces. -/
inductive SRest (fr to : Bytes) (comp : Nat) (body : Bytes) (s : ApplyPatch) (w : World Files) (later : Bytes) : Prop
  | hd : SHd to comp body s w later → SRest fr to comp body s w later
  | bd (r E todo) : SBd fr to s w later r E todo → SRest fr to comp body s w later

inductive SStep (fr to : Bytes) (comp : Nat) (body : Bytes) (s : ApplyPatch) (later : Bytes) : SeqRes Files → Prop
  | ok {s' w'} : SLoop fr to comp body s' w' later → s'.mu < s.mu → SStep fr to comp body s later (0, s', w')
  | more {s' w'} : SRest fr to comp body s' w' later → s'.chunk.Inv → s'.chunk.rest = [] → later ≠ [] → SStep fr to comp body s later (1, s', w')

variable {comp : Nat} {body : Bytes} {ops : List Op}

theorem SStep.nonneg {s : ApplyPatch} {x : Bytes} {out : SeqRes Files} (h : SStep fr to comp body s x out) : ¬ out.1 < 0 := by
  cases h <;> simp

theorem sloop_step (hP : SPatch fr to comp body ops) {s : ApplyPatch} {w : World Files} {x : Bytes} (h : SLoop fr to comp body s w x)
    (hnd : s.state ≠ .done) (hx : s.chunk.rest = [] → x = []) :
    ∃ out, processOnce (fileEnv fr) s w = .ok out ∧ SStep fr to comp body s x out := by
  cases h with
  | bd r E todo h =>
    obtain ⟨out, e1, e2⟩ := sbody_step hP.tol hP.frl h hnd
    refine ⟨out, e1, ?_⟩
    cases e2 with
    | ok a1 a2 => exact .ok (.bd _ _ _ a1) a2
    | more a1 a2 a3 => exact .more (.bd _ _ _ a1) a1.chunk a2 a3
  | hd h =>
    have key : ∃ out, processSwitch (fileEnv fr) s w = .ok out ∧ SStep fr to comp body s x out := by
      unfold processSwitch
      rw [h.state]
      simp only [processInit]
      cases hi : s.initState with
      | fixedHeader =>
        simp only
        obtain ⟨b, e1, e2, e3⟩ := h.first hi
        have hne : s.chunk.rest ≠ [] := by
          intro hr
          rw [hr, hx hr] at e1
          cases e1
        obtain ⟨b', t, hbt⟩ : ∃ b' t, s.chunk.rest = b' :: t := by
          cases hc : s.chunk.rest with
          | nil => exact absurd hc hne
          | cons b' t => exact ⟨b', t, rfl⟩
        rw [hbt] at e1
        simp only [List.cons_append, List.cons.injEq] at e1
        obtain ⟨rfl, e1⟩ := e1
        obtain ⟨f1, f2, f3⟩ := s.chunk.get_cons h.chunk hbt
        unfold processInitFixedHeader
        simp only [f1, Bind.bind, Except.bind, e2, ne_eq, not_true, if_false]
        refine ⟨_, rfl, .ok (.hd ⟨h.state, h.reader, SizeAcc.Inv.setFirst, f3, h.toff, h.foff, h.arg, fun hc => (by cases hc), fun _ => ⟨e3, ?_⟩⟩) ?_⟩
        · simp only [f2, e1]
          exact hdrRun_pack hP.tol body _ SizeAcc.Inv.setFirst rfl
        · unfold ApplyPatch.mu ApplyPatch.wk
          simp only [f2, hbt, List.length_cons, h.state]
          omega
      | toSize =>
        simp only
        obtain ⟨hcm, a, ha⟩ := h.next hi
        unfold processInitToSize
        obtain ⟨out, q1, q2⟩ := headerSize_run (s.chunk.left + 1) s.chunk s.size h.chunk h.size (by rw [s.chunk.left_eq h.chunk]; omega)
        have hiv := hdrRun_inv s.chunk.rest s.size h.size
        rw [hdrRun_append] at ha
        cases hr : hdrRun s.size s.chunk.rest with
        | more a' =>
          rw [hr] at ha q2 hiv
          simp only at ha hiv
          obtain ⟨c', rfl, g1, g2⟩ := q2
          simp only [q1, Bind.bind, Except.bind]
          have hne : x ≠ [] := by rintro rfl; cases ha
          refine ⟨_, rfl, .more (.hd ⟨h.state, h.reader, hiv, g1, h.toff, h.foff, h.arg, fun hc => ?_, fun _ => ⟨hcm, a, ha⟩⟩) g1 g2 hne⟩
          simp only [hi] at hc
          cases hc
        | fail => rw [hr] at ha; cases ha
        | value v a' t =>
          rw [hr] at ha q2 hiv
          simp only [HdrOut.value.injEq] at ha
          obtain ⟨c', rfl, g1, g2, g3⟩ := q2
          obtain ⟨rfl, _, h3⟩ := ha
          simp only [q1, Bind.bind, Except.bind]
          obtain ⟨r, r1, r2, r3, r4⟩ := hP.reads
          have hto := hP.tol
          rw [hcm, init_any (m := 0) hP.cne, r1]
          simp only
          rw [if_neg (by omega)]
          have hmu : ∀ s' : ApplyPatch, s'.chunk = c' → s'.reader = some r → s'.state.weight = 0 → s'.mu < s.mu := by
            intro s' k1 k2 k3
            have := hiv.2.2
            unfold ApplyPatch.mu ApplyPatch.wk
            simp only [k1, k2, k3, h.reader, r3, g2, h.state]
            omega
          have hz : szOfInt ((to.length : Nat) : Int) = to.length := by rw [szOfInt_nat (by omega) (by omega)]; omega
          rw [hz]
          have hdec : Decodes r (c'.rest ++ x) (if to = [] then [] else packSize 0 ++ encodeOps ops) := by
            rw [g2, h3]; exact r4
          by_cases h0 : to = []
          · rw [if_neg (by rw [h0]; simp)]
            rw [if_pos h0] at hdec
            refine ⟨_, rfl, .ok (.bd r [] [] ⟨rfl, r2, hdec, g1, SizeAcc.Inv.setFirst, rfl, ?_, ?_, ?_, ?_, ?_, .done rfl⟩) (hmu _ rfl rfl rfl)⟩
            · rw [h.arg, h0]; rfl
            · rw [h.arg]; exact h.toff
            · rw [h.arg]; exact h.foff
            · rw [h.arg]; simp
            · rw [h.arg]; simp
          · have hpos : 0 < to.length := List.length_pos_iff.2 h0
            rw [if_pos (by omega)]
            rw [if_neg h0] at hdec
            obtain ⟨a2, ha2⟩ := sizeRun_pack (v := 0) (by decide) (encodeOps ops) { s.readerSize with state := .first } rfl
            refine ⟨_, rfl, .ok (.bd r (packSize 0 ++ encodeOps ops) to ⟨rfl, r2, hdec, g1, SizeAcc.Inv.setFirst, rfl, ?_, ?_, ?_, ?_, ?_, ?_⟩) (hmu _ rfl rfl rfl)⟩
            · rw [h.arg]; rfl
            · rw [h.arg]; exact h.toff
            · rw [h.arg]; exact h.foff
            · rw [h.arg]; simp
            · rw [h.arg]; simp
            · simp only [h.arg]
              exact .dfpatch hP.reb h0 hP.small ha2
    obtain ⟨out, e1, e2⟩ := key
    refine ⟨out, ?_, e2⟩
    unfold processOnce
    rw [if_neg hnd, e1]
    simp only [Bind.bind, Except.bind]
    rw [if_neg e2.nonneg]

theorem SLoop.chunkInv {s : ApplyPatch} {w : World Files} {x : Bytes} (h : SLoop fr to comp body s w x) : s.chunk.Inv := by
  cases h with
  | hd h => exact h.chunk
  | bd _ _ _ h => exact h.chunk

theorem SBd.doneAny {s : ApplyPatch} {w : World Files} {x : Bytes} {r E todo} (h : SBd fr to s w x r E todo) (hd : s.state = .done) (y : Bytes) :
    SBd fr to s w y r E todo := by
  have hp := h.phase
  rw [hd] at hp
  cases hp with
  | done ht => exact ⟨h.reader, h.good, decodes_nil_any h.dec y, h.chunk, h.acc, h.toSz, h.out, h.off, h.frm, h.p0, h.p1, h.phase⟩

/-- The loop of process. -/
theorem sloop_run (hP : SPatch fr to comp body ops) (later : Bytes) : ∀ (fuel : Nat) (s : ApplyPatch) (w : World Files),
    SLoop fr to comp body s w later → s.mu + 2 ≤ fuel →
    ∃ e s' w', processLoop (fileEnv fr) fuel 0 s w = .ok (e, s', w') ∧ (e = 0 ∨ e = 1 ∨ e = ALREADY_DONE) ∧ SRest fr to comp body s' w' later := by
  intro fuel
  induction fuel with
  | zero => intro s w _ h; omega
  | succ fuel ih =>
    intro s w h hf
    by_cases ha : s.chunk.available = true
    · have hne : s.chunk.rest ≠ [] := by
        intro h1
        rw [chunk_none h.chunkInv h1] at ha
        cases ha
      unfold processLoop
      rw [if_pos ⟨ha, by decide⟩]
      obtain ⟨f', rfl⟩ : ∃ f', fuel = f' + 1 := ⟨fuel - 1, by omega⟩
      by_cases h3 : s.state = .done
      · rw [processOnce_done _ h3]
        refine ⟨_, _, _, processLoop_stop _ (.inr adNeg), .inr (.inr rfl), ?_⟩
        cases h with
        | hd h => rw [h.state] at h3; cases h3
        | bd r E todo h => exact .bd _ _ _ (h.doneAny h3 _)
      · obtain ⟨out, e1, e2⟩ := sloop_step hP h h3 (fun h => absurd h hne)
        rw [e1]
        simp only [Bind.bind, Except.bind]
        cases e2 with
        | ok a1 a2 => exact ih _ _ a1 (by simp only; omega)
        | more a1 a2 a3 a4 => exact ⟨_, _, _, processLoop_stop _ (.inl (chunk_none a2 a3)), .inr (.inl rfl), a1⟩
    · rw [Bool.not_eq_true] at ha
      have hr := chunk_none' h.chunkInv ha
      refine ⟨_, _, _, processLoop_stop _ (.inl ha), .inl rfl, ?_⟩
      cases h with
      | hd h1 =>
        rw [hr, List.nil_append] at h1
        exact .hd h1
      | bd _ _ _ h1 =>
        rw [hr, List.nil_append] at h1
        exact .bd _ _ _ h1

/-- The loop of finalize. -/
theorem sfinal_run (hP : SPatch fr to comp body ops) : ∀ (fuel : Nat) (s : ApplyPatch) (w : World Files),
    SLoop fr to comp body s w [] → s.mu < fuel →
    ∃ s' w' r, finalizeLoop (fileEnv fr) fuel s w = .ok (ALREADY_DONE, s', w') ∧ s'.reader = some r ∧ r.destroy = 0 ∧ s'.toSize = to.length ∧
      w'.arg.out = to := by
  intro fuel
  induction fuel with
  | zero => intro s w _ h; omega
  | succ fuel ih =>
    intro s w h hf
    unfold finalizeLoop
    by_cases h3 : s.state = .done
    · rw [processOnce_done _ h3]
      simp only [Bind.bind, Except.bind]
      rw [if_neg ad0]
      cases h with
      | hd h => rw [h.state] at h3; cases h3
      | bd r E todo h =>
        have hp := h.phase
        rw [h3] at hp
        cases hp with
        | done ht =>
          refine ⟨_, _, r, rfl, h.reader, decodes_nil h.dec, h.toSz, ?_⟩
          have := h.out
          rw [ht, List.append_nil] at this
          exact this
    · obtain ⟨out, e1, e2⟩ := sloop_step hP h h3 (fun _ => rfl)
      rw [e1]
      simp only [Bind.bind, Except.bind]
      cases e2 with
      | ok a1 a2 =>
        rw [if_pos rfl]
        exact ih _ _ a1 (by simp only; omega)
      | more a1 a2 a3 a4 => exact absurd rfl a4

theorem SBd.setChunk {s : ApplyPatch} {w : World Files} {x : Bytes} {r E todo} (h : SBd fr to s w x r E todo) (buf : Bytes) (po : Nat) :
    SBd fr to { s with patchOffset := po, chunk := { buf := buf, offset := 0 } } w x r E todo :=
  ⟨h.reader, h.good, h.dec, Nat.zero_le _, h.acc, h.toSz, h.out, h.off, h.frm, h.p0, h.p1, h.phase⟩

omit [Build] in
theorem SHd.setChunk {s : ApplyPatch} {w : World Files} {x : Bytes} (h : SHd to comp body s w x) (buf : Bytes) (po : Nat) :
    SHd to comp body { s with patchOffset := po, chunk := { buf := buf, offset := 0 } } w x :=
  ⟨h.state, h.reader, h.size, Nat.zero_le _, h.toff, h.foff, h.arg, h.first, h.next⟩

theorem sprocess_run (hP : SPatch fr to comp body ops) {s : ApplyPatch} {w : World Files} {q later : Bytes}
    (h : SRest fr to comp body s w (q ++ later)) :
    ∃ s' w', applyPatchProcess (fileEnv fr) s w q = .ok (0, s', w') ∧ SRest fr to comp body s' w' later := by
  have hl : SLoop fr to comp body { s with patchOffset := sz (s.patchOffset + q.length), chunk := { buf := q, offset := 0 } } w later := by
    cases h with
    | hd h => exact .hd (h.setChunk _ _)
    | bd r E todo h => exact .bd _ _ _ (h.setChunk _ _)
  obtain ⟨e, s', w', e1, e2, e3⟩ := sloop_run hP later _ _ w hl (ApplyPatch.fuel_mu hl.chunkInv)
  unfold applyPatchProcess
  simp only [e1, Bind.bind, Except.bind]
  rcases e2 with rfl | rfl | rfl
  · rw [if_neg (by decide)]; exact ⟨_, _, rfl, e3⟩
  · rw [if_pos (.inl rfl)]; exact ⟨_, _, rfl, e3⟩
  · rw [if_pos (.inr rfl)]; exact ⟨_, _, rfl, e3⟩

theorem spieces_run (hP : SPatch fr to comp body ops) (later : Bytes) : ∀ (pieces : List Bytes) (s : ApplyPatch) (w : World Files),
    SRest fr to comp body s w (pieces.flatten ++ later) →
    ∃ s' w', processAll (fileEnv fr) s w pieces = .ok (0, s', w') ∧ SRest fr to comp body s' w' later := by
  intro pieces
  induction pieces with
  | nil => intro s w h; exact ⟨s, w, rfl, h⟩
  | cons q qs ih =>
    intro s w h
    rw [List.flatten_cons, List.append_assoc] at h
    obtain ⟨s1, w1, e1, h1⟩ := sprocess_run hP h
    obtain ⟨s2, w2, e2, h2⟩ := ih s1 w1 h1
    refine ⟨s2, w2, ?_, h2⟩
    simp only [processAll, e1, Bind.bind, Except.bind, ne_eq, not_true, if_false, e2]

theorem sfinalize_run (hP : SPatch fr to comp body ops) {s : ApplyPatch} {w : World Files} (h : SRest fr to comp body s w []) :
    ∃ s' w', applyPatchFinalize (fileEnv fr) s w = .ok ((to.length : Nat), s', w') ∧ w'.arg.out = to := by
  have hl : SLoop fr to comp body { s with chunk := { buf := [], offset := 0 } } w [] := by
    cases h with
    | hd h => exact .hd (h.setChunk [] s.patchOffset)
    | bd r E todo h => exact .bd _ _ _ (h.setChunk [] s.patchOffset)
  obtain ⟨s', w', r, e1, e2, e3, e4, e5⟩ := sfinal_run hP _ _ w hl (Nat.lt_of_lt_of_le (Nat.lt_succ_of_lt (Nat.lt_succ_self _)) (ApplyPatch.fuel_mu hl.chunkInv))
  unfold applyPatchFinalize
  simp only [e1, Bind.bind, Except.bind]
  refine ⟨s', w', ?_, e5⟩
  have : commonFinalize ALREADY_DONE s'.reader s'.toSize = (to.length : Nat) := by
    unfold commonFinalize
    simp only [e2, e3, e4]
    have : wrapInt (to.length : Nat) = (to.length : Nat) := wrapInt_small hP.tol
    simp [this, ALREADY_DONE]
  rw [this]

/-- The update succeeds, for every division and every announced size. -/
theorem seq_decodes (hP : SPatch fr to comp body ops) (b : UInt8) (h1 : (b.toNat >>> 4) &&& 0x7 = 0) (h2 : b.toNat &&& 0xf = comp)
    (pieces : List Bytes) (h : pieces.flatten = b :: (packSize to.length ++ body)) (P : Nat) :
    CAccepts fr P pieces to.length to := by
  have hs : SRest fr to comp body (applyPatchInit P) { arg := {} } (pieces.flatten ++ []) := by
    refine .hd ⟨rfl, rfl, ?_, Nat.zero_le _, rfl, rfl, rfl, fun _ => ⟨b, by rw [List.append_nil, h], h1, h2⟩, fun h => by cases h⟩
    intro h; cases h
  obtain ⟨s1, w1, e1, h1⟩ := spieces_run hP [] pieces _ _ hs
  obtain ⟨s2, w2, e2, h2⟩ := sfinalize_run hP h1
  refine ⟨s2, w2, ?_, by omega, h2⟩
  unfold applyPieces
  simp only [e1, Bind.bind, Except.bind, ne_eq, not_true, if_false, e2]

end Detools
