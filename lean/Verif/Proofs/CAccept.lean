import Verif.Proofs.CReaderRun
import Verif.Proofs.PyTrunc

namespace Detools

variable [Build] [NoLzma]

omit [NoLzma] in
theorem fixMean_iff (fr : Bytes) (p : Nat) (x : Bytes) (res : SeqA) :
    FixMean fr p x res ↔ ∃ c v rest r, CHeader x c v rest ∧ CReader.init p c = some r ∧
      Succ (seqSink fr) r.abs (startA v) rest res := by
  have ha : ∀ b : UInt8, b.toNat &&& 0xf = b.toNat % 16 := fun b => Nat.and_two_pow_sub_one_eq_mod b.toNat 4
  have hb : ∀ b : UInt8, (b.toNat >>> 4) &&& 0x7 = b.toNat / 16 % 8 := by
    intro b
    rw [show (7 : Nat) = 2 ^ 3 - 1 from rfl, Nat.and_two_pow_sub_one_eq_mod, Nat.shiftRight_eq_div_pow]
  constructor
  · rintro ⟨b, t, rfl, h1, v, a, t', r, h2, h3, h4⟩
    obtain ⟨w, k, g1, g2, rfl⟩ := hdrRun_value h2
    rw [ha] at h3
    rw [hb] at h1
    exact ⟨_, _, t', r, ⟨b, t, w, k, rfl, h1, rfl, g1, g2, rfl⟩, h3, h4⟩
  · rintro ⟨c, v, rest, r, ⟨b, t, w, k, rfl, h1, rfl, g1, g2, rfl⟩, h3, h4⟩
    obtain ⟨a, h⟩ := hdrRun_of_unpack g1 g2
    exact ⟨b, t, rfl, by rw [hb]; exact h1, w.natAbs, a, rest, r, h, by rw [ha]; exact h3, h4⟩

omit [NoLzma] [Build] in
theorem CHeader.unique {x c v rest c' v' rest'} (h : CHeader x c v rest) (h' : CHeader x c' v' rest') :
    c = c' ∧ v = v' ∧ rest = rest' := by
  obtain ⟨b, t, w, k, rfl, _, rfl, g1, _, rfl⟩ := h
  obtain ⟨b', t', w', k', e, _, rfl, g1', _, rfl⟩ := h'
  cases e
  rw [g1] at g1'
  cases g1'
  exact ⟨rfl, rfl, rfl⟩

omit [NoLzma] [Build] in
theorem CHeader.rest_lt {x c v rest} (h : CHeader x c v rest) : rest.length + 1 < x.length ∧ x.length ≤ rest.length + 5 ∧ v < 2 ^ 27 := by
  obtain ⟨b, t, w, k, rfl, _, rfl, g1, g2, rfl⟩ := h
  obtain ⟨q, rfl, h3, h4, _⟩ := unpackSizeWithLength_consumes t w k rest g1
  have hc : cSize (q ++ rest) = some (w, rest) := cSize_iff.2 ⟨k, g1, g2⟩
  have := cSize_bound hc
  simp only [List.length_cons, List.length_append]
  omega

omit [NoLzma] [Build] in
theorem headerWhole_of {P p : Nat} {pieces : List Bytes} (hw : HeaderInFirst P pieces)
    (hp : ∀ b t v len rest, pieces.flatten = b :: t → b.toNat % 16 = 0 → unpackSizeWithLength t = .ok (v, len, rest) → len ≤ 4 →
      p = P - (1 + len))
    (hP : P < 2 ^ 63) : HeaderWhole P p pieces := by
  intro b t v a t' h1 h2 h3
  obtain ⟨w, k, g1, g2, rfl⟩ := hdrRun_value h3
  have ha : b.toNat &&& 0xf = b.toNat % 16 := Nat.and_two_pow_sub_one_eq_mod b.toNat 4
  rw [ha] at h2
  obtain ⟨q1, q2⟩ := hw b t w k t' h1 h2 g1 g2
  have hl : (b :: t).length - t'.length = 1 + k := by
    obtain ⟨q, rfl, h3, h4, _⟩ := unpackSizeWithLength_consumes t w k t' g1
    simp only [List.length_cons, List.length_append]
    omega
  rw [hl]
  refine ⟨q2, ?_⟩
  have := hp b t w k t' h1 h2 g1 g2
  unfold szOfInt
  omega

/-- What is left of the announced size after the header. -/
def afterHeader (P : Nat) (x : Bytes) : Nat :=
  match x with
  | [] => 0
  | _ :: t => match unpackSizeWithLength t with
    | .ok (_, len, _) => P - (1 + len)
    | .error _ => 0

omit [NoLzma] [Build] in
theorem CHeader.after {P x c v rest} (h : CHeader x c v rest) : afterHeader P x = P - (x.length - rest.length) := by
  obtain ⟨b, t, w, k, rfl, _, rfl, g1, g2, rfl⟩ := h
  obtain ⟨q, rfl, h3, h4, _⟩ := unpackSizeWithLength_consumes t w k rest g1
  simp only [afterHeader, g1, List.length_cons, List.length_append]
  omega

/-- The low level API accepts exactly when the readers and the consumer do. -/
theorem caccepts_iff (fr : Bytes) (hfr : fr.length < 2 ^ 31) (P : Nat) (hP : P < 2 ^ 63) (pieces : List Bytes)
    (hw : HeaderInFirst P pieces) (n : Int) (out : Bytes) :
    CAccepts fr P pieces n out ↔ ∃ c v rest r res, CHeader pieces.flatten c v rest ∧
      CReader.init (P - (pieces.flatten.length - rest.length)) c = some r ∧
      Succ (seqSink fr) r.abs (startA v) rest res ∧ n = res.toSize ∧ out = res.out := by
  have hwh : HeaderWhole P (afterHeader P pieces.flatten) pieces := by
    refine headerWhole_of hw ?_ hP
    intro b t v len rest h1 h2 h3 h4
    rw [h1]
    simp only [afterHeader, h3]
  have hpl : afterHeader P pieces.flatten < 2 ^ 63 := by
    unfold afterHeader
    split
    · omega
    · split <;> omega
  have hiff : ∀ res, FixMean fr (afterHeader P pieces.flatten) pieces.flatten res ↔ ∃ c v rest r, CHeader pieces.flatten c v rest ∧
      CReader.init (P - (pieces.flatten.length - rest.length)) c = some r ∧ Succ (seqSink fr) r.abs (startA v) rest res := by
    intro res
    rw [fixMean_iff]
    constructor
    · rintro ⟨c, v, rest, r, h1, h2, h3⟩
      rw [h1.after] at h2
      exact ⟨c, v, rest, r, h1, h2, h3⟩
    · rintro ⟨c, v, rest, r, h1, h2, h3⟩
      rw [← h1.after] at h2
      exact ⟨c, v, rest, r, h1, h2, h3⟩
  have hsim := apply_sim fr hfr P (afterHeader P pieces.flatten) hpl pieces hwh
  constructor
  · rintro ⟨s, w, h1, h2, h3⟩
    rcases hsim with ⟨u, e, _⟩ | ⟨n', s', w', e, (⟨hn, _⟩ | ⟨res, g1, g2, g3, _⟩)⟩
    · rw [e] at h1; cases h1
    · rw [e] at h1; cases h1; omega
    · rw [e] at h1
      cases h1
      obtain ⟨c, v, rest, r, k1, k2, k3⟩ := (hiff res).1 g1
      exact ⟨c, v, rest, r, res, k1, k2, k3, g2, by rw [← h3, g3]⟩
  · rintro ⟨c, v, rest, r, res, k1, k2, k3, rfl, rfl⟩
    have hf := (hiff res).2 ⟨c, v, rest, r, k1, k2, k3⟩
    rcases hsim with ⟨u, e, hno⟩ | ⟨n', s', w', e, (⟨_, hno⟩ | ⟨res', g1, g2, g3, _⟩)⟩
    · exact absurd hf (hno res)
    · exact absurd hf (hno res)
    · obtain rfl := hf.unique g1
      subst g2
      exact ⟨s', w', e, by omega, g3⟩

/-! ### Without compression, and CRLE -/

omit [NoLzma] in
theorem init_zero (p : Nat) : CReader.init p 0 = some (.raw p 0) := rfl
omit [NoLzma] in
theorem init_two (p : Nat) : CReader.init p 2 = some (.crle .idle) := rfl

omit [NoLzma] [Build] in
theorem startA_zero : (startA 0).phase = .done := rfl

omit [NoLzma] [Build] in
/-- The consumer in front of a raw body. -/
theorem body_raw (fr : Bytes) (p v : Nat) (hv : v < 2 ^ 27) (rest : Bytes) (hr : rest.length < 2 ^ 62) :
    (∀ res, Succ (seqSink fr) (.raw p 0, none) (startA v) rest res → res.toSize = v ∧
      ((v = 0 ∧ p = 0 ∧ res.out = []) ∨ (0 < v ∧ ∃ z, rest.length = p + z.length ∧ CBodyMeans fr v rest res.out z))) ∧
    (∀ out, ((v = 0 ∧ p = 0 ∧ out = []) ∨ (0 < v ∧ ∃ z, rest.length = p + z.length ∧ CBodyMeans fr v rest out z)) →
      ∃ res, Succ (seqSink fr) (.raw p 0, none) (startA v) rest res ∧ res.toSize = v ∧ res.out = out) := by
  have hsr := succ_raw fr p rest 0 (startA v)
  by_cases h0 : v = 0
  · subst h0
    constructor
    · intro res h
      obtain ⟨z, h1, h2⟩ := (hsr res).1 h
      rw [runTo_done startA_zero] at h1
      cases h1
      exact ⟨rfl, .inl ⟨rfl, by omega, rfl⟩⟩
    · rintro out (⟨_, rfl, rfl⟩ | ⟨h, _⟩)
      · refine ⟨startA 0, (hsr _).2 ⟨rest, runTo_done startA_zero _, by omega⟩, rfl, rfl⟩
      · omega
  · constructor
    · intro res h
      obtain ⟨z, h1, h2⟩ := (hsr res).1 h
      have hle := runTo_rest_le h1
      obtain ⟨g1, g2⟩ := (runTo_body fr v (by omega) (by omega) rest hr z).1 res h1
      exact ⟨g1, .inr ⟨by omega, z, by omega, g2⟩⟩
    · rintro out (⟨h, _, _⟩ | ⟨_, z, h1, h2⟩)
      · exact absurd h h0
      · obtain ⟨r, g1, g2, g3⟩ := (runTo_body fr v (by omega) (by omega) rest hr z).2 out h2
        exact ⟨r, (hsr r).2 ⟨z, g1, by omega⟩, g3, g2⟩

omit [NoLzma] [Build] in
/-- The consumer in front of a CRLE stream. -/
theorem body_crle (fr : Bytes) (v : Nat) (hv : v < 2 ^ 27) (rest body : Bytes) (hc : CrleOut 0 rest body) (hr : body.length < 2 ^ 62) :
    (∀ res, Succ (seqSink fr) (.crle .idle, none) (startA v) rest res → res.toSize = v ∧
      ((v = 0 ∧ res.out = []) ∨ (0 < v ∧ ∃ z, CBodyMeans fr v body res.out z))) ∧
    (∀ out, ((v = 0 ∧ out = []) ∨ (0 < v ∧ ∃ z, CBodyMeans fr v body out z)) →
      ∃ res, Succ (seqSink fr) (.crle .idle, none) (startA v) rest res ∧ res.toSize = v ∧ res.out = out) := by
  have hsr := succ_crle fr hc (startA v)
  by_cases h0 : v = 0
  · subst h0
    constructor
    · intro res h
      obtain ⟨z, h1⟩ := (hsr res).1 h
      rw [runTo_done startA_zero] at h1
      cases h1
      exact ⟨rfl, .inl ⟨rfl, rfl⟩⟩
    · rintro out (⟨_, rfl⟩ | ⟨h, _⟩)
      · exact ⟨startA 0, (hsr _).2 ⟨body, runTo_done startA_zero _⟩, rfl, rfl⟩
      · omega
  · constructor
    · intro res h
      obtain ⟨z, h1⟩ := (hsr res).1 h
      obtain ⟨g1, g2⟩ := (runTo_body fr v (by omega) (by omega) body hr z).1 res h1
      exact ⟨g1, .inr ⟨by omega, z, g2⟩⟩
    · rintro out (⟨h, _⟩ | ⟨_, z, h2⟩)
      · exact absurd h h0
      · obtain ⟨r, g1, g2, g3⟩ := (runTo_body fr v (by omega) (by omega) body hr z).2 out h2
        exact ⟨r, (hsr r).2 ⟨z, g1⟩, g3, g2⟩

/-! ### Created patches -/

omit [NoLzma] [Build] in
theorem crlePackSize_length_le (n : Nat) (h : n < 2 ^ 28) : (crlePackSize n).length ≤ 4 := by
  by_cases h0 : n = 0
  · subst h0; simp [crlePackSize, packGroups_zero, clearLast]
  · rw [crlePackSize_eq n h0, clearLast_length]
    exact packGroups_length_le 4 n h

omit [NoLzma] [Build] in
theorem CrleSmall.mkLits {a : Bytes} : ∀ {k : Nat} {b : Bytes}, CrleSmall k b → CrleSmall (k + a.length) (a ++ b) := by
  induction a with
  | nil => intro k b h; exact h
  | cons x a ih => intro k b h; exact .lit (ih h)

omit [NoLzma] [Build] in
theorem crleCompressSegment_small (fl : Bool) (s : CrleC) (hs : s.data.length < 2 ^ 28) {s' out} (h : crleCompressSegment fl s = (s', out)) :
    s'.data.length ≤ s.data.length ∧ ∀ inp, CrleSmall 0 inp → CrleSmall 0 (out ++ inp) := by
  unfold crleCompressSegment at h
  split at h
  · cases h; exact ⟨Nat.le_refl _, fun inp h => h⟩
  · next hne =>
    rcases crleGetSegment_spec fl s.data hne with ⟨h1, h2⟩ | ⟨rep, seg, rest, h1, h2, h3, h4⟩
    · rw [h1] at h; cases h; exact ⟨Nat.le_refl _, fun inp h => h⟩
    · rw [h1] at h
      have hl : s.data.length = seg.length + rest.length := by rw [h2]; simp
      have hpk := crlePackSize_length_le seg.length (by omega)
      cases h
      refine ⟨by show rest.length ≤ _; omega, fun inp hi => ?_⟩
      cases rep with
      | true =>
        obtain ⟨b, hb⟩ := h4 rfl
        simp only [if_true, List.cons_append]
        have hlen : 0 < seg.length := List.length_pos_iff.2 h3
        have : seg.take 1 = [b] := by
          rw [hb]
          cases hn : seg.length with
          | zero => omega
          | succ n => simp [List.replicate_succ]
        rw [this]
        refine CrleSmall.repeated (n := seg.length) (b := b) (rest := inp) (by rw [List.append_assoc]; exact crleUnpackSize_pack _ _) ?_ hi
        simp only [List.length_append, List.length_cons, List.length_nil]
        omega
      | false =>
        simp only [Bool.false_eq_true, if_false, List.cons_append]
        refine CrleSmall.scattered (n := seg.length) (rest := seg ++ inp) (by rw [List.append_assoc]; exact crleUnpackSize_pack _ _) ?_ ?_
        · simp only [List.length_append]
          omega
        · have := hi.mkLits (a := seg)
          simpa using this

omit [NoLzma] [Build] in
theorem crleFlushLoop_small (fuel : Nat) : ∀ s : CrleC, s.data.length < 2 ^ 28 → CrleSmall 0 (crleFlushLoop fuel s) := by
  induction fuel with
  | zero => intro s h; exact .done
  | succ fuel ih =>
    intro s hf
    cases hc : crleCompressSegment true s with
    | mk s' out =>
      obtain ⟨h1, h2⟩ := crleCompressSegment_small true s hf hc
      simp only [crleFlushLoop, hc]
      split
      · exact .done
      · exact h2 _ (ih s' (by omega))

omit [NoLzma] [Build] in
theorem crle_go_small (cs : List Bytes) : ∀ s : CrleC, (s.data ++ cs.flatten).length < 2 ^ 28 →
    CrleSmall 0 (Compressor.run.go crleCompressor s cs) := by
  induction cs with
  | nil =>
    intro s h
    simp only [Compressor.run.go, crleCompressor, List.flatten_nil, List.append_nil] at h ⊢
    split
    · refine .scattered (n := 0) (rest := []) ?_ ?_ .done
      · simpa using crleUnpackSize_pack 0 []
      · have := crlePackSize_length_le 0 (by omega)
        simp only [List.length_nil]; omega
    · exact crleFlushLoop_small _ _ h
  | cons c cs ih =>
    intro s h
    have hgo : Compressor.run.go crleCompressor s (c :: cs) =
      (crleCompressSegment false { s with data := s.data ++ c }).2 ++
        Compressor.run.go crleCompressor (crleCompressSegment false { s with data := s.data ++ c }).1 cs := rfl
    rw [hgo]
    simp only [List.flatten_cons, List.length_append] at h
    cases hc : crleCompressSegment false { s with data := s.data ++ c } with
    | mk s' out =>
      obtain ⟨h1, h2⟩ := crleCompressSegment_small false { s with data := s.data ++ c } (by simp only [List.length_append]; omega) hc
      simp only [List.length_append] at h1
      exact h2 _ (ih s' (by simp only [List.length_append]; omega))

omit [NoLzma] [Build] in
theorem packSize_length_four (v : Int) (h : v.natAbs < 2 ^ 27) : (packSize v).length ≤ 4 := by
  by_cases hv : v = 0
  · subst hv; decide
  · rw [packSize_shape v hv, clearLast_length]
    have := packGroups_length_le 3 (v.natAbs / 64) (by omega)
    simp only [List.length_cons]; omega

omit [NoLzma] [Build] in
theorem Rebuilds.seeks {fr : Bytes} : ∀ {ops : List Op} {pos : Int} {to : Bytes}, Rebuilds fr pos ops to →
    ∀ q ∈ seeks pos (ops.map Op.toRec), q ≤ fr.length := by
  intro ops
  induction ops with
  | nil => intro pos to _ q h; cases h
  | cons op ops ih =>
    intro pos to h q hq
    obtain ⟨_, _, _, _, h5, rest, _, h6⟩ := h
    simp only [List.map_cons, Detools.seeks, List.mem_cons] at hq
    rcases hq with rfl | hq
    · exact h5
    · exact ih h6 q hq

omit [NoLzma] [Build] in
theorem created_body (fr to : Bytes) (hfr : fr.length < 2 ^ 27) (hto : to.length < 2 ^ 27) {ops : List Op} (hops : Rebuilds fr 0 ops to)
    (hsz : ∀ op ∈ ops, op.diff.length ≤ to.length ∧ op.extra.length ≤ to.length ∧ op.adjustment.natAbs ≤ fr.length) (z : Bytes) :
    CBodyMeans fr to.length (packSize 0 ++ encodeOps ops ++ z) to z := by
  obtain ⟨h1, h2⟩ := hops.recs fr false ops 0 to z
  refine ⟨0, 1, encodeOps ops ++ z, ops.map Op.toRec, ?_, by omega, by omega, h1, ?_, ?_, h2⟩
  · rw [List.append_assoc]; exact unpackSize_zero_pack _
  · intro r hr
    obtain ⟨op, ho, rfl⟩ := List.mem_map.1 hr
    obtain ⟨q1, q2, q3⟩ := hsz op ho
    refine ⟨by simp only [Op.toRec]; omega, by simp only [Op.toRec]; omega, ?_, ?_, ?_⟩
    · exact packSize_length_four _ (by omega)
    · exact packSize_length_four _ (by omega)
    · exact packSize_length_four _ (by omega)
  · intro q hq
    have := hops.seeks q hq
    omega

omit [NoLzma] [Build] in
theorem created_header (c : Compression) (n : Nat) (hn : n < 2 ^ 27) (rest : Bytes) :
    CHeader (packHeader PATCH_TYPE_SEQUENTIAL c.toNumber ++ packSize (n : Nat) ++ rest) c.toNumber n rest := by
  have hh := (readHeaderSequential_iff _ _ _ _).1 (readHeaderSequential_ok c (n : Nat) rest)
  obtain ⟨b, t, k, h1, h2, h3, h4, h5⟩ := hh
  refine ⟨b, t, n, k, h1, h2, h3, h5, ?_, rfl⟩
  have e : t = packSize (n : Nat) ++ rest := by
    simp only [packHeader, List.cons_append, List.nil_append, List.cons.injEq] at h1
    exact h1.2.symm
  rw [e, unpackSizeWithLength_packSize] at h5
  have := packSize_length_four (n : Int) (by omega)
  cases h5
  exact this

omit [NoLzma] [Build] in
theorem Succ.append {S : Sink} {r a x res} (h : Succ S r a x res) (z : Bytes) : Succ S r a (x ++ z) res := by
  induction h with
  | done h1 h2 => exact .done h1 h2
  | next h1 h2 _ ih => exact .next h1 h2 ih
  | feed h1 h2 h3 _ ih => exact .feed h1 h2 h3 ih

omit [NoLzma] [Build] in
theorem CBodyMeans.append {fr v body out rest} (h : CBodyMeans fr v body out rest) (z : Bytes) :
    CBodyMeans fr v (body ++ z) out (rest ++ z) := by
  obtain ⟨d, k, b, recs, h1, h2, h3, h4, h5⟩ := h
  exact ⟨d, k, b ++ z, recs, unpackSizeWithLength_append h1 z, h2, h3, h4.append z, h5⟩

omit [NoLzma] [Build] in
/-- Where a body ends depends on neither the from-data nor what follows. -/
theorem CBodyMeans.rest_unique {fr fr' v body out out' rest rest'} (h : CBodyMeans fr v body out rest) (h' : CBodyMeans fr' v body out' rest') :
    rest = rest' := by
  obtain ⟨d, k, b, recs, h1, h2, h3, h4, h5⟩ := h
  obtain ⟨d', k', b', recs', g1, g2, g3, g4, g5⟩ := h'
  rw [h1] at g1
  cases g1
  exact (h4.unique g4).2

omit [NoLzma] [Build] in
theorem CHeader.prefix {p z c v rest} (h : CHeader p c v rest) : CHeader (p ++ z) c v (rest ++ z) := by
  obtain ⟨b, t, w, k, rfl, h1, h2, h3, h4, h5⟩ := h
  exact ⟨b, t ++ z, w, k, rfl, h1, h2, unpackSizeWithLength_append h3 z, h4, h5⟩

omit [NoLzma] [Build] in
/-- A created patch without compression or with CRLE, as the C library sees it. -/
theorem created_c (lib : Lib) (hsa : SuffixArrayInRange lib.suffixArray)
    (fr to : Bytes) (hfr : fr.length < 2 ^ 27) (hto : to.length < 2 ^ 27)
    (plain : Bytes) (hplain : createSequential lib .none none fr to = .ok plain) :
    ∃ body, (to ≠ [] → CBodyMeans fr to.length body to []) ∧ body.length ≤ plain.length + 2 ∧
      (∀ patch, createSequential lib .none none fr to = .ok patch →
        patch = packHeader PATCH_TYPE_SEQUENTIAL 0 ++ packSize (to.length : Nat) ++ if to = [] then [] else body) ∧
      (∀ patch, createSequential lib .crle none fr to = .ok patch → ∃ rest,
        patch = packHeader PATCH_TYPE_SEQUENTIAL 2 ++ packSize (to.length : Nat) ++ (if to = [] then [] else rest) ∧
        (to ≠ [] → CrleDec 0 rest body ∧ (plain.length < 2 ^ 28 → CrleSmall 0 rest))) := by
  obtain ⟨ops, hops, hsm, hshape⟩ := created_shape_all lib hsa fr to (by omega)
  have hflat : (packSize 0 :: ops.flatMap Op.chunks).flatten = packSize 0 ++ encodeOps ops := flatten_cons_chunks _ _
  have hpne : (packSize 0 :: ops.flatMap Op.chunks).flatten ≠ [] := by
    rw [hflat]; simp [packSize_ne_nil]
  have hO := noneLossless.init (packSize 0 :: ops.flatMap Op.chunks) hpne
  have hrun : noneCodec.comp.run (packSize 0 :: ops.flatMap Op.chunks) = packSize 0 ++ encodeOps ops := hO.1.trans hflat
  have hnone : ∀ patch, createSequential lib .none none fr to = .ok patch →
      patch = packHeader PATCH_TYPE_SEQUENTIAL 0 ++ packSize (to.length : Nat) ++ if to = [] then [] else (packSize 0 ++ encodeOps ops) := by
    intro patch h
    rw [hshape .none] at h
    simp only [Except.ok.injEq, Lib.codecOf, hrun] at h
    exact h.symm
  have hbl : to ≠ [] → (packSize 0 ++ encodeOps ops).length ≤ plain.length := by
    intro hne
    rw [hnone plain hplain, if_neg hne]
    simp only [List.length_append]; omega
  by_cases hne : to = []
  · refine ⟨[], fun h => absurd hne h, by simp, fun patch h => ?_, fun patch h => ⟨[], ?_, fun h => absurd hne h⟩⟩
    · have := hnone patch h
      rw [if_pos hne] at this ⊢
      exact this
    · rw [hshape .crle, if_pos hne] at h
      rw [if_pos hne]
      exact (Except.ok.inj h).symm
  · refine ⟨packSize 0 ++ encodeOps ops, fun _ => ?_, by have := hbl hne; omega, hnone, fun patch h => ?_⟩
    · have := created_body fr to hfr hto hops hsm []
      simpa using this
    · rw [hshape .crle, if_neg hne] at h
      refine ⟨_, by rw [if_neg hne]; exact (Except.ok.inj h).symm, fun _ => ⟨?_, fun hp => ?_⟩⟩
      · have hdec := crle_go_dec (packSize 0 :: ops.flatMap Op.chunks) {} (.inr (by simpa using hpne))
        rw [show ({} : CrleC).data = [] from rfl, List.nil_append, hflat] at hdec
        exact hdec
      · refine crle_go_small (packSize 0 :: ops.flatMap Op.chunks) {} ?_
        rw [show ({} : CrleC).data = [] from rfl, List.nil_append, hflat]
        have := hbl hne
        omega

omit [NoLzma] [Build] in
theorem CrleDec.unique {k inp out} (h : CrleDec k inp out) : ∀ {out'}, CrleDec k inp out' → out = out' := by
  induction h with
  | done => intro _ h; cases h; rfl
  | lit _ ih => intro _ h; cases h with | lit h => rw [ih h]
  | scattered h1 _ _ ih =>
    intro _ h
    cases h with
    | scattered g1 _ g3 =>
      rw [h1] at g1
      cases g1
      exact ih g3
  | repeated h1 _ _ ih =>
    intro _ h
    cases h with
    | repeated g1 _ g3 =>
      rw [h1] at g1
      cases g1
      rw [ih g3]

end Detools
