import Verif.Spec.Info
import Verif.Proofs.PyInPlace
import Verif.Proofs.Records

namespace Detools

theorem PatchReader.unpackLoopLen_ok {D : Decompressor} (L : Delivers D) (bs : Bytes) :
    ∀ (r : PatchReader D) (value offset v o : Nat) (rest : Bytes),
    L.owes r.st r.file bs → Detools.unpackLoop value offset bs = .ok (v, o, rest) →
    ∃ F r', (∀ fuel rf, F ≤ fuel → F ≤ rf → PatchReader.unpackLoopLen rf fuel r value offset = .ok (v, o, r')) ∧
      L.owes r'.st r'.file rest := by
  induction bs with
  | nil => intro r value offset v o rest _ h; simp [Detools.unpackLoop] at h
  | cons b bs ih =>
    intro r value offset v o rest hO h
    obtain ⟨F1, r1, h1, hO1⟩ := PatchReader.readByte_ok L r b bs hO
    simp only [Detools.unpackLoop] at h
    split at h
    · next hb =>
      obtain ⟨F2, r2, h2, hO2⟩ := ih r1 _ _ v o rest hO1 h
      refine ⟨max F1 (F2 + 1), r2, ?_, hO2⟩
      intro fuel rf hf hrf
      obtain ⟨k, rfl⟩ : ∃ k, fuel = k + 1 := ⟨fuel - 1, by omega⟩
      simp only [PatchReader.unpackLoopLen, h1 rf (by omega), bind, Except.bind, if_pos hb]
      exact h2 k rf (by omega) (by omega)
    · next hb =>
      simp only [Except.ok.injEq, Prod.mk.injEq] at h
      obtain ⟨rfl, rfl, rfl⟩ := h
      refine ⟨F1 + 1, r1, ?_, hO1⟩
      intro fuel rf hf hrf
      obtain ⟨k, rfl⟩ : ∃ k, fuel = k + 1 := ⟨fuel - 1, by omega⟩
      simp only [PatchReader.unpackLoopLen, h1 rf (by omega), bind, Except.bind, if_neg hb]

theorem PatchReader.unpackSizeWithLength_ok {D : Decompressor} (L : Delivers D) (r : PatchReader D) (bs : Bytes)
    (v : Int) (n : Nat) (rest : Bytes) (hO : L.owes r.st r.file bs) (h : Detools.unpackSizeWithLength bs = .ok (v, n, rest)) :
    ∃ F r', (∀ fuel, F ≤ fuel → r.unpackSizeWithLength fuel = .ok (v, n, r')) ∧ L.owes r'.st r'.file rest := by
  cases bs with
  | nil => cases h
  | cons b bs =>
    obtain ⟨F1, r1, h1, hO1⟩ := PatchReader.readByte_ok L r b bs hO
    simp only [Detools.unpackSizeWithLength, bind, Except.bind, pure, Except.pure] at h
    by_cases hb : b &&& 0x80 ≠ 0
    · rw [if_pos hb] at h
      cases hl : Detools.unpackLoop (b.toNat &&& 63) 6 bs with
      | error e => rw [hl] at h; simp at h
      | ok p =>
        obtain ⟨v', o', rest'⟩ := p
        rw [hl] at h
        simp only [Except.ok.injEq, Prod.mk.injEq] at h
        obtain ⟨F2, r2, h2, hO2⟩ := PatchReader.unpackLoopLen_ok L bs r1 _ _ _ _ _ hO1 hl
        refine ⟨max F1 F2, r2, ?_, by rw [← h.2.2]; exact hO2⟩
        intro fuel hf
        simp only [PatchReader.unpackSizeWithLength, bind, Except.bind, pure, Except.pure, h1 fuel (by omega), if_pos hb,
          h2 fuel fuel (by omega) (by omega), ← h.1, ← h.2.1]
    · rw [if_neg hb] at h
      simp only [Except.ok.injEq, Prod.mk.injEq] at h
      refine ⟨F1, r1, ?_, by rw [← h.2.2]; exact hO1⟩
      intro fuel hf
      simp only [PatchReader.unpackSizeWithLength, bind, Except.bind, pure, Except.pure, h1 fuel (by omega), if_neg hb, ← h.1, ← h.2.1]

theorem infoLoop_recs {D : Decompressor} (L : Delivers D) (recs : List Rec) :
    ∀ (r : PatchReader D) (body rest : Bytes) (toPos toSize : Int), Recs (toSize - toPos) body recs rest →
    (∀ x ∈ recs, 0 ≤ x.diffSize ∧ 0 ≤ x.extraSize) → L.owes r.st r.file body →
    ∃ F r', (∀ fuel, F ≤ fuel → infoLoop fuel toPos toSize r = .ok (describe toSize recs, r')) ∧ L.owes r'.st r'.file rest := by
  induction recs with
  | nil =>
    intro r body rest toPos toSize hR _ hO
    cases hR with
    | done h =>
      refine ⟨0, r, fun fuel _ => ?_, hO⟩
      cases fuel <;> (unfold infoLoop; rw [if_neg (by omega)]; rfl)
  | cons x recs ih =>
    intro r body rest toPos toSize hR hn hO
    cases hR with
    | record hl h1 h2 h3 h4 h5 h6 h7 h8 =>
      rename_i b1 b2 b3
      obtain ⟨n1, n2⟩ := hn x (by simp)
      obtain ⟨Fa, ra, ha, oa⟩ := PatchReader.unpackSizeWithLength_ok L r _ _ _ _ hO h1
      obtain ⟨Fb, rb, hb, ob⟩ := PatchReader.read_ok L ra x.diff b1 oa
      obtain ⟨Fc, rc, hc, oc⟩ := PatchReader.unpackSizeWithLength_ok L rb _ _ _ _ ob h4
      obtain ⟨Fd, rd, hd, od⟩ := PatchReader.read_ok L rc x.extra b2 oc
      obtain ⟨Fe, re, he, oe⟩ := PatchReader.unpackSizeWithLength_ok L rd _ _ _ _ od h7
      obtain ⟨Fg, rg, hg, og⟩ := ih re b3 rest (toPos + x.diffSize + x.extraSize) toSize
        (by rw [show toSize - (toPos + x.diffSize + x.extraSize) = toSize - toPos - x.diff.length - x.extra.length by omega]; exact h8)
        (fun y hy => hn y (by simp [hy])) oe
      refine ⟨max Fa (max Fb (max Fc (max Fd (max Fe Fg)))) + 1, rg, ?_, og⟩
      intro fuel hf
      obtain ⟨k, rfl⟩ : ∃ k, fuel = k + 1 := ⟨fuel - 1, by omega⟩
      rw [infoLoop, if_pos (by omega)]
      have hb' := hb k (by omega)
      have hd' := hd k (by omega)
      rw [h3] at hb'
      rw [h6] at hd'
      have c1 : ¬ (toPos + x.diffSize > toSize) := by omega
      have c2 : ¬ (toPos + x.diffSize + x.extraSize > toSize) := by omega
      simp only [bind, Except.bind, pure, Except.pure, ha k (by omega), c1, if_false, hb', hc k (by omega), c2, hd', he k (by omega),
        hg k (by omega), describe, List.map_cons, List.sum_cons]

theorem describe_ops (toSize : Int) (ops : List Op) : describe toSize (ops.map Op.toRec) = describeOps toSize ops := by
  simp only [describe, describeOps, List.map_map]
  rfl

theorem infoLoop_ops {D : Decompressor} (L : Delivers D) (ops : List Op) (r : PatchReader D) (fr to tail : Bytes) (pos : Int)
    (hR : Rebuilds fr pos ops to) (hO : L.owes r.st r.file (encodeOps ops ++ tail)) :
    ∃ F r', (∀ fuel, F ≤ fuel → infoLoop fuel 0 to.length r = .ok (describeOps to.length ops, r')) ∧ L.owes r'.st r'.file tail := by
  have h := (Rebuilds.recs fr true ops pos to tail hR).1
  rw [← describe_ops]
  exact infoLoop_recs L (ops.map Op.toRec) r _ _ 0 to.length (by simpa using h)
    (by intro x hx; obtain ⟨op, _, rfl⟩ := List.mem_map.1 hx; constructor <;> simp [Op.toRec]) hO

/-- Sequential patches, whatever their records. -/
theorem infoSequential_recs (lib : Lib) (dfInfo : Int → Bytes → Except PyErr Unit) (c : Compression) (L : Delivers (lib.codecOf c).decomp)
    (patch rest body b : Bytes) (toSize d : Int) (n : Nat) (recs : List Rec) (hh : readHeaderSequential patch = .ok (c, toSize, rest)) (h0 : toSize ≠ 0)
    (hO : L.owes ((lib.codecOf c).initDecomp rest.length) rest body)
    (hd : Detools.unpackSizeWithLength body = .ok (d, n, b)) (hd0 : d ≤ 0) (hR : Recs toSize b recs [])
    (hn : ∀ x ∈ recs, 0 ≤ x.diffSize ∧ 0 ≤ x.extraSize) :
    ∃ F, ∀ fuel, F ≤ fuel → infoSequential lib dfInfo fuel patch = .ok ⟨patch.length, c, d, none, describe toSize recs⟩ := by
  obtain ⟨F1, r1, e1, o1⟩ := PatchReader.unpackSize_ok' L { st := (lib.codecOf c).initDecomp rest.length, file := rest } body d b hO
    (by simp [Detools.unpackSize, hd, bind, Except.bind, pure, Except.pure])
  obtain ⟨F2, r2, e2, o2⟩ := infoLoop_recs L recs r1 b [] 0 toSize (by simpa using hR) hn o1
  refine ⟨max F1 F2, fun fuel hf => ?_⟩
  have he := (L.eof_iff o2).2 rfl
  have hnd : ¬ (d > 0) := by omega
  simp only [infoSequential, hh, bind, Except.bind, h0, if_false, infoDataFormat, e1 fuel (by omega), hnd, pure, Except.pure,
    e2 fuel (by omega), he, not_true]

theorem infoSequential_df (lib : Lib) (dfInfo : Int → Bytes → Except PyErr Unit) (c : Compression) (L : Delivers (lib.codecOf c).decomp)
    (patch rest body dfpatch b : Bytes) (toSize number : Int) (recs : List Rec) (hh : readHeaderSequential patch = .ok (c, toSize, rest)) (h0 : toSize ≠ 0)
    (hO : L.owes ((lib.codecOf c).initDecomp rest.length) rest body)
    (hb : body = packSize dfpatch.length ++ (packSize number ++ (dfpatch ++ b))) (hne : dfpatch ≠ []) (hdf : dfInfo number dfpatch = .ok ())
    (hR : Recs toSize b recs [])
    (hn : ∀ x ∈ recs, 0 ≤ x.diffSize ∧ 0 ≤ x.extraSize) :
    ∃ F, ∀ fuel, F ≤ fuel → infoSequential lib dfInfo fuel patch =
      .ok ⟨patch.length, c, dfpatch.length, some number, describe toSize recs⟩ := by
  subst hb
  obtain ⟨F1, r1, e1, o1⟩ := PatchReader.unpackSize_ok L { st := (lib.codecOf c).initDecomp rest.length, file := rest } _ _ hO
  obtain ⟨F2, r2, e2, o2⟩ := PatchReader.unpackSize_ok L r1 _ _ o1
  obtain ⟨F3, r3, e3, o3⟩ := PatchReader.read_ok L r2 _ _ o2
  obtain ⟨F4, r4, e4, o4⟩ := infoLoop_recs L recs r3 b [] 0 toSize (by simpa using hR) hn o3
  refine ⟨max F1 (max F2 (max F3 F4)), fun fuel hf => ?_⟩
  have he := (L.eof_iff o4).2 rfl
  have hp : (dfpatch.length : Int) > 0 := by
    have : 0 < dfpatch.length := List.length_pos_iff.2 hne
    omega
  simp only [infoSequential, hh, bind, Except.bind, h0, if_false, infoDataFormat, e1 fuel (by omega), hp, if_true, pure, Except.pure,
    e2 fuel (by omega), Int.toNat_natCast, e3 fuel (by omega), hdf, e4 fuel (by omega), he, not_true]

/-! ### In-place -/

theorem infoSegments_ok {D : Decompressor} (L : Delivers D) (knows : Int → Bool) (fr to : Bytes) (seg shift : Nat) (opss : List (List Op)) :
    ∀ (i : Nat) (r : PatchReader D) (tail : Bytes), SegOps fr to seg shift i opss → L.owes r.st r.file (encodeSegments opss ++ tail) →
    ∃ F r', (∀ fuel, F ≤ fuel → infoSegments knows fuel seg to.length opss.length i r =
        .ok (describeSegments seg to.length i opss, r')) ∧ L.owes r'.st r'.file tail := by
  induction opss with
  | nil =>
    intro i r tail _ hO
    exact ⟨0, r, fun fuel _ => rfl, by simpa [encodeSegments] using hO⟩
  | cons ops opss ih =>
    intro i r tail hS hO
    obtain ⟨hi, hR, hS'⟩ := hS
    rw [show encodeSegments (ops :: opss) ++ tail = packSize 0 ++ (encodeOps ops ++ (encodeSegments opss ++ tail)) by
      simp [encodeSegments]] at hO
    obtain ⟨F1, r1, e1, o1⟩ := PatchReader.unpackSize_ok L r _ _ hO
    obtain ⟨F2, r2, e2, o2⟩ := infoLoop_ops L ops r1 _ _ _ _ hR o1
    obtain ⟨F3, r3, e3, o3⟩ := ih (i + 1) r2 tail hS' o2
    refine ⟨max F1 (max F2 F3), r3, fun fuel hf => ?_, o3⟩
    have hm : (min (seg : Int) (to.length - i * seg)) = ((min seg (to.length - i * seg) : Nat) : Int) := by
      rw [show (i : Int) * seg = (i * seg : Nat) by simp]
      generalize i * seg = p at hi ⊢
      omega
    have e2' := e2 fuel (by omega)
    simp only [List.length_take, List.length_drop] at e2'
    simp only [List.length_cons, infoSegments, bind, Except.bind, e1 fuel (by omega)]
    simp only [hm]
    rw [if_neg (by omega)]
    simp only [e2', e3 fuel (by omega), pure, Except.pure, describeSegments]

end Detools
