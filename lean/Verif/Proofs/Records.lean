import Verif.Proofs.Varint
import Verif.Spec.Records
import Verif.Spec.Ops

namespace Detools

theorem unpackSizeWithLength_append {q : Bytes} {v : Int} {k : Nat} {t : Bytes}
    (h : unpackSizeWithLength q = .ok (v, k, t)) (z : Bytes) : unpackSizeWithLength (q ++ z) = .ok (v, k, t ++ z) := by
  obtain ⟨c, rfl, h3, _, h4⟩ := unpackSizeWithLength_consumes q v k t h
  rw [List.append_assoc, h4]

theorem Recs.unique {left q recs rest recs' rest'} (h : Recs left q recs rest) (h' : Recs left q recs' rest') :
    recs = recs' ∧ rest = rest' := by
  induction h generalizing recs' rest' with
  | done hl =>
    cases h' with
    | done _ => exact ⟨rfl, rfl⟩
    | record h => omega
  | @record left body b1 b2 b3 rest r rs g0 g1 g2 g3 g4 g5 g6 g7 g8 ih =>
    cases h' with
    | done h => omega
    | @record _ _ c1 c2 c3 _ r' rs' k0 k1 k2 k3 k4 k5 k6 k7 k8 =>
      have e1 := g1.symm.trans k1
      simp only [Except.ok.injEq, Prod.mk.injEq] at e1
      obtain ⟨a1, a2, a3⟩ := e1
      obtain ⟨a4, rfl⟩ := List.append_inj a3 (by rw [g3, k3, a1])
      have e2 := g4.symm.trans k4
      simp only [Except.ok.injEq, Prod.mk.injEq] at e2
      obtain ⟨b1', b2', b3'⟩ := e2
      obtain ⟨b4, rfl⟩ := List.append_inj b3' (by rw [g6, k6, b1'])
      have e3 := g7.symm.trans k7
      simp only [Except.ok.injEq, Prod.mk.injEq] at e3
      obtain ⟨c1', c2', rfl⟩ := e3
      have hr : r = r' := by
        cases r; cases r'; simp only at *; subst a1 a2 a4 b1' b2' b4 c1' c2'; rfl
      subst hr
      obtain ⟨rfl, rfl⟩ := ih k8
      exact ⟨rfl, rfl⟩

theorem Recs.append {left q recs rest} (h : Recs left q recs rest) (z : Bytes) : Recs left (q ++ z) recs (rest ++ z) := by
  induction h with
  | done hl => exact .done hl
  | @record _ _ b1 b2 _ _ _ _ g0 g1 g2 g3 g4 g5 g6 g7 _ ih =>
    refine .record (b1 := b1 ++ z) (b2 := b2 ++ z) g0 ?_ g2 g3 ?_ g5 g6 (unpackSizeWithLength_append g7 z) ih
    · rw [unpackSizeWithLength_append g1 z, List.append_assoc]
    · rw [unpackSizeWithLength_append g4 z, List.append_assoc]

/-- No strict prefix of a body has all its records. -/
theorem Recs.not_prefix {left q z recs recs' rest'} (h : Recs left (q ++ z) recs []) (h' : Recs left q recs' rest') : z = [] := by
  have := (h.unique (h'.append z)).2
  simp at this
  exact this.2

/-- The records of a created patch. -/
def Op.toRec (op : Op) : Rec where
  diffSize := op.diff.length
  diff := op.diff
  extraSize := op.extra.length
  extra := op.extra
  adjustment := op.adjustment
  diffLen := (packSize op.diff.length).length
  extraLen := (packSize op.extra.length).length
  adjLen := (packSize op.adjustment).length

theorem Rebuilds.recs (fr : Bytes) (clamp : Bool) : ∀ (ops : List Op) (pos : Int) (to z : Bytes), Rebuilds fr pos ops to →
    Recs to.length (encodeOps ops ++ z) (ops.map Op.toRec) z ∧
    rebuild clamp fr pos.toNat (ops.map Op.toRec) = some to := by
  intro ops
  induction ops with
  | nil =>
    intro pos to z h
    simp only [Rebuilds] at h
    subst h
    exact ⟨by simpa [encodeOps] using Recs.done (by simp), rfl⟩
  | cons op ops ih =>
    intro pos to z h
    obtain ⟨hne, hp, h1, h2, h3, rest, hto, h4⟩ := h
    obtain ⟨i1, i2⟩ := ih _ rest z h4
    have henc : encodeOps (op :: ops) ++ z = packSize op.diff.length ++ (op.diff ++ (packSize op.extra.length ++
        (op.extra ++ (packSize op.adjustment ++ (encodeOps ops ++ z))))) := by
      simp [encodeOps, Op.chunks]
    have hlz : (List.zipWith (fun a b : UInt8 => a + b) op.diff (fr.drop pos.toNat)).length = op.diff.length := by
      simp; omega
    have hlen : to.length = op.diff.length + op.extra.length + rest.length := by
      rw [hto, List.length_append, List.length_append, hlz]
    refine ⟨?_, ?_⟩
    · rw [henc, List.map_cons]
      refine Recs.record (r := op.toRec) (b1 := packSize op.extra.length ++ (op.extra ++ (packSize op.adjustment ++ (encodeOps ops ++ z))))
        (b2 := packSize op.adjustment ++ (encodeOps ops ++ z)) (b3 := encodeOps ops ++ z) ?_ (unpackSizeWithLength_packSize _ _) ?_ ?_ (unpackSizeWithLength_packSize _ _) ?_ ?_ (unpackSizeWithLength_packSize _ _) ?_
      · have := List.length_pos_iff.2 hne; omega
      · simp only [Op.toRec]; omega
      · simp [Op.toRec]
      · simp only [Op.toRec]; omega
      · simp [Op.toRec]
      · have : (to.length : Int) - (op.toRec.diff.length : Int) - op.toRec.extra.length = rest.length := by
          simp only [Op.toRec]; omega
        rw [this]; exact i1
    · rw [List.map_cons, rebuild, if_neg, if_neg]
      · have e : (pos.toNat : Int) + (op.toRec.diff.length : Int) + op.toRec.adjustment = pos + op.diff.length + op.adjustment := by
          simp only [Op.toRec]; omega
        rw [e, i2, hto]
        simp [Op.toRec]
      · simp only [Op.toRec]; omega
      · simp only [Op.toRec]; omega

end Detools
