import Verif.Model.PyInfoText
import Verif.Spec.InfoText
import Verif.Spec.Info
import Verif.Proofs.PyInPlaceExact
import Verif.Proofs.DfArch
/-
Lemmas for C57.
-/
namespace Detools

/-! ### Data format patches -/

theorem loadBlocksIf_eq (header : Option (List (Int × Int × Int))) (f : Bytes) :
    loadBlocksIf header f = (fromFpatchIf header f).map fun r => ((r.1, f.length - r.2.length), r.2) := by
  cases header with
  | none => simp [loadBlocksIf, fromFpatchIf, Except.map]
  | some h =>
    simp only [loadBlocksIf, fromFpatchIf, loadBlocks, bind, Except.bind, pure, Except.pure]
    cases blocksFromFpatch h f <;> rfl

theorem loadBlocksAll_eq : ∀ (hs : List (List (Int × Int × Int))) (f : Bytes),
    (loadBlocksAll hs f).map (fun bs => bs.map (·.1)) = (blocksFromFpatchAll hs f).map (·.1)
  | [], f => rfl
  | h :: hs, f => by
    simp only [loadBlocksAll, loadBlocks, blocksFromFpatchAll, bind, Except.bind, pure, Except.pure]
    cases blocksFromFpatch h f with
    | error e => rfl
    | ok r =>
      have := loadBlocksAll_eq hs r.2
      simp only
      revert this
      cases loadBlocksAll hs r.2 <;> cases blocksFromFpatchAll hs r.2 <;> intro this <;> simp only [Except.map, Except.ok.injEq, Except.error.injEq, reduceCtorEq] at this ⊢
      · exact this
      · simp [this]

theorem dataBytes_length (blocks : List Block) : (dataBytes blocks).length = valueBytes blocks := by
  unfold dataBytes valueBytes
  rw [List.length_flatMap]

theorem zip_names (names : List String) (bs : List (List Block × Nat)) (hn : names.length = bs.length) :
    (List.zipWith (fun name b => (name, formatBlocks b.1 b.2)) names bs).map (·.1) = names ∧
    (List.zipWith (fun name b => (name, formatBlocks b.1 b.2)) names bs).map (fun x => x.2.blocks) =
      (bs.map (·.1)).map shownBlocks := by
  induction bs generalizing names with
  | nil =>
    cases names with
    | nil => exact ⟨rfl, rfl⟩
    | cons n ns => cases hn
  | cons b bs ih =>
    cases names with
    | nil => cases hn
    | cons n ns =>
      have := ih ns (by simpa using hn)
      refine ⟨?_, ?_⟩
      · rw [List.zipWith_cons_cons, List.map_cons, this.1]
      · rw [List.zipWith_cons_cons, List.map_cons, this.2]; rfl

theorem unpackBlocksHeaders_length : ∀ (n : Nat) (f : Bytes) (hs : List (List (Int × Int × Int))) (r : Bytes),
    unpackBlocksHeaders n f = .ok (hs, r) → hs.length = n
  | 0, f, hs, r, h => by
    simp only [unpackBlocksHeaders, Except.ok.injEq, Prod.mk.injEq] at h
    rw [← h.1]; rfl
  | n + 1, f, hs, r, h => by
    simp only [unpackBlocksHeaders, Except.bind_ok_iff] at h
    obtain ⟨⟨a, f1⟩, _, ⟨as, f2⟩, h2, h3⟩ := h
    simp only [pure, Except.pure, Except.ok.injEq, Prod.mk.injEq] at h3
    rw [← h3.1, List.length_cons, unpackBlocksHeaders_length n f1 as f2 h2]

theorem blocksFromFpatchAll_length : ∀ (hs : List (List (Int × Int × Int))) (f : Bytes) (bs : List (List Block)) (r : Bytes),
    blocksFromFpatchAll hs f = .ok (bs, r) → bs.length = hs.length
  | [], f, bs, r, h => by
    simp only [blocksFromFpatchAll, Except.ok.injEq, Prod.mk.injEq] at h
    rw [← h.1]; rfl
  | x :: hs, f, bs, r, h => by
    simp only [blocksFromFpatchAll, Except.bind_ok_iff] at h
    obtain ⟨⟨a, f1⟩, _, ⟨as, f2⟩, h2, h3⟩ := h
    simp only [pure, Except.pure, Except.ok.injEq, Prod.mk.injEq] at h3
    rw [← h3.1, List.length_cons, List.length_cons, blocksFromFpatchAll_length hs f1 as f2 h2]


theorem loadBlocksAll_ok : ∀ (tws : List Tw) (rest : Bytes),
    loadBlocksAll (tws.map (fun x => x.blocks.map Block.entry)) ((tws.map fun x => dataBytes x.blocks).flatten ++ rest) =
      .ok (tws.map fun x => (x.blocks, valueBytes x.blocks))
  | [], rest => rfl
  | x :: tws, rest => by
    have := blocksFromFpatch_ok x.blocks ((tws.map fun x => dataBytes x.blocks).flatten ++ rest)
    have hl := dataBytes_length x.blocks
    simp only [List.map_cons, loadBlocksAll, loadBlocks, List.flatten_cons, List.append_assoc, bind, Except.bind]
    rw [dataBytes] at *
    rw [this]
    simp only [loadBlocksAll_ok tws rest, pure, Except.pure]
    rw [List.length_append, hl, Nat.add_sub_cancel]

theorem loadBlocksIf_ok (present : Bool) (x : Tw) (h : present = false → x.qs = []) (rest : Bytes) :
    loadBlocksIf (if present then some (x.blocks.map Block.entry) else none) ((ptrBytes present x).2 ++ rest) =
      .ok ((x.blocks, valueBytes x.blocks), rest) := by
  rw [loadBlocksIf_eq, fromFpatchIf_ok present x h]
  simp only [Except.map]
  cases present with
  | true => simp [ptrBytes, Tw.bytes, dataBytes_length]
  | false =>
    have : x.blocks = [] := by simp [Tw.blocks, h rfl]
    simp [ptrBytes, this, valueBytes]

/-- `info` on what `create_patch_block` made. -/
theorem info_ok {A : Arch} {seg : DataSegment} (hs : seg.Ok) (names : List String) (xd xc : Tw) (tws : List Tw) (hn : tws.length = A.kinds.length)
    (hd : seg.from_.dataEnd = 0 → xd.qs = []) (hc : seg.from_.codeEnd = 0 → xc.qs = []) :
    A.info names (tableBytes seg.from_ xd xc tws) =
      .ok ⟨List.zipWith (fun name b => (name, formatBlocks b (valueBytes b))) names (tws.map Tw.blocks),
        if seg.from_.dataEnd = 0 then none
          else some (seg.from_.offsetBegin, seg.from_.dataBegin, seg.from_.dataEnd, formatBlocks xd.blocks (valueBytes xd.blocks)),
        if seg.from_.codeEnd = 0 then none
          else some (seg.from_.codeBegin, seg.from_.codeEnd, formatBlocks xc.blocks (valueBytes xc.blocks))⟩ := by
  have e : tableBytes seg.from_ xd xc tws = dataHead seg.from_ ++ (codeHead seg.from_ ++ ((ptrBytes (decide (seg.from_.dataEnd ≠ 0)) xd).1 ++
      ((ptrBytes (decide (seg.from_.codeEnd ≠ 0)) xc).1 ++ ((tws.map fun x => headerBytes x.blocks).flatten ++
        ((ptrBytes (decide (seg.from_.dataEnd ≠ 0)) xd).2 ++ ((ptrBytes (decide (seg.from_.codeEnd ≠ 0)) xc).2 ++
          ((tws.map fun x => dataBytes x.blocks).flatten ++ []))))))) := by
    simp [tableBytes, Tw.bytes, Function.comp_def]
  obtain ⟨h, h1, h2, h3, h4⟩ := unpackPointersHeader_ok hs xd xc ((tws.map fun x => headerBytes x.blocks).flatten ++
        ((ptrBytes (decide (seg.from_.dataEnd ≠ 0)) xd).2 ++ ((ptrBytes (decide (seg.from_.codeEnd ≠ 0)) xc).2 ++
          ((tws.map fun x => dataBytes x.blocks).flatten ++ []))))
  rw [e]
  simp only [Arch.info, h1, bind, Except.bind, ← hn, unpackBlocksHeaders_ok, h3, h4]
  rw [loadBlocksIf_ok _ _ (fun h => hd (by simpa using h))]
  simp only
  rw [loadBlocksIf_ok _ _ (fun h => hc (by simpa using h))]
  simp only [loadBlocksAll_ok, pure, Except.pure, formatPointers, h3, h4, Except.ok.injEq, DetailsShown.mk.injEq]
  refine ⟨?_, ?_, ?_⟩
  · rw [List.zipWith_map_right, List.zipWith_map_right]
  · have h2' := congrArg (fun r : Ranges => (r.offsetBegin, r.dataBegin, r.dataEnd)) h2
    simp only [PointersHeader.ranges, Ranges.applied, Prod.mk.injEq] at h2'
    by_cases h0 : seg.from_.dataEnd = 0
    · simp [h0]
    · simp only [ne_eq, h0, not_false_eq_true, if_true] at h2'
      simp [h0, h2'.1, h2'.2.1, h2'.2.2]
  · have h2' := congrArg (fun r : Ranges => (r.codeBegin, r.codeEnd)) h2
    simp only [PointersHeader.ranges, Ranges.applied, Prod.mk.injEq] at h2'
    by_cases h0 : seg.from_.codeEnd = 0
    · simp [h0]
    · simp only [ne_eq, h0, not_false_eq_true, if_true] at h2'
      simp [h0, h2'.1, h2'.2]

/-! ### Segments -/

theorem natCast_sum (f : α → Nat) : ∀ l : List α, (l.map fun x => (f x : Int)).sum = ((l.map f).sum : Nat)
  | [] => rfl
  | x :: l => by simp [natCast_sum f l]

theorem segmentsShown_length (h : InPlaceHeader) : ∀ (l : List (Int × Option Int × RecordsInfo)) (i : Nat), (segmentsShown h i l).length = l.length
  | [], i => rfl
  | s :: l, i => by simp [segmentsShown, segmentsShown_length h l]

theorem segmentsShown_getElem? (h : InPlaceHeader) : ∀ (l : List (Int × Option Int × RecordsInfo)) (i j : Nat),
    (segmentsShown h i l)[j]? = l[j]?.map (segmentShown h (i + j))
  | [], i, j => rfl
  | s :: l, i, 0 => rfl
  | s :: l, i, j + 1 => by
    simp only [segmentsShown, List.getElem?_cons_succ, segmentsShown_getElem? h l (i + 1) j]
    rw [show i + 1 + j = i + (j + 1) by omega]

theorem describeSegments_getElem? (seg n : Nat) : ∀ (opss : List (List Op)) (i j : Nat),
    (describeSegments seg n i opss)[j]? = opss[j]?.map fun ops => (0, none, describeOps ((min seg (n - (i + j) * seg) : Nat) : Int) ops)
  | [], i, j => rfl
  | ops :: opss, i, 0 => rfl
  | ops :: opss, i, j + 1 => by
    simp only [describeSegments, List.getElem?_cons_succ, describeSegments_getElem? seg n opss (i + 1) j]
    rw [show i + 1 + j = i + (j + 1) by omega]

theorem describeSegments_length (seg n : Nat) : ∀ (opss : List (List Op)) (i : Nat), (describeSegments seg n i opss).length = opss.length
  | [], i => rfl
  | ops :: opss, i => by simp [describeSegments, describeSegments_length seg n opss]

theorem SegOps.getElem? {fr to : Bytes} {seg shift : Nat} : ∀ (opss : List (List Op)) (i j : Nat) (ops : List Op),
    SegOps fr to seg shift i opss → opss[j]? = some ops →
    (i + j) * seg < to.length ∧ Rebuilds (fr.drop (seg * (i + j + 1) - shift)) 0 ops ((to.drop ((i + j) * seg)).take seg)
  | [], i, j, ops, _, h => by cases h
  | o :: opss, i, 0, ops, hs, h => by cases h; exact ⟨hs.1, hs.2.1⟩
  | o :: opss, i, j + 1, ops, hs, h => by
    have := SegOps.getElem? opss (i + 1) j ops hs.2.2 h
    rw [show i + 1 + j = i + (j + 1) by omega] at this
    exact this

end Detools
