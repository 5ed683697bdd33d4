import Verif.Proofs.DfRound
import Verif.Model.DataFormatArch
import Verif.Spec.Sequential
/-
The data format round trip, for any disassembler that finds the right bytes.
-/
namespace Detools

/-! ### Addresses -/

/-- What `pack_usize` returns. -/
def usizeBytes (v : Int) : Bytes := packSize (reinterpretSigned v.toNat)

theorem signed_range {v : Int} (h : Address v) : Packs (reinterpretSigned v.toNat) := by
  obtain ⟨h1, h2, h3⟩ := h
  have : v.toNat ≠ 2 ^ 63 := by omega
  unfold reinterpretSigned
  constructor <;> split <;> omega

theorem packUsize_ok {v : Int} (h : Address v) : packUsize v = .ok (usizeBytes v) := by
  unfold packUsize
  rw [if_neg (by obtain ⟨h1, h2, h3⟩ := h; omega), pyPackSize_ok (signed_range h)]
  rfl

theorem unpackUsize_ok {v : Int} (h : Address v) (rest : Bytes) : unpackUsize (usizeBytes v ++ rest) = .ok (v.toNat, rest) := by
  have hr := signed_range h
  unfold unpackUsize usizeBytes
  rw [unpackSize_packSize]
  simp only [bind, Except.bind, pure, Except.pure]
  rw [if_neg (by obtain ⟨h1, h2⟩ := hr; omega), reinterpret_roundtrip _ (by obtain ⟨h1, h2, h3⟩ := h; omega)]

theorem usizeBytes_length {v : Int} (h : Address v) : (usizeBytes v).length ≤ 10 :=
  packSize_length_le _ (by obtain ⟨h1, h2⟩ := signed_range h; omega)

/-! ### All tables -/

/-- A table with the pieces found. -/
structure Tw where
  tab : Tab
  qs : List Piece

def Tw.blocks (x : Tw) : List Block := x.qs.map Piece.block
def Tw.work (x : Tw) : Work := ⟨x.tab.kind, x.tab.fd, x.blocks⟩
def Tw.bytes (x : Tw) : Bytes × Bytes := (headerBytes x.blocks, dataBytes x.blocks)
def Tw.fromCov (x : Tw) : Nat → Prop := Detools.fromCov x.tab.kind.width x.qs
def Tw.toCov (x : Tw) : Nat → Prop := Detools.toCov x.tab.kind.width x.qs

/-- The pieces are pieces of the table. -/
structure Tw.Ok (fr to : Bytes) (x : Tw) : Prop where
  tab : x.tab.Ok fr to
  pieces : ∀ q ∈ x.qs, q.Ok x.tab.fd x.tab.td
  header : (headerBytes x.blocks).length ≤ 2 ^ 55
  data : (dataBytes x.blocks).length ≤ 2 ^ 55

theorem createPatchBlocks_ok {sm : Matcher} (hsm : sm.Ok) {fr to : Bytes} (hfr : fr.length < 2 ^ 50) (hto : to.length < 2 ^ 50) :
    ∀ (tabs : List Tab) (C D : Nat → Prop) (f t : Bytes), (∀ T ∈ tabs, T.Ok fr to) → Hides fr C f → Hides to D t →
    ∃ tws : List Tw, ∃ f' t', tws.map Tw.tab = tabs ∧ (∀ x ∈ tws, x.Ok fr to) ∧
      createPatchBlocks sm (tabs.map Tab.kind) (tabs.map Tab.fd) (tabs.map Tab.td) f t = .ok (tws.map Tw.bytes, f', t') ∧
      Hides fr (fun p => C p ∨ ∃ x ∈ tws, x.fromCov p) f' ∧ Hides to (fun p => D p ∨ ∃ x ∈ tws, x.toCov p) t'
  | [], C, D, f, t, _, hf, ht => ⟨[], f, t, rfl, by simp, rfl, hf.congr (by simp), ht.congr (by simp)⟩
  | T :: tabs, C, D, f, t, hT, hf, ht => by
    obtain ⟨qs, f1, t1, g1, g2, g3, g4, g5, g6⟩ := createPatchBlock_ok hsm (hT T (by simp)) hfr hto hf ht
    obtain ⟨tws, f2, t2, k1, k2, k3, k4, k5⟩ := createPatchBlocks_ok hsm hfr hto tabs _ _ f1 t1 (fun T' h => hT T' (by simp [h])) g3 g4
    refine ⟨⟨T, qs⟩ :: tws, f2, t2, by simp [k1], ?_, ?_, ?_, ?_⟩
    · intro x hx
      rcases List.mem_cons.1 hx with rfl | hx
      · exact ⟨hT T (by simp), g2, g5, g6⟩
      · exact k2 x hx
    · simp only [List.map_cons, createPatchBlocks, g1, k3, bind, Except.bind, pure, Except.pure]
      rfl
    · exact k4.congr (fun p => by simp [Tw.fromCov, or_assoc])
    · exact k5.congr (fun p => by simp [Tw.toCov, or_assoc])

theorem writeAllValues_ok {fr to : Bytes} : ∀ (tws : List Tw) (C : Nat → Prop) (f : Bytes), (∀ x ∈ tws, x.Ok fr to) → Shows to C f →
    ∃ f', writeAllValues (tws.map Tw.work) f = .ok f' ∧ Shows to (fun p => C p ∨ ∃ x ∈ tws, x.toCov p) f'
  | [], C, f, _, h => ⟨f, rfl, h.congr (by simp)⟩
  | x :: tws, C, f, hx, h => by
    have h0 := hx x (by simp)
    obtain ⟨f1, g1, g2⟩ := writeValues_ok h0.tab x.qs C f h0.pieces h
    obtain ⟨f2, g3, g4⟩ := writeAllValues_ok tws _ f1 (fun y hy => hx y (by simp [hy])) g2
    refine ⟨f2, ?_, g4.congr (fun p => by simp [Tw.toCov, or_assoc])⟩
    simp only [List.map_cons, writeAllValues, Tw.work, Tw.blocks, g1, bind, Except.bind]
    exact g3

theorem writeAllZeros_ok {fr to : Bytes} : ∀ (tws : List Tw) (C : Nat → Prop) (f : Bytes), (∀ x ∈ tws, x.Ok fr to) → Hides fr C f →
    ∃ f', writeAllZeros (tws.map Tw.work) f = .ok f' ∧ Hides fr (fun p => C p ∨ ∃ x ∈ tws, x.fromCov p) f'
  | [], C, f, _, h => ⟨f, rfl, h.congr (by simp)⟩
  | x :: tws, C, f, hx, h => by
    have h0 := hx x (by simp)
    obtain ⟨f1, g1, g2⟩ := writeZeros_ok h0.tab x.qs C f h0.pieces h
    obtain ⟨f2, g3, g4⟩ := writeAllZeros_ok tws _ f1 (fun y hy => hx y (by simp [hy])) g2
    refine ⟨f2, ?_, g4.congr (fun p => by simp [Tw.fromCov, or_assoc])⟩
    simp only [List.map_cons, writeAllZeros, Tw.work, Tw.blocks, g1, bind, Except.bind]
    exact g3

theorem works_eq : ∀ (tws : List Tw), works (tws.map (·.tab.kind)) (tws.map (·.tab.fd)) (tws.map Tw.blocks) = tws.map Tw.work
  | [] => rfl
  | x :: tws => by simp only [List.map_cons, works, works_eq tws]; rfl

theorem unpackBlocksHeaders_ok : ∀ (tws : List Tw) (rest : Bytes),
    unpackBlocksHeaders tws.length ((tws.map fun x => headerBytes x.blocks).flatten ++ rest) =
      .ok (tws.map (fun x => x.blocks.map Block.entry), rest)
  | [], rest => rfl
  | x :: tws, rest => by
    simp only [List.length_cons, unpackBlocksHeaders, List.map_cons, List.flatten_cons, List.append_assoc, unpackBlocksHeader_ok,
      unpackBlocksHeaders_ok tws rest, bind, Except.bind, pure, Except.pure]

theorem blocksFromFpatchAll_ok : ∀ (tws : List Tw) (rest : Bytes),
    blocksFromFpatchAll (tws.map (fun x => x.blocks.map Block.entry)) ((tws.map fun x => dataBytes x.blocks).flatten ++ rest) =
      .ok (tws.map Tw.blocks, rest)
  | [], rest => rfl
  | x :: tws, rest => by
    have := blocksFromFpatch_ok x.blocks ((tws.map fun x => dataBytes x.blocks).flatten ++ rest)
    simp only [List.map_cons, blocksFromFpatchAll, List.flatten_cons, List.append_assoc, bind, Except.bind]
    rw [dataBytes, this]
    simp only [blocksFromFpatchAll_ok tws rest, pure, Except.pure]

/-! ### Pointers -/

/-- Bytes of blocks that are there or not. -/
def ptrBytes (present : Bool) (x : Tw) : Bytes × Bytes := if present then x.bytes else ([], [])

theorem unpackHeaderIf_ok (present : Bool) (x : Tw) (rest : Bytes) :
    unpackHeaderIf present ((ptrBytes present x).1 ++ rest) = .ok (if present then some (x.blocks.map Block.entry) else none, rest) := by
  cases present
  · rfl
  · simp only [unpackHeaderIf, ptrBytes, Tw.bytes, if_true, unpackBlocksHeader_ok, bind, Except.bind, pure, Except.pure]

theorem fromFpatchIf_ok (present : Bool) (x : Tw) (h : present = false → x.qs = []) (rest : Bytes) :
    fromFpatchIf (if present then some (x.blocks.map Block.entry) else none) ((ptrBytes present x).2 ++ rest) = .ok (x.blocks, rest) := by
  cases present
  · simp [fromFpatchIf, ptrBytes, Tw.blocks, h rfl]
  · simp only [fromFpatchIf, ptrBytes, Tw.bytes, if_true]
    exact blocksFromFpatch_ok x.blocks rest

/-- The header of the data pointers. -/
def dataHead (r : Ranges) : Bytes :=
  if r.dataEnd ≠ 0 then 1 :: (usizeBytes r.offsetBegin ++ usizeBytes r.dataBegin ++ usizeBytes r.dataEnd) else [0]

/-- The header of the code pointers. -/
def codeHead (r : Ranges) : Bytes :=
  if r.codeEnd ≠ 0 then 1 :: (usizeBytes r.codeBegin ++ usizeBytes r.codeEnd) else [0]

/-- The ranges when applying. -/
def Ranges.applied (r : Ranges) : Ranges :=
  { offsetBegin := if r.dataEnd ≠ 0 then r.offsetBegin else 0
    offsetEnd := if r.dataEnd ≠ 0 then r.offsetBegin + r.dataEnd - r.dataBegin else 0
    dataBegin := if r.dataEnd ≠ 0 then r.dataBegin else 0
    dataEnd := if r.dataEnd ≠ 0 then r.dataEnd else 0
    codeBegin := if r.codeEnd ≠ 0 then r.codeBegin else 0
    codeEnd := if r.codeEnd ≠ 0 then r.codeEnd else 0 }

theorem unpackPointersHeader_ok {seg : DataSegment} (hs : seg.Ok) (xd xc : Tw) (rest : Bytes) :
    ∃ h, unpackPointersHeader (dataHead seg.from_ ++ (codeHead seg.from_ ++ ((ptrBytes (decide (seg.from_.dataEnd ≠ 0)) xd).1 ++
      ((ptrBytes (decide (seg.from_.codeEnd ≠ 0)) xc).1 ++ rest)))) = .ok (h, rest) ∧ h.ranges = seg.from_.applied ∧
      h.dataHeader = (if decide (seg.from_.dataEnd ≠ 0) = true then some (xd.blocks.map Block.entry) else none) ∧
      h.codeHeader = (if decide (seg.from_.codeEnd ≠ 0) = true then some (xc.blocks.map Block.entry) else none) := by
  have o0 := hs.offset.1
  have d0 := hs.dataBegin.1
  have d1 := hs.dataEnd.1
  have c0 := hs.codeBegin.1
  have c1 := hs.codeEnd.1
  by_cases hd : seg.from_.dataEnd = 0
  · by_cases hc : seg.from_.codeEnd = 0
    · refine ⟨⟨none, none, 0, 0, 0, 0, 0⟩, ?_, ?_, ?_, ?_⟩
      · simp [unpackPointersHeader, dataHead, codeHead, hd, hc, readFlag, unpackDataRange, unpackCodeRange, ptrBytes, unpackHeaderIf, bind, Except.bind, pure, Except.pure]
      · simp [PointersHeader.ranges, Ranges.applied, hd, hc]
      · simp [hd]
      · simp [hc]
    · refine ⟨⟨none, some (xc.blocks.map Block.entry), 0, 0, 0, seg.from_.codeBegin.toNat, seg.from_.codeEnd.toNat⟩, ?_, ?_, ?_, ?_⟩
      · simp [unpackPointersHeader, dataHead, codeHead, hd, hc, readFlag, unpackDataRange, unpackCodeRange, ptrBytes, unpackHeaderIf, bind, Except.bind, pure, Except.pure,
          unpackUsize_ok hs.codeBegin, unpackUsize_ok hs.codeEnd, Tw.bytes, unpackBlocksHeader_ok]
      · simp [PointersHeader.ranges, Ranges.applied, hd, hc]; omega
      · simp [hd]
      · simp [hc]
  · by_cases hc : seg.from_.codeEnd = 0
    · refine ⟨⟨some (xd.blocks.map Block.entry), none, seg.from_.offsetBegin.toNat, seg.from_.dataBegin.toNat, seg.from_.dataEnd.toNat, 0, 0⟩, ?_, ?_, ?_, ?_⟩
      · simp [unpackPointersHeader, dataHead, codeHead, hd, hc, readFlag, unpackDataRange, unpackCodeRange, ptrBytes, unpackHeaderIf, bind, Except.bind, pure, Except.pure,
          unpackUsize_ok hs.dataBegin, unpackUsize_ok hs.dataEnd, unpackUsize_ok hs.offset, Tw.bytes, unpackBlocksHeader_ok]
      · simp [PointersHeader.ranges, Ranges.applied, hd, hc]; omega
      · simp [hd]
      · simp [hc]
    · refine ⟨⟨some (xd.blocks.map Block.entry), some (xc.blocks.map Block.entry), seg.from_.offsetBegin.toNat, seg.from_.dataBegin.toNat, seg.from_.dataEnd.toNat, seg.from_.codeBegin.toNat, seg.from_.codeEnd.toNat⟩, ?_, ?_, ?_, ?_⟩
      · simp [unpackPointersHeader, dataHead, codeHead, hd, hc, readFlag, unpackDataRange, unpackCodeRange, ptrBytes, unpackHeaderIf, bind, Except.bind, pure, Except.pure,
          unpackUsize_ok hs.dataBegin, unpackUsize_ok hs.dataEnd, unpackUsize_ok hs.offset, unpackUsize_ok hs.codeBegin, unpackUsize_ok hs.codeEnd, Tw.bytes, unpackBlocksHeader_ok]
      · simp [PointersHeader.ranges, Ranges.applied, hd, hc]; omega
      · simp [hd]
      · simp [hc]

theorem unpack_ok {A : Arch} {seg : DataSegment} (hs : seg.Ok) (xd xc : Tw) (tws : List Tw) (hn : tws.length = A.kinds.length)
    (hd : seg.from_.dataEnd = 0 → xd.qs = []) (hc : seg.from_.codeEnd = 0 → xc.qs = []) :
    ∃ h, A.unpack (dataHead seg.from_ ++ codeHead seg.from_ ++
        ((ptrBytes (decide (seg.from_.dataEnd ≠ 0)) xd :: ptrBytes (decide (seg.from_.codeEnd ≠ 0)) xc :: tws.map Tw.bytes).map (·.1)).flatten ++
        ((ptrBytes (decide (seg.from_.dataEnd ≠ 0)) xd :: ptrBytes (decide (seg.from_.codeEnd ≠ 0)) xc :: tws.map Tw.bytes).map (·.2)).flatten) =
      .ok (h, xd.blocks, xc.blocks, tws.map Tw.blocks) ∧ h.ranges = seg.from_.applied := by
  have e1 : (tws.map Tw.bytes).map (·.1) = tws.map fun x => headerBytes x.blocks := by simp [Tw.bytes]
  have e2 : (tws.map Tw.bytes).map (·.2) = tws.map fun x => dataBytes x.blocks := by simp [Tw.bytes]
  simp only [List.map_cons, List.flatten_cons, e1, e2, List.append_assoc]
  obtain ⟨h, h1, h2, h3, h4⟩ := unpackPointersHeader_ok hs xd xc ((tws.map fun x => headerBytes x.blocks).flatten ++
    ((ptrBytes (decide (seg.from_.dataEnd ≠ 0)) xd).2 ++ ((ptrBytes (decide (seg.from_.codeEnd ≠ 0)) xc).2 ++ (tws.map fun x => dataBytes x.blocks).flatten)))
  refine ⟨h, ?_, h2⟩
  have k1 := fromFpatchIf_ok (decide (seg.from_.dataEnd ≠ 0)) xd (fun h => hd (by simpa using h))
    ((ptrBytes (decide (seg.from_.codeEnd ≠ 0)) xc).2 ++ (tws.map fun x => dataBytes x.blocks).flatten)
  have k2 := fromFpatchIf_ok (decide (seg.from_.codeEnd ≠ 0)) xc (fun h => hc (by simpa using h))
    (tws.map fun x => dataBytes x.blocks).flatten
  have k3 := blocksFromFpatchAll_ok tws []
  rw [List.append_nil] at k3
  simp only [Arch.unpack, h1, bind, Except.bind, ← hn, unpackBlocksHeaders_ok, h3, h4, k1, k2, k3, pure, Except.pure]

/-! ### The round trip -/

theorem createPatchBlock_empty (sm : Matcher) (fd : Dict) (w : Nat) (f t : Bytes) :
    createPatchBlock sm fd [] w f t = .ok ((headerBytes [], dataBytes []), f, t) := by
  unfold createPatchBlock
  rw [if_pos (.inr rfl)]
  rfl

theorem filterMap_work (tws : List Tw) (order : List Nat) :
    order.filterMap ((tws.map Tw.work)[·]?) = (order.filterMap (tws[·]?)).map Tw.work := by
  induction order with
  | nil => rfl
  | cons i order ih =>
    rw [List.filterMap_cons, List.filterMap_cons, ih, List.getElem?_map]
    cases tws[i]? <;> simp

theorem mem_order {tws : List Tw} {order : List Nat} (h : ∀ i, i < tws.length → i ∈ order) (x : Tw) :
    x ∈ order.filterMap (tws[·]?) ↔ x ∈ tws := by
  rw [List.mem_filterMap]
  constructor
  · rintro ⟨i, _, hi⟩
    exact List.mem_of_getElem? hi
  · intro hx
    obtain ⟨i, hi, rfl⟩ := List.mem_iff_getElem.1 hx
    exact ⟨i, h i hi, List.getElem?_eq_getElem hi⟩

/-- What the round trip needs of a data format module, for given data. -/
structure Arch.Fits (A : Arch) (seg : DataSegment) (fr to : Bytes) (tabs : List Tab) : Prop where
  kinds : A.kinds = tabs.map Tab.kind
  few : tabs.length ≤ 8
  isFrom : (A.disassemble fr seg.from_).instr = tabs.map Tab.fd
  isTo : (A.disassemble to seg.to).instr = tabs.map Tab.td
  good : ∀ T ∈ tabs, T.Ok fr to
  data : Tab.Ok fr to ⟨A.pointer, (A.disassemble fr seg.from_).data, if seg.from_.dataEnd ≠ 0 then (A.disassemble to seg.to).data else []⟩
  code : Tab.Ok fr to ⟨A.pointer, (A.disassemble fr seg.from_).code, if seg.from_.codeEnd ≠ 0 then (A.disassemble to seg.to).code else []⟩
  again : A.disassemble fr seg.from_.applied = A.disassemble fr seg.from_
  order : ∀ i, i < tabs.length → i ∈ A.diffOrder

theorem sum_le (l : List Bytes) (b : Nat) (h : ∀ x ∈ l, x.length ≤ b) : l.flatten.length ≤ l.length * b := by
  induction l with
  | nil => simp
  | cons x l ih =>
    have h1 := h x (by simp)
    have h2 := ih (fun y hy => h y (by simp [hy]))
    simp only [List.flatten_cons, List.length_append, List.length_cons, Nat.succ_mul]
    omega

/-- The bytes of a data format patch with the given tables. -/
def tableBytes (r : Ranges) (xd xc : Tw) (tws : List Tw) : Bytes :=
  dataHead r ++ codeHead r ++
    ((ptrBytes (decide (r.dataEnd ≠ 0)) xd :: ptrBytes (decide (r.codeEnd ≠ 0)) xc :: tws.map Tw.bytes).map (·.1)).flatten ++
    ((ptrBytes (decide (r.dataEnd ≠ 0)) xd :: ptrBytes (decide (r.codeEnd ≠ 0)) xc :: tws.map Tw.bytes).map (·.2)).flatten

/-- The round trip, and what the data format patch is made of. -/
theorem Arch.lossless_shape {A : Arch} {sm : Matcher} (hsm : sm.Ok) {seg : DataSegment} (hs : seg.Ok) {fr to : Bytes} (hfr : fr.length < 2 ^ 50)
    (hto : to.length < 2 ^ 50) {tabs : List Tab} (hA : A.Fits seg fr to tabs) :
    ∃ fr' to' patch dfdiff, ((A.format sm seg).encode fr to = .ok (fr', to', patch) ∧
      fr'.length = fr.length ∧ to'.length = to.length ∧ patch ≠ [] ∧ patch.length < 2 ^ 62 ∧
      (A.format sm seg).readers fr patch to.length = .ok (dfdiff, fr') ∧
      dfdiff.length = to.length ∧ List.zipWith (· + ·) to' dfdiff = to) ∧
      ∃ xd xc tws, patch = tableBytes seg.from_ xd xc tws ∧ tws.length = A.kinds.length ∧
        (seg.from_.dataEnd = 0 → xd.qs = []) ∧ (seg.from_.codeEnd = 0 → xc.qs = []) := by
  have hf0 := Hides.start fr
  have ht0 := Hides.start to
  generalize hF : A.disassemble fr seg.from_ = F at *
  -- data pointers
  have stepD : ∃ qs f1 t1, createDataPointersPatchBlock sm seg.from_.offsetBegin seg.from_.dataBegin seg.from_.dataEnd F.data
      (A.disassemble to seg.to).data A.pointer.width fr to =
        .ok (dataHead seg.from_, ptrBytes (decide (seg.from_.dataEnd ≠ 0))
          ⟨⟨A.pointer, F.data, if seg.from_.dataEnd ≠ 0 then (A.disassemble to seg.to).data else []⟩, qs⟩, f1, t1) ∧
      (seg.from_.dataEnd = 0 → qs = []) ∧
      Tw.Ok fr to ⟨⟨A.pointer, F.data, if seg.from_.dataEnd ≠ 0 then (A.disassemble to seg.to).data else []⟩, qs⟩ ∧
      Hides fr (fun p => False ∨ fromCov A.pointer.width qs p) f1 ∧ Hides to (fun p => False ∨ toCov A.pointer.width qs p) t1 := by
    have hTab := hA.data
    rw [hF] at hTab
    by_cases h0 : seg.from_.dataEnd = 0
    · refine ⟨[], fr, to, ?_, fun _ => rfl, ⟨hTab, by simp, by show (headerBytes []).length ≤ _; decide, by show (dataBytes []).length ≤ _; decide⟩,
        hf0.congr (by simp [fromCov]), ht0.congr (by simp [toCov])⟩
      simp [createDataPointersPatchBlock, h0, dataHead, ptrBytes]
    · obtain ⟨qs, f1, t1, g1, g2, g3, g4, g5, g6⟩ := createPatchBlock_ok hsm hTab hfr hto hf0 ht0
      refine ⟨qs, f1, t1, ?_, fun h => (h0 h).elim, ⟨hTab, g2, g5, g6⟩, g3, g4⟩
      simp only [ne_eq, h0, not_false_eq_true, if_true] at g1
      simp only [createDataPointersPatchBlock, if_false, packUsize_ok hs.offset, packUsize_ok hs.dataBegin, packUsize_ok hs.dataEnd, bind, Except.bind,
        g1, dataHead, ptrBytes, ne_eq, h0, not_false_eq_true, if_true, decide_true, Tw.bytes, Tw.blocks, pure, Except.pure]
  obtain ⟨qd, f1, t1, d1, d2, d3, d4, d5⟩ := stepD
  -- code pointers
  have stepC : ∃ qs f2 t2, createCodePointersPatchBlock sm seg.from_.codeBegin seg.from_.codeEnd F.code
      (A.disassemble to seg.to).code A.pointer.width f1 t1 =
        .ok (codeHead seg.from_, ptrBytes (decide (seg.from_.codeEnd ≠ 0))
          ⟨⟨A.pointer, F.code, if seg.from_.codeEnd ≠ 0 then (A.disassemble to seg.to).code else []⟩, qs⟩, f2, t2) ∧
      (seg.from_.codeEnd = 0 → qs = []) ∧
      Tw.Ok fr to ⟨⟨A.pointer, F.code, if seg.from_.codeEnd ≠ 0 then (A.disassemble to seg.to).code else []⟩, qs⟩ ∧
      Hides fr (fun p => (False ∨ fromCov A.pointer.width qd p) ∨ fromCov A.pointer.width qs p) f2 ∧
      Hides to (fun p => (False ∨ toCov A.pointer.width qd p) ∨ toCov A.pointer.width qs p) t2 := by
    have hTab := hA.code
    rw [hF] at hTab
    by_cases h0 : seg.from_.codeEnd = 0
    · refine ⟨[], f1, t1, ?_, fun _ => rfl, ⟨hTab, by simp, by show (headerBytes []).length ≤ _; decide, by show (dataBytes []).length ≤ _; decide⟩,
        d4.congr (by simp [fromCov]), d5.congr (by simp [toCov])⟩
      simp [createCodePointersPatchBlock, h0, codeHead, ptrBytes]
    · obtain ⟨qs, f2, t2, g1, g2, g3, g4, g5, g6⟩ := createPatchBlock_ok hsm hTab hfr hto d4 d5
      refine ⟨qs, f2, t2, ?_, fun h => (h0 h).elim, ⟨hTab, g2, g5, g6⟩, g3, g4⟩
      simp only [ne_eq, h0, not_false_eq_true, if_true] at g1
      simp only [createCodePointersPatchBlock, if_false, packUsize_ok hs.codeBegin, packUsize_ok hs.codeEnd, bind, Except.bind,
        g1, codeHead, ptrBytes, ne_eq, h0, not_false_eq_true, if_true, decide_true, Tw.bytes, Tw.blocks, pure, Except.pure]
  obtain ⟨qc, f2, t2, c1, c2, c3, c4, c5⟩ := stepC
  generalize hxd : (⟨⟨A.pointer, F.data, if seg.from_.dataEnd ≠ 0 then (A.disassemble to seg.to).data else []⟩, qd⟩ : Tw) = xd at *
  generalize hxc : (⟨⟨A.pointer, F.code, if seg.from_.codeEnd ≠ 0 then (A.disassemble to seg.to).code else []⟩, qc⟩ : Tw) = xc at *
  -- instructions
  obtain ⟨tws, f3, t3, i1, i2, i3, i4, i5⟩ := createPatchBlocks_ok hsm hfr hto tabs _ _ f2 t2 hA.good c4 c5
  have hlen : tws.length = tabs.length := by rw [← i1, List.length_map]
  have hwd : xd.work = ⟨A.pointer, F.data, xd.blocks⟩ := by rw [← hxd]; rfl
  have hwc : xc.work = ⟨A.pointer, F.code, xc.blocks⟩ := by rw [← hxc]; rfl
  have hdq : xd.qs = qd := by rw [← hxd]
  have hcq : xc.qs = qc := by rw [← hxc]
  have hfd : ∀ p, xd.fromCov p ↔ fromCov A.pointer.width qd p := fun p => by rw [← hxd]; rfl
  have hfc : ∀ p, xc.fromCov p ↔ fromCov A.pointer.width qc p := fun p => by rw [← hxc]; rfl
  have htd : ∀ p, xd.toCov p ↔ toCov A.pointer.width qd p := fun p => by rw [← hxd]; rfl
  have htc : ∀ p, xc.toCov p ↔ toCov A.pointer.width qc p := fun p => by rw [← hxc]; rfl
  obtain ⟨h, u1, u2⟩ := unpack_ok (A := A) hs xd xc tws (by rw [hlen, hA.kinds, List.length_map]) (by rw [hdq]; exact d2) (by rw [hcq]; exact c2)
  have hall : ∀ x ∈ A.diffOrder.filterMap (tws[·]?) ++ [xd, xc], x.Ok fr to := by
    intro x hx
    rcases List.mem_append.1 hx with hx | hx
    · exact i2 x ((mem_order (by rw [hlen]; exact hA.order) x).1 hx)
    · simp only [List.mem_cons, List.not_mem_nil, or_false] at hx
      rcases hx with rfl | rfl
      · exact d3
      · exact c3
  have hall' : ∀ x ∈ tws ++ [xd, xc], x.Ok fr to := by
    intro x hx
    rcases List.mem_append.1 hx with hx | hx
    · exact i2 x hx
    · simp only [List.mem_cons, List.not_mem_nil, or_false] at hx
      rcases hx with rfl | rfl
      · exact d3
      · exact c3
  obtain ⟨df, v1, v2⟩ := writeAllValues_ok (fr := fr) _ _ _ hall (Shows.start to)
  obtain ⟨fz, z1, z2⟩ := writeAllZeros_ok (to := to) _ _ _ hall' (Hides.start fr)
  have ht3 : Hides to (fun p => False ∨ ∃ x ∈ A.diffOrder.filterMap (tws[·]?) ++ [xd, xc], x.toCov p) t3 := by
    refine i5.congr (fun p => ?_)
    simp only [List.mem_append, List.mem_cons, List.not_mem_nil, or_false, mem_order (tws := tws) (by rw [hlen]; exact hA.order)]
    constructor
    · rintro ((hp | hp) | hp)
      · rcases hp with hp | hp
        · exact hp.elim
        · exact .inr ⟨xd, .inr (.inl rfl), (htd p).2 hp⟩
      · exact .inr ⟨xc, .inr (.inr rfl), (htc p).2 hp⟩
      · obtain ⟨x, hx, hp⟩ := hp
        exact .inr ⟨x, .inl hx, hp⟩
    · rintro (hp | ⟨x, hx | rfl | rfl, hp⟩)
      · exact hp.elim
      · exact .inr ⟨x, hx, hp⟩
      · exact .inl (.inl (.inr ((htd p).1 hp)))
      · exact .inl (.inr ((htc p).1 hp))
  have hf3 : Hides fr (fun p => False ∨ ∃ x ∈ tws ++ [xd, xc], x.fromCov p) f3 := by
    refine i4.congr (fun p => ?_)
    simp only [List.mem_append, List.mem_cons, List.not_mem_nil, or_false]
    constructor
    · rintro ((hp | hp) | hp)
      · rcases hp with hp | hp
        · exact hp.elim
        · exact .inr ⟨xd, .inr (.inl rfl), (hfd p).2 hp⟩
      · exact .inr ⟨xc, .inr (.inr rfl), (hfc p).2 hp⟩
      · obtain ⟨x, hx, hp⟩ := hp
        exact .inr ⟨x, .inl hx, hp⟩
    · rintro (hp | ⟨x, hx | rfl | rfl, hp⟩)
      · exact hp.elim
      · exact .inr ⟨x, hx, hp⟩
      · exact .inl (.inl (.inr ((hfd p).1 hp)))
      · exact .inl (.inr ((hfc p).1 hp))
  have hz : fz = f3 := z2.unique hf3
  refine ⟨f3, t3, dataHead seg.from_ ++ codeHead seg.from_ ++
        ((ptrBytes (decide (seg.from_.dataEnd ≠ 0)) xd :: ptrBytes (decide (seg.from_.codeEnd ≠ 0)) xc :: tws.map Tw.bytes).map (·.1)).flatten ++
        ((ptrBytes (decide (seg.from_.dataEnd ≠ 0)) xd :: ptrBytes (decide (seg.from_.codeEnd ≠ 0)) xc :: tws.map Tw.bytes).map (·.2)).flatten, df, ⟨?_, hf3.length, ht3.length, ?_, ?_, ?_, v2.length, ht3.add v2⟩, xd, xc, tws, rfl,
        by rw [hlen, hA.kinds, List.length_map], by rw [hdq]; exact d2, by rw [hcq]; exact c2⟩
  · have hfi := hA.isFrom
    rw [hF] at hfi
    show Arch.encode A sm seg fr to = _
    simp only [Arch.encode, hF, d1, c1, bind, Except.bind, hfi, hA.isTo, hA.kinds, i3, pure, Except.pure]
  · simp only [dataHead]
    split <;> simp
  · have hb : ∀ y ∈ (ptrBytes (decide (seg.from_.dataEnd ≠ 0)) xd :: ptrBytes (decide (seg.from_.codeEnd ≠ 0)) xc :: tws.map Tw.bytes),
        y.1.length ≤ 2 ^ 55 ∧ y.2.length ≤ 2 ^ 55 := by
      intro y hy
      rcases List.mem_cons.1 hy with rfl | hy
      · unfold ptrBytes; split
        · exact ⟨d3.header, d3.data⟩
        · simp
      · rcases List.mem_cons.1 hy with rfl | hy
        · unfold ptrBytes; split
          · exact ⟨c3.header, c3.data⟩
          · simp
        · obtain ⟨x, hx, rfl⟩ := List.mem_map.1 hy
          exact ⟨(i2 x hx).header, (i2 x hx).data⟩
    have s1 := sum_le ((ptrBytes (decide (seg.from_.dataEnd ≠ 0)) xd :: ptrBytes (decide (seg.from_.codeEnd ≠ 0)) xc :: tws.map Tw.bytes).map (·.1)) (2 ^ 55) (by
      intro z hz; obtain ⟨y, hy, rfl⟩ := List.mem_map.1 hz; exact (hb y hy).1)
    have s2 := sum_le ((ptrBytes (decide (seg.from_.dataEnd ≠ 0)) xd :: ptrBytes (decide (seg.from_.codeEnd ≠ 0)) xc :: tws.map Tw.bytes).map (·.2)) (2 ^ 55) (by
      intro z hz; obtain ⟨y, hy, rfl⟩ := List.mem_map.1 hz; exact (hb y hy).2)
    have hd : (dataHead seg.from_).length ≤ 31 := by
      have := usizeBytes_length hs.offset
      have := usizeBytes_length hs.dataBegin
      have := usizeBytes_length hs.dataEnd
      unfold dataHead; split <;> simp <;> omega
    have hc : (codeHead seg.from_).length ≤ 31 := by
      have := usizeBytes_length hs.codeBegin
      have := usizeBytes_length hs.codeEnd
      unfold codeHead; split <;> simp <;> omega
    have hfew := hA.few
    simp only [List.length_map, List.length_cons, hlen] at s1 s2
    have : (tabs.length + 1 + 1) * 2 ^ 55 ≤ 10 * 2 ^ 55 := Nat.mul_le_mul_right _ (by omega)
    simp only [List.length_append]
    generalize hL1 : (List.flatten (List.map (fun x => x.1) (ptrBytes (decide (seg.from_.dataEnd ≠ 0)) xd :: ptrBytes (decide (seg.from_.codeEnd ≠ 0)) xc :: tws.map Tw.bytes))).length = L1 at *
    generalize hL2 : (List.flatten (List.map (fun x => x.2) (ptrBytes (decide (seg.from_.dataEnd ≠ 0)) xd :: ptrBytes (decide (seg.from_.codeEnd ≠ 0)) xc :: tws.map Tw.bytes))).length = L2 at *
    omega
  · have hag := hA.again
    rw [hF] at hag
    have hfi := hA.isFrom
    rw [hF] at hfi
    have hw : works A.kinds F.instr (tws.map Tw.blocks) = tws.map Tw.work := by
      rw [hA.kinds, hfi, ← i1, List.map_map, List.map_map]
      exact works_eq tws
    show Arch.readers A fr _ _ = _
    simp only [Arch.readers, u1, bind, Except.bind, u2, hag, hw, filterMap_work, Int.toNat_natCast]
    rw [← hwd, ← hwc, show [xd.work, xc.work] = [xd, xc].map Tw.work from rfl, ← List.map_append, ← List.map_append, v1]
    simp only [z1, hz, pure, Except.pure]

theorem Arch.lossless {A : Arch} {sm : Matcher} (hsm : sm.Ok) {seg : DataSegment} (hs : seg.Ok) {fr to : Bytes} (hfr : fr.length < 2 ^ 50)
    (hto : to.length < 2 ^ 50) {tabs : List Tab} (hA : A.Fits seg fr to tabs) : (A.format sm seg).LosslessOn fr to := by
  obtain ⟨fr', to', patch, dfdiff, h, _⟩ := Arch.lossless_shape hsm hs hfr hto hA
  exact ⟨fr', to', patch, dfdiff, h⟩

end Detools
