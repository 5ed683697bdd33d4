import Verif.Proofs.PyInfoText
import Verif.Props.DataFormat
import Verif.Props.PyInfo
/-
C57: what the `patch_info` command shows of data format patches and of segments.
-/
namespace Detools

/-! ### Data format patches -/

/-- C57. For any bytes: `info` shows the tables that `create_readers` would apply, under their
names, pointers if they are present; where `create_readers` cannot read the tables `info`
raises the same exception. -/
theorem C57_details (A : Arch) (names : List String) (hn : names.length = A.kinds.length) (patch : Bytes) :
    (∀ e, A.unpack patch = .error e → A.info names patch = .error e) ∧
    (∀ h data code instr, A.unpack patch = .ok (h, data, code, instr) → ∃ shown, A.info names patch = .ok shown ∧
      shown.instructions.map (·.1) = names ∧ shown.instructions.map (fun x => x.2.blocks) = instr.map shownBlocks ∧
      (shown.data.map fun x => (x.1, x.2.1, x.2.2.1, x.2.2.2.blocks)) =
        (h.dataHeader.map fun _ => ((h.dataOffset : Int), (h.dataBegin : Int), (h.dataEnd : Int), shownBlocks data)) ∧
      (shown.code.map fun x => (x.1, x.2.1, x.2.2.blocks)) = (h.codeHeader.map fun _ => ((h.codeBegin : Int), (h.codeEnd : Int), shownBlocks code))) := by
  simp only [Arch.unpack, Arch.info, bind, Except.bind, loadBlocksIf_eq, pure, Except.pure]
  cases unpackPointersHeader patch with
  | error e => exact ⟨fun _ h => (by cases h; rfl), fun _ _ _ _ h => by cases h⟩
  | ok r1 =>
    obtain ⟨h, f1⟩ := r1
    simp only
    cases e2 : unpackBlocksHeaders A.kinds.length f1 with
    | error e => exact ⟨fun _ h => (by cases h; rfl), fun _ _ _ _ h => by cases h⟩
    | ok r2 =>
      obtain ⟨hs, f2⟩ := r2
      simp only
      cases fromFpatchIf h.dataHeader f2 with
      | error e => exact ⟨fun _ h => (by cases h; rfl), fun _ _ _ _ h => by cases h⟩
      | ok r3 =>
        obtain ⟨data, f3⟩ := r3
        simp only [Except.map]
        cases fromFpatchIf h.codeHeader f3 with
        | error e => exact ⟨fun _ h => (by cases h; rfl), fun _ _ _ _ h => by cases h⟩
        | ok r4 =>
          obtain ⟨code, f4⟩ := r4
          simp only
          have key := loadBlocksAll_eq hs f4
          cases e5 : blocksFromFpatchAll hs f4 with
          | error e =>
            rw [e5] at key
            cases e6 : loadBlocksAll hs f4 with
            | error e' =>
              rw [e6] at key
              simp only [Except.map, Except.error.injEq] at key
              subst key
              exact ⟨fun _ h => (by cases h; rfl), fun _ _ _ _ h => by cases h⟩
            | ok l => rw [e6] at key; cases key
          | ok r5 =>
            obtain ⟨instr, f5⟩ := r5
            rw [e5] at key
            cases e6 : loadBlocksAll hs f4 with
            | error e' => rw [e6] at key; cases key
            | ok l =>
              rw [e6] at key
              simp only [Except.map, Except.ok.injEq] at key
              refine ⟨fun _ h => (by cases h), ?_⟩
              intro h' data' code' instr' heq
              simp only [Except.ok.injEq, Prod.mk.injEq] at heq
              obtain ⟨rfl, rfl, rfl, rfl⟩ := heq
              have hl : names.length = l.length := by
                have h1 := unpackBlocksHeaders_length _ _ _ _ e2
                have h2 := blocksFromFpatchAll_length _ _ _ _ e5
                rw [hn, ← h1, ← h2, ← key, List.length_map]
              obtain ⟨z1, z2⟩ := zip_names names l hl
              refine ⟨_, rfl, z1, ?_, ?_, ?_⟩
              · rw [z2, key]
              · simp only [formatPointers]; cases h.dataHeader <;> rfl
              · simp only [formatPointers]; cases h.codeHeader <;> rfl

/-- What should be shown of a table. -/
def shownTable (blocks : List Block) : TableShown := ⟨blocks.length, valueBytes blocks, shownBlocks blocks⟩

/-- C57. For what `create_patch` puts into a patch with a data format: `info` succeeds; it
shows, for each kind of instruction and for the pointers, the blocks that applying reads, with
the bytes their values take, and the addresses given to `create_patch`. -/
theorem C57_details_created {A : Arch} {seg : DataSegment} (hA : Supported A seg) (hs : seg.Ok) (sm : Matcher) (hsm : sm.Ok)
    (fr to : Bytes) (hfr : fr.length < 2 ^ 50) (hto : to.length < 2 ^ 50) :
    ∃ fr' to' patch h data code instr names, (A.format sm seg).encode fr to = .ok (fr', to', patch) ∧
      A.unpack patch = .ok (h, data, code, instr) ∧ names.length = A.kinds.length ∧
      archOf A.number = some (A, names) ∧
      dataFormatInfo A.number patch = .ok
        { instructions := names.zip (instr.map shownTable)
          data := if seg.from_.dataEnd = 0 then none else
            some (seg.from_.offsetBegin, seg.from_.dataBegin, seg.from_.dataEnd, shownTable data)
          code := if seg.from_.codeEnd = 0 then none else some (seg.from_.codeBegin, seg.from_.codeEnd, shownTable code) } := by
  obtain ⟨names, hn, ha⟩ : ∃ names, names.length = A.kinds.length ∧ archOf A.number = some (A, names) := by
    cases hA with
    | cortexM4 _ => exact ⟨_, rfl, rfl⟩
    | aarch64 _ => exact ⟨_, rfl, rfl⟩
    | xtensaLx106 _ => exact ⟨_, rfl, rfl⟩
  obtain ⟨tabs, hT⟩ : ∃ tabs, A.Fits seg fr to tabs := by
    cases hA with
    | cortexM4 h => exact cortexM4_fits hs h fr to
    | aarch64 h => exact aarch64_fits hs h fr to
    | xtensaLx106 h => exact xtensaLx106_fits hs h fr to
  obtain ⟨fr', to', patch, dfdiff, ⟨h1, _⟩, xd, xc, tws, rfl, h3, h4, h5⟩ := Arch.lossless_shape hsm hs hfr hto hT
  obtain ⟨h, h6, _⟩ := unpack_ok (A := A) hs xd xc tws h3 h4 h5
  refine ⟨fr', to', _, h, xd.blocks, xc.blocks, tws.map Tw.blocks, names, h1, h6, hn, ha, ?_⟩
  rw [dataFormatInfo, ha]
  show A.info names _ = _
  rw [info_ok hs names xd xc tws h3 h4 h5]
  have : List.zipWith (fun name b => (name, formatBlocks b (valueBytes b))) names (tws.map Tw.blocks) =
      names.zip ((tws.map Tw.blocks).map shownTable) := by
    rw [List.zip_eq_zipWith, List.zipWith_map_right, List.zipWith_map_right, List.zipWith_map_right]
    rfl
  rw [this]
  rfl

/-- C25. patch_info of a patch created with one of the data formats: nothing is assumed of
what shows the data format patch. -/
theorem C25_info_created_supported (lib : Lib) (hsa : SuffixArrayInRange lib.suffixArray) (knows : Int → Bool) (c : Compression)
    (L : Lossless (lib.codecOf c)) {A : Arch} {seg : DataSegment} (hA : Supported A seg) (hs : seg.Ok) (sm : Matcher) (hsm : sm.Ok)
    (fr to : Bytes) (hto : fr.length + to.length < 2 ^ 31) (hne : to ≠ []) :
    ∃ fr' to' dfpatch patch ops, (A.format sm seg).encode fr to = .ok (fr', to', dfpatch) ∧
      createSequential lib c (some (A.format sm seg)) fr to = .ok patch ∧
      createChunks lib fr' to' = .ok (ops.flatMap Op.chunks) ∧ Rebuilds fr' 0 ops to' ∧
      ∃ F, ∀ fuel, F ≤ fuel →
        patchInfo lib dataFormatInfoRaises knows fuel patch =
          .ok (.sequential ⟨patch.length, c, dfpatch.length, some (A.number : Int), describeOps to.length ops⟩) := by
  obtain ⟨fr', to', patch, dfdiff, h1, h2, h3, h4, h5, _⟩ := C31_data_format_lossless hA hs sm hsm fr to (by omega) (by omega)
  obtain ⟨_, _, _, h, data, code, instr, names, g1, _, _, g4, g5⟩ := C57_details_created hA hs sm hsm fr to (by omega) (by omega)
  rw [h1] at g1
  cases g1
  have hraise : dataFormatInfoRaises A.number patch = .ok () := by
    simp [dataFormatInfoRaises, g5, g4, bind, Except.bind]
  obtain ⟨p, ops, k1, k2, k3, k4⟩ := C25_info_created_data_format lib hsa dataFormatInfoRaises knows c L (A.format sm seg) fr to fr' to' patch hto hne
    (supported_reads hA sm sm seg).1 h1 h2 h3 h4 h5 hraise
  exact ⟨fr', to', patch, p, ops, h1, k1, k2, k3, k4⟩

/-! ### Segments of in-place patches -/

/-- C57. What is shown of the segments of a created in-place patch: they are numbered from 1,
their to-ranges follow each other from 0 to the size of the to-data, the totals of diff and
extra sizes add up to the length of the to-range, and the records shown rebuild that range of
the to-data out of the range of the from-data shown. -/
theorem C57_segments (lib : Lib) (hsa : SuffixArrayInRange lib.suffixArray) (dfInfo : Int → Bytes → Except PyErr Unit)
    (knows : Int → Bool) (c : Compression) (L : Lossless (lib.codecOf c))
    (memory seg : Nat) (minShift : Option Nat) (fr to : Bytes) (hseg : 0 < seg) (hmem : seg ∣ memory)
    (hmin : seg ∣ minShift.getD (2 * seg)) (h1 : memory < 2 ^ 62) (h2 : minShift.getD (2 * seg) ≤ memory)
    (h3 : fr.length + to.length < 2 ^ 31) (h5 : seg < 2 ^ 62) :
    ∃ (patch : Bytes) (info : InPlaceInfo), createInPlace lib c memory seg (minShift.map Int.ofNat) none fr to = .ok patch ∧
      (∃ F, ∀ fuel, F ≤ fuel → patchInfo lib dfInfo knows fuel patch = .ok (.inPlace info)) ∧
      (segmentsShown info.header 0 info.segments).length = (to.length + seg - 1) / seg ∧
      ∀ (i : Nat) (s : SegmentShown), (segmentsShown info.header 0 info.segments)[i]? = some s →
        s.number = i + 1 ∧ s.toBegin = ((i * seg : Nat) : Int) ∧ s.toEnd = ((min ((i + 1) * seg) to.length : Nat) : Int) ∧ s.toBegin < s.toEnd ∧
        0 ≤ s.fromBegin ∧ 0 ≤ s.fromEnd ∧ s.fromEnd ≤ (fr.length : Int) ∧
        s.totalDiffSize + s.totalExtraSize = s.toEnd - s.toBegin ∧ s.dfpatchSize = 0 ∧
        ∃ ops, Rebuilds ((fr.take s.fromEnd.toNat).drop s.fromBegin.toNat) 0 ops ((to.take s.toEnd.toNat).drop s.toBegin.toNat) ∧
          s.numberOfDiffs = ops.length ∧ s.numberOfExtras = ops.length ∧
          s.totalDiffSize = (((ops.map fun op => op.diff.length).sum : Nat) : Int) ∧
          s.totalExtraSize = (((ops.map fun op => op.extra.length).sum : Nat) : Int) := by
  have hx : minShift.getD (2 * seg) < 2 ^ 62 := by omega
  obtain ⟨patch, shift, opss, g1, gs, g2, g3, g4⟩ := C25_info_in_place lib hsa dfInfo knows c L memory seg minShift fr to hseg hmem hmin h1 hx h3 h5
  have hshift : shift ≤ memory := by rw [gs]; omega
  refine ⟨patch, _, g1, g4, ?_, ?_⟩
  · simp only [segmentsShown_length, describeSegments_length, g2]
  intro i s hi
  simp only [segmentsShown_getElem?, describeSegments_getElem?, Nat.zero_add, Option.map_map] at hi
  cases ho : opss[i]? with
  | none => rw [ho] at hi; cases hi
  | some ops =>
    rw [ho] at hi
    simp only [Option.map_some, Function.comp_apply, Option.some.injEq] at hi
    obtain ⟨k1, k2⟩ := SegOps.getElem? opss 0 i ops g3 ho
    rw [Nat.zero_add] at k1 k2
    have hsl : sliceTo fr ((memory : Int) - shift) = fr.take (min fr.length (memory - shift)) := by
      rw [show (memory : Int) - shift = ((memory - shift : Nat) : Int) by omega, sliceTo_nat, List.take_eq_take_iff]
      omega
    rw [hsl] at k2
    have hto : (to.drop (i * seg)).take seg = (to.take (min ((i + 1) * seg) to.length)).drop (i * seg) := by
      rw [List.drop_take, List.take_eq_take_iff, List.length_drop, Nat.add_mul, Nat.one_mul]
      omega
    have hsum := describeOps_sum _ _ ops 0 k2
    rw [hto] at k2
    simp only [describeOps, List.length_take, List.length_drop] at hsum
    have hmul : ((seg : Int) * (i + 1)) = ((seg * (i + 1) : Nat) : Int) := by simp
    have hmul' : ((seg : Int) * i) = ((i * seg : Nat) : Int) := by rw [Nat.mul_comm]; simp
    have e1 : (i + 1) * seg = i * seg + seg := by rw [Nat.add_mul, Nat.one_mul]
    subst hi
    simp only [segmentShown, describeOps, hmul, hmul', List.length_map]
    have hT : (min ((i * seg : Nat) + (seg : Int)) (to.length : Int)) = ((min ((i + 1) * seg) to.length : Nat) : Int) := by omega
    have hF : (min (fr.length : Int) ((memory : Int) - shift)) = ((min fr.length (memory - shift) : Nat) : Int) := by omega
    have hB : (max (((seg * (i + 1) : Nat) : Int) - shift) 0) = ((seg * (i + 1) - shift : Nat) : Int) := by omega
    rw [hT, hF, hB]
    simp only [Int.toNat_natCast]
    refine ⟨trivial, trivial, trivial, by omega, by omega, by omega, by omega, by omega, trivial, ops, k2, rfl, rfl, ?_, ?_⟩
    · exact natCast_sum _ _
    · exact natCast_sum _ _

/-- C57. If the least shift is larger than the memory the end of the from-range shown is
negative, although the records of the first segment use a byte of the from-data. -/
theorem C57_shift_beyond_memory :
    ∃ patch info, createInPlace exampleLib .none 2 1 (some 4) none [1, 2, 3, 4, 5] [1, 2] = .ok patch ∧
      patchInfo exampleLib (fun _ _ => .ok ()) (fun _ => true) 40 patch = .ok (.inPlace info) ∧
      (segmentsShown info.header 0 info.segments).map (fun s => (s.fromBegin, s.fromEnd, s.totalDiffSize)) = [(0, -2, 1), (0, -2, 0)] := by
  exact ⟨[16, 2, 1, 4, 5, 2, 0, 1, 0, 0, 65, 0, 0, 1, 2, 1],
    ⟨16, ⟨.none, 2, 1, 4, 5, 2⟩, [(0, none, ⟨1, [1], [0], [-1], 3⟩), (0, none, ⟨1, [0], [1], [1], 3⟩)]⟩,
    by decide +kernel, by decide +kernel, by decide +kernel⟩

-- The in-place patch of the example of C25.
example : (segmentsShown ⟨.none, 12, 2, 6, 5, 7⟩ 0
    [(0, none, ⟨2, [2], [0], [-2], 3⟩), (0, none, ⟨2, [0], [2], [5], 3⟩), (0, none, ⟨2, [0], [2], [4], 3⟩), (0, none, ⟨1, [0], [1], [3], 3⟩)]).map
      (fun s => (s.number, s.fromBegin, s.fromEnd, s.toBegin, s.toEnd)) =
    [(1, 0, 5, 0, 2), (2, 0, 5, 2, 4), (3, 0, 5, 4, 6), (4, 2, 5, 6, 7)] := by decide +kernel

-- A patch with one `bl` block of two values and data pointers.
example : dataFormatInfo 0 [1, 16, 32, 48, 0, 1, 2, 4, 1, 0, 1, 5, 10, 2, 0, 0, 7, 65, 66] = .ok
    { instructions := [("b.w", ⟨0, 0, []⟩), ("bl", ⟨1, 2, [(5, 10, 2, [-1, -2])]⟩), ("ldr", ⟨0, 0, []⟩), ("ldr.w", ⟨0, 0, []⟩)]
      data := some (16, 32, 48, ⟨1, 1, [(2, 4, 1, [7])]⟩), code := none } := by decide +kernel

/-! ### Names of instructions -/

/-- AArch64 instructions by bits they have set and cleared, with the name they are shown
under. The tool has store byte, 0x39000000, under "ldr". -/
def aarch64Names : List (Nat × Nat × String) :=
  [(0xfc000000, 0x94000000, "bl"), (0x9f000000, 0x90000000, "adrp"),
    (0xffc00000, 0xf9400000, "ldr"), (0xffc00000, 0xb9400000, "ldr"), (0xffc00000, 0x39400000, "ldr"), (0xffc00000, 0x39000000, "ldr"),
    (0xffe00000, 0xf8400000, "ldr"), (0xffe00000, 0xb8400000, "ldr"),
    (0xffc00000, 0xa9000000, "str"), (0xffc00000, 0xb9000000, "str"), (0xffc00000, 0xf9000000, "str (imm 64)")]

/-- The names under which instructions are shown for a file. -/
def shownNames (number : Int) (file : Bytes) : List String :=
  match archOf number with
  | some (A, names) => ((names.zip (A.disassemble file {}).instr).filter (·.2 ≠ [])).map (·.1)
  | none => []

theorem mask_clash {v m1 x1 m2 x2 : Nat} (h1 : v &&& m1 = x1) (h2 : v &&& m2 = x2) : x1 &&& m2 = x2 &&& m1 := by
  subst h1; subst h2
  rw [Nat.and_assoc, Nat.and_assoc, Nat.and_comm m1]

theorem a64Disassemble_one (a b c d : UInt8) : (a64Disassemble [a, b, c, d] {}).instr =
    let s := a64Instr 0 (leValue [a, b, c, d]) { pos := 4 }
    [[], s.bl, s.add, s.addGeneric, s.ldr, s.adrp, s.str, s.strImm64] := by
  have h1 : a64Step [a, b, c, d] {} {} = a64Instr 0 (leValue [a, b, c, d]) { pos := 4 } := by
    unfold a64Step
    rfl
  have h2 : disLoop A64Dis.pos (a64Step [a, b, c, d] {}) [a, b, c, d].length [a, b, c, d].length {} =
      a64Instr 0 (leValue [a, b, c, d]) { pos := 4 } := by
    show disLoop A64Dis.pos (a64Step [a, b, c, d] {}) 4 4 {} = _
    rw [disLoop, if_pos (by decide), h1, disLoop, if_neg (by rw [a64Instr_pos]; decide)]
  simp only [a64Disassemble, h2]

/-- C57. A file of one AArch64 instruction is shown under the name of the instruction. -/
theorem C57_aarch64_names (a b c d : UInt8) :
    (∀ x ∈ aarch64Names, leValue [a, b, c, d] &&& x.1 = x.2.1 → shownNames 1 [a, b, c, d] = [x.2.2]) ∧
    (leValue [a, b, c, d] &&& 0xff000000 = 0x91000000 →
      shownNames 1 [a, b, c, d] = if leValue [a, b, c, d] / 2 ^ 5 % 2 ^ 5 = leValue [a, b, c, d] % 2 ^ 5 then ["add"] else ["add (generic)"]) := by
  have hs : shownNames 1 [a, b, c, d] = ((["b", "bl", "add", "add (generic)", "ldr", "adrp", "str", "str (imm 64)"].zip
      (a64Disassemble [a, b, c, d] {}).instr).filter (·.2 ≠ [])).map (·.1) := rfl
  rw [hs, a64Disassemble_one]
  generalize leValue [a, b, c, d] = v
  constructor
  · intro x hx h
    simp only [aarch64Names, List.mem_cons, List.not_mem_nil, or_false] at hx
    unfold a64Instr
    rcases hx with rfl | rfl | rfl | rfl | rfl | rfl | rfl | rfl | rfl | rfl | rfl <;>
    · dsimp only at h ⊢
      repeat (first | rw [if_pos h] | rw [if_neg fun h' => absurd (mask_clash h h') (by decide)])
      rfl
  · intro h
    have e : ((v >>> 5) &&& 0x1f = v &&& 0x1f) = (v / 2 ^ 5 % 2 ^ 5 = v % 2 ^ 5) := by
      rw [Nat.shiftRight_eq_div_pow, show (0x1f : Nat) = 2 ^ 5 - 1 from rfl, Nat.and_two_pow_sub_one_eq_mod, Nat.and_two_pow_sub_one_eq_mod]
    unfold a64Instr
    dsimp only
    rw [if_neg fun h' => absurd (mask_clash h h') (by decide), if_pos h]
    by_cases he : v / 2 ^ 5 % 2 ^ 5 = v % 2 ^ 5
    · rw [if_pos he, if_pos (e ▸ he)]; rfl
    · rw [if_neg he, if_neg (e ▸ he)]; rfl

-- `adrp`, and the other data formats.
example : shownNames 1 [0x13, 0x00, 0x00, 0xb0] = ["adrp"] ∧ leValue [0x13, 0x00, 0x00, 0xb0] &&& 0x9f000000 = 0x90000000 ∧
    shownNames 0 [0xff, 0xf7, 0xfe, 0xff] = ["bl"] ∧ shownNames 0 [0x7f, 0xf4, 0xfe, 0xaf] = ["b.w"] ∧
    shownNames 0 [0x00, 0x48, 0, 0, 1, 2, 3, 4] = ["ldr"] ∧ shownNames 0 [0xdf, 0xf8, 0, 0, 1, 2, 3, 4] = ["ldr.w"] ∧
    shownNames 2 [0x05, 0, 0] = ["call0"] := by decide +kernel

end Detools
