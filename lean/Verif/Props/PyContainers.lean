import Verif.Proofs.PyContainers
import Verif.Props.Sequential
import Verif.Props.PyInPlace
/-
C23, C24: BSDIFF40 patches. C38: hdiffpatch and match-blocks. C26: which function gets
which patch.
-/
namespace Detools

/-- C24. -/
theorem C24_integer_roundtrip (x : Int) (h : x.natAbs < 2 ^ 63) :
    ∃ bs, offtout x = .ok bs ∧ bs.length = 8 ∧ offtin bs = .ok x := offtout_ok x h

example : offtout (-258) = .ok [2, 1, 0, 0, 0, 0, 0, 0x80] ∧ offtin [2, 1, 0, 0, 0, 0, 0, 0x80] = .ok (-258) := by decide +kernel
-- The bound is needed: 2^63 comes back as -0, and below -2^63 bits are lost.
example : (offtout (2 ^ 63) >>= offtin) = .ok 0 ∧ (offtout (-(2 ^ 63) - 5) >>= offtin) = .ok (-5) := by decide +kernel

/-- C23. A BSDIFF40 patch, applied to the same from-data, gives exactly the to-data and
returns its size. -/
theorem C23_bsdiff_roundtrip (lib : Lib) (hsa : SuffixArrayInRange lib.suffixArray) (S : WholeStream (lib.codecOf .bz2))
    (fr to patch : Bytes) (clamp : Bool) (hsz : fr.length + to.length < 2 ^ 31)
    (hcreate : createBsdiff lib fr to = .ok patch) (hp : patch.length < 2 ^ 63) :
    ∃ F, ∀ fuel, F ≤ fuel →
      applyBsdiff lib fuel { data := fr, pos := 0, clampSeek := clamp } patch = ⟨to, .ok to.length⟩ :=
  bsdiff_roundtrip lib hsa S fr to patch clamp hsz hcreate hp

/-- C23. Creating a BSDIFF40 patch only fails if bz2 makes more than 2^63 bytes. -/
theorem C23_bsdiff_create (lib : Lib) (hsa : SuffixArrayInRange lib.suffixArray)
    (fr to : Bytes) (hsz : fr.length + to.length < 2 ^ 31) :
    (∃ patch, createBsdiff lib fr to = .ok patch) ∨ ∃ chunks, 2 ^ 63 ≤ ((lib.codecOf .bz2).comp.run chunks).length := by
  obtain ⟨ops, _, _, h⟩ := bsdiff_created lib hsa fr to hsz
  by_cases h1 : ((lib.codecOf .bz2).comp.run (ops.flatMap Op.ctrl)).length < 2 ^ 63
  · by_cases h2 : ((lib.codecOf .bz2).comp.run (ops.map Op.diff)).length < 2 ^ 63
    · left
      rw [h, offtout_eq _ (by simpa using h1), offtout_eq _ (by simpa using h2)]
      exact ⟨_, rfl⟩
    · exact .inr ⟨_, Nat.not_lt.1 h2⟩
  · exact .inr ⟨_, Nat.not_lt.1 h1⟩

/-- C23. The same through `create_patch` and `apply_patch_bsdiff`. -/
theorem C23_create_patch_roundtrip (lib : Lib) (hsa : SuffixArrayInRange lib.suffixArray) (S : WholeStream (lib.codecOf .bz2))
    (h : HDiff) (realFiles : Bool) (args : CreateArgs) (ha : args.algorithm = .bsdiff) (ht : args.patchType = .bsdiff)
    (fr to patch : Bytes) (clamp : Bool) (hsz : fr.length + to.length < 2 ^ 31)
    (hcreate : createPatch lib h realFiles args fr to = .ok patch) (hp : patch.length < 2 ^ 63) :
    ∃ F, ∀ fuel, F ≤ fuel →
      applyBsdiff lib fuel { data := fr, pos := 0, clampSeek := clamp } patch = ⟨to, .ok to.length⟩ := by
  unfold createPatch at hcreate
  rw [ha, ht] at hcreate
  exact C23_bsdiff_roundtrip lib hsa S fr to patch clamp hsz hcreate hp

/-- C23. A created patch begins with `BSDIFF40`; what does not is rejected. -/
theorem C23_magic (lib : Lib) :
    (∀ fr to patch, createBsdiff lib fr to = .ok patch → patch.take 8 = magic40) ∧
    (∀ fuel from_ patch, patch.take 8 ≠ magic40 → ∃ m, applyBsdiff lib fuel from_ patch = ⟨[], .error (.error m)⟩) := by
  have hm : bsdiffMagic = magic40 := by decide +kernel
  constructor
  · intro fr to patch hc
    simp only [createBsdiff, bind, Except.bind, pure, Except.pure] at hc
    repeat' split at hc
    all_goals first | cases hc | skip
    rw [← hm]
    simp [bsdiffMagic]
  · intro fuel from_ patch h
    rw [← hm] at h
    refine ⟨"Expected magic 'BSDIFF40' ...", ?_⟩
    simp only [applyBsdiff, readHeaderBsdiff, if_pos h]
    rfl

/-- C23. A BSDIFF40 patch whose streams hold records that rebuild the to-data, followed by
anything: it is accepted exactly if nothing follows in any of the three. -/
theorem C23_nothing_left_over (lib : Lib) (S : WholeStream (lib.codecOf .bz2)) (fr to : Bytes) (clamp : Bool) (ops : List Op)
    (hfit : ∀ op ∈ ops, op.Fits) (hR : Rebuilds fr 0 ops to) (hto : to.length < 2 ^ 63) (ctrl diff extra : List Bytes) (x y z : Bytes)
    (h1 : ctrl.flatten = (ops.flatMap Op.ctrl).flatten ++ x) (h2 : diff.flatten = (ops.map Op.diff).flatten ++ y)
    (h3 : extra.flatten = (ops.map Op.extra).flatten ++ z)
    (hA : ((lib.codecOf .bz2).comp.run ctrl).length < 2 ^ 63) (hB : ((lib.codecOf .bz2).comp.run diff).length < 2 ^ 63) :
    ∃ F, ∀ fuel, F ≤ fuel → ∃ e, e ≠ .timeout ∧
      applyBsdiff lib fuel { data := fr, pos := 0, clampSeek := clamp } (bsdiffFile (lib.codecOf .bz2) to.length ctrl diff extra) =
        ⟨to, if x = [] ∧ y = [] ∧ z = [] then .ok to.length else .error e⟩ := by
  obtain ⟨F, hF⟩ := bsdiff_streams lib S fr to clamp ops hfit hR hto ctrl diff extra x y z h1 h2 h3 hA hB
  refine ⟨F, fun fuel hf => ?_⟩
  rw [hF fuel hf]
  by_cases hx : x = []
  · by_cases hy : y = []
    · by_cases hz : z = []
      · exact ⟨.error "", by simp, by simp [hx, hy, hz]⟩
      · exact ⟨.error "End of extra data not found.", by simp, by simp [hx, hy, hz]⟩
    · exact ⟨.error "End of diff data not found.", by simp, by simp [hx, hy]⟩
  · exact ⟨.error "End of control data not found.", by simp, by simp [hx]⟩

/-- A codec meeting the contract of bz2, without compressing. -/
def bufferCodec : PyCodec where
  comp := noneCompressor
  decomp := {
    σ := Bytes
    eof := fun s => s.isEmpty
    needsInput := fun s => s.isEmpty
    decompress := fun s data size => .ok ((s ++ data).drop size, (s ++ data).take size) }
  initDecomp := fun _ => []

def bufferWholeStream : WholeStream bufferCodec where
  owes := fun s out => s = out
  start := fun chunks => ⟨chunks.flatten, by
    have : bufferCodec.comp.run chunks = chunks.flatten := noneRun chunks
    rw [this]
    exact ⟨rfl, rfl⟩⟩
  read := by
    rintro st a b rfl _
    exact ⟨b, by simp [bufferCodec], rfl⟩
  eof_iff := by
    rintro st out rfl
    exact List.isEmpty_iff

def bufferLib : Lib where
  codec := fun _ => bufferCodec
  suffixArray := fun fr => List.range (fr.length + 1)

example : (createBsdiff bufferLib [1, 2, 3, 4, 5] [1, 2, 3, 9, 4, 5, 6]).map List.length = .ok (32 + 24 + 3 + 4) ∧
    (match createBsdiff bufferLib [1, 2, 3, 4, 5] [1, 2, 3, 9, 4, 5, 6] with
     | .ok patch => applyBsdiff bufferLib 10 { data := [1, 2, 3, 4, 5] } patch
     | .error e => ⟨[], .error e⟩) = ⟨[1, 2, 3, 9, 4, 5, 6], .ok 7⟩ := by decide +kernel

-- The records of the theorem above: one that copies two bytes and adds a third.
example : Rebuilds [1, 2] 0 [⟨[0, 1], [9], 0⟩] [1, 3, 9] ∧ (∀ op ∈ [(⟨[0, 1], [9], 0⟩ : Op)], op.Fits) := by
  refine ⟨⟨by decide, by decide, by decide, by decide, by decide, [], by decide, rfl⟩, ?_⟩
  intro op ho
  simp only [List.mem_singleton] at ho
  subst ho
  exact ⟨by decide, by decide, by decide⟩
example : applyBsdiff bufferLib 10 { data := [1, 2] } (bsdiffFile bufferCodec 3 [off8 2, off8 1, off8 0] [[0, 1]] [[9]]) = ⟨[1, 3, 9], .ok 3⟩ ∧
    applyBsdiff bufferLib 10 { data := [1, 2] } (bsdiffFile bufferCodec 3 [off8 2, off8 1, off8 0, [0]] [[0, 1]] [[9]]) =
      ⟨[1, 3, 9], .error (.error "End of control data not found.")⟩ := by decide +kernel

/-- The extra data may be shorter than the control data says: such a patch is accepted,
fewer bytes are written than the size returned. -/
theorem C23_short_extra_accepted :
    ∃ patch, applyBsdiff bufferLib 10 { data := [] } patch = ⟨[7, 8], .ok 3⟩ :=
  ⟨bsdiffMagic ++ off8 24 ++ off8 0 ++ off8 3 ++ (off8 0 ++ off8 3 ++ off8 0) ++ [7, 8], by decide +kernel⟩

/-! ### hdiffpatch and match-blocks -/

/-- C38. A patch made by algorithm hdiffpatch or match-blocks, for patch type hdiffpatch. -/
theorem C38_hdiffpatch_roundtrip (lib : Lib) (h : HDiff) (hI : h.Inverts) (formats : Int → Option DataFormat)
    (realFiles : Bool) (args : CreateArgs) (L : Lossless (lib.codecOf args.compression)) (fr to patch : Bytes) (clamp : Bool)
    (halg : args.algorithm = .hdiffpatch ∨ args.algorithm = .matchBlocks) (htype : args.patchType = .hdiffpatch)
    (hcreate : createPatch lib h realFiles args fr to = .ok patch) :
    ∃ F, ∀ fuel, F ≤ fuel →
      applyPatch lib h formats fuel { data := fr, pos := 0, clampSeek := clamp } patch = ⟨to, .ok to.length⟩ := by
  obtain ⟨p, n1, n2, score, block, hp, h1, h2, hpatch⟩ := createPatch_hdiffpatch_shape halg htype hcreate
  obtain ⟨F, hF⟩ := applyHdiffpatch_ok lib h args.compression L fr to p clamp (hI _ _ _ _ _ hp)
  refine ⟨F, fun fuel hf => ?_⟩
  rw [hpatch, pyPackSize_eq h1, pyPackSize_eq h2, applyPatch]
  simp only [List.append_assoc, peek_header PATCH_TYPE_HDIFFPATCH (by decide), W.lift_bind_ok]
  rw [if_neg (by decide), if_pos trivial]
  have := hF fuel hf
  simpa only [List.append_assoc] using this

/-- C38. A patch made by match-blocks for patch type sequential. -/
theorem C38_match_blocks_sequential_roundtrip (lib : Lib) (h : HDiff) (hW : h.WritesRecords) (formats : Int → Option DataFormat)
    (realFiles : Bool) (args : CreateArgs) (L : Lossless (lib.codecOf args.compression)) (fr to patch : Bytes) (clamp : Bool)
    (halg : args.algorithm = .matchBlocks) (htype : args.patchType = .sequential)
    (hcreate : createPatch lib h realFiles args fr to = .ok patch) :
    ∃ F, ∀ fuel, F ≤ fuel →
      applyPatch lib h formats fuel { data := fr, pos := 0, clampSeek := clamp } patch = ⟨to, .ok to.length⟩ := by
  simp only [createPatch, halg, htype, createMatchBlocks, PatchType.number, bind, Except.bind, pure, Except.pure] at hcreate
  cases hg : createHdiffGeneric h realFiles args.useMmap fr to 0 args.matchBlockSize PATCH_TYPE_SEQUENTIAL with
  | error e => rw [hg] at hcreate; cases hcreate
  | ok p =>
    rw [hg] at hcreate
    cases e1 : pyPackSize to.length with
    | error e => rw [e1] at hcreate; cases hcreate
    | ok n1 =>
      rw [e1] at hcreate
      have e2 : pyPackSize 0 = .ok (packSize 0) := pyPackSize_nat 0 (by decide)
      simp only [e2, Except.ok.injEq] at hcreate
      obtain ⟨ops, hops, hR⟩ := hW _ _ _ _ _ (createHdiffGeneric_ok hg)
      obtain ⟨F, hF⟩ := applySequential_ops lib formats args.compression L fr to clamp ops hR [packSize 0, p] (by simp [hops])
      refine ⟨F, fun fuel hf => ?_⟩
      rw [← hcreate, pyPackSize_eq e1, applyPatch]
      simp only [List.append_assoc, peek_header PATCH_TYPE_SEQUENTIAL (by decide), W.lift_bind_ok]
      rw [if_pos trivial]
      have := hF fuel hf
      simpa only [List.append_assoc] using this

/-- C38. Creation succeeds when HDiffPatch does, for files that can be mapped (real files
that are not empty), or when mapping is turned off. -/
theorem C38_create_succeeds (lib : Lib) (h : HDiff) (realFiles : Bool) (args : CreateArgs) (fr to p : Bytes)
    (hto : to.length < 2 ^ 62) (hpl : p.length < 2 ^ 62)
    (hmap : args.useMmap = false ∨ (realFiles = true ∧ fr ≠ [] ∧ to ≠ []))
    (hargs : (args.algorithm = .hdiffpatch ∧ args.patchType = .hdiffpatch ∧ h.create fr to args.matchScore 0 PATCH_TYPE_HDIFFPATCH = .ok p) ∨
      (args.algorithm = .matchBlocks ∧ args.patchType = .hdiffpatch ∧ h.create fr to 0 args.matchBlockSize PATCH_TYPE_HDIFFPATCH = .ok p) ∨
      (args.algorithm = .matchBlocks ∧ args.patchType = .sequential ∧ h.create fr to 0 args.matchBlockSize PATCH_TYPE_SEQUENTIAL = .ok p)) :
    ∃ patch, createPatch lib h realFiles args fr to = .ok patch := by
  have hgen : ∀ score block t, createHdiffGeneric h realFiles args.useMmap fr to score block t = h.create fr to score block t := by
    intro score block t
    unfold createHdiffGeneric
    rcases hmap with hm | ⟨hr, h1, h2⟩
    · simp [hm]
    · simp [mmapReadOnly, hr, h1, h2, bind, Except.bind]
  have e0 : pyPackSize 0 = .ok (packSize 0) := pyPackSize_nat 0 (by decide)
  rcases hargs with ⟨ha, ht, hc⟩ | ⟨ha, ht, hc⟩ | ⟨ha, ht, hc⟩
  · simp only [createPatch, ha, ht, createHdiffpatch, hgen, hc, pyPackSize_nat _ hto, pyPackSize_nat _ hpl, bind, Except.bind]
    exact ⟨_, rfl⟩
  · simp only [createPatch, ha, ht, createMatchBlocks, PatchType.number, hgen, hc, pyPackSize_nat _ hto, pyPackSize_nat _ hpl, bind, Except.bind]
    exact ⟨_, rfl⟩
  · simp only [createPatch, ha, ht, createMatchBlocks, PatchType.number, hgen, hc, pyPackSize_nat _ hto, e0, bind, Except.bind]
    exact ⟨_, rfl⟩

/-- C38. With the default `use_mmap=True`, an empty file or one without a file number makes
creation raise, whatever HDiffPatch would do (algorithm bsdiff falls back to reading). -/
theorem C38_mmap_raises (lib : Lib) (h : HDiff) (realFiles : Bool) (args : CreateArgs) (fr to : Bytes)
    (hm : args.useMmap = true) (hbad : realFiles = false ∨ fr = [] ∨ to = [])
    (halg : args.algorithm = .hdiffpatch ∨ args.algorithm = .matchBlocks) :
    ∃ e, createPatch lib h realFiles args fr to = .error e := by
  have hgen : ∀ score block t, ∃ e, createHdiffGeneric h realFiles args.useMmap fr to score block t = .error e := by
    intro score block t
    unfold createHdiffGeneric
    rw [if_pos hm]
    by_cases hr : realFiles = false
    · exact ⟨_, by simp [mmapReadOnly, hr, bind, Except.bind]; rfl⟩
    · by_cases hf : fr = []
      · exact ⟨_, by simp [mmapReadOnly, hr, hf, bind, Except.bind]; rfl⟩
      · have ht : to = [] := by
          rcases hbad with h | h | h
          · exact absurd h hr
          · exact absurd h hf
          · exact h
        exact ⟨_, by simp [mmapReadOnly, hr, hf, ht, bind, Except.bind]; rfl⟩
  rcases halg with ha | ha
  · cases ht : args.patchType <;> simp only [createPatch, ha, ht] <;> try exact ⟨_, rfl⟩
    obtain ⟨e, he⟩ := hgen args.matchScore 0 PATCH_TYPE_HDIFFPATCH
    simp only [createHdiffpatch, he, bind, Except.bind]
    exact ⟨_, rfl⟩
  · simp only [createPatch, ha, createMatchBlocks]
    cases hn : args.patchType.number with
    | error e => exact ⟨e, rfl⟩
    | ok n =>
      obtain ⟨e, he⟩ := hgen 0 args.matchBlockSize n
      simp only [he, bind, Except.bind]
      exact ⟨_, rfl⟩

/-- An HDiffPatch that stores the to-data, and for patch type sequential writes it as one
record of extra data. -/
def exampleHDiff : HDiff where
  create := fun _ to _ _ t =>
    if t = PATCH_TYPE_SEQUENTIAL then .ok (encodeOps (if to = [] then [] else [⟨[], to, 0⟩])) else .ok (9 :: to)
  apply := fun _ patch => .ok (patch.drop 1)

example : exampleHDiff.Inverts := by
  intro fr to score block patch h
  simp [exampleHDiff, PATCH_TYPE_SEQUENTIAL, PATCH_TYPE_HDIFFPATCH] at h
  subst h
  rfl

example : exampleHDiff.WritesRecords := by
  intro fr to score block patch h
  simp only [exampleHDiff, if_pos, Except.ok.injEq] at h
  refine ⟨_, h.symm, ?_⟩
  split
  · rename_i h0; exact h0
  · rename_i h0
    exact ⟨h0, by decide, by simp, by simp, by simp, [], by simp, rfl⟩

example : createPatch exampleLib exampleHDiff true { compression := .crle, patchType := .hdiffpatch, algorithm := .hdiffpatch } [1, 2] [3, 4, 5] =
    .ok [0x22, 3, 4, 0, 4, 9, 3, 4, 5] := by decide +kernel
example : applyPatch exampleLib exampleHDiff (fun _ => none) 20 { data := [1, 2] } [0x22, 3, 4, 0, 4, 9, 3, 4, 5] = ⟨[3, 4, 5], .ok 3⟩ := by
  decide +kernel
example : createPatch exampleLib exampleHDiff true { compression := .none, patchType := .sequential, algorithm := .matchBlocks } [1, 2] [3, 4, 5] =
    .ok [0, 3, 0, 0, 3, 3, 4, 5, 0] := by decide +kernel

/-! ### Dispatch -/

/-- C26. `create_patch` (bsdiff, sequential) followed by `apply_patch`. -/
theorem C26_sequential_roundtrip (lib : Lib) (hsa : SuffixArrayInRange lib.suffixArray) (h : HDiff) (realFiles : Bool)
    (formats : Int → Option DataFormat) (args : CreateArgs) (L : Lossless (lib.codecOf args.compression))
    (fr to : Bytes) (clamp : Bool) (hto : fr.length + to.length < 2 ^ 31)
    (halg : args.algorithm = .bsdiff) (htype : args.patchType = .sequential)
    (hfmt : ∀ f, args.dataFormat = some f → f.number < 2 ^ 62 ∧ ReadsFormat formats f ∧ f.LosslessOn fr to) :
    ∃ patch, createPatch lib h realFiles args fr to = .ok patch ∧
      ∃ F, ∀ fuel, F ≤ fuel →
        applyPatch lib h formats fuel { data := fr, pos := 0, clampSeek := clamp } patch = ⟨to, .ok to.length⟩ := by
  obtain ⟨patch, h1, F, hF⟩ := sequential_roundtrip lib hsa formats args.compression L args.dataFormat fr to clamp hto hfmt
  refine ⟨patch, by simp only [createPatch, halg, htype]; exact h1, F, fun fuel hf => ?_⟩
  have h3 := hF fuel hf
  rw [applyPatch]
  cases patch with
  | nil => rw [applySequential] at h3; cases h3
  | cons b rest =>
    have : (unpackHeader b).1 = PATCH_TYPE_SEQUENTIAL := by
      by_cases hb : (unpackHeader b).1 = PATCH_TYPE_SEQUENTIAL
      · exact hb
      · exfalso
        rw [applySequential] at h3
        simp only [readHeaderSequential, ne_eq, hb, not_false_eq_true, if_true, W.lift_bind_error] at h3
        cases h3
    simp only [peekHeaderType, W.lift_bind_ok, this, if_true]
    exact h3

/-- C26. The first byte of a created patch tells its type and compression. -/
theorem C26_created_header (lib : Lib) (h : HDiff) (realFiles : Bool) (args : CreateArgs) (fr to patch : Bytes)
    (hcreate : createPatch lib h realFiles args fr to = .ok patch) (ht : args.patchType ≠ .bsdiff) :
    ∃ t b rest, args.patchType.number = .ok t ∧ patch = b :: rest ∧ unpackHeader b = (t, args.compression.toNumber) := by
  have key : ∀ t, t < 8 → (∃ rest, patch = packHeader t args.compression.toNumber ++ rest) →
      ∃ b rest, patch = b :: rest ∧ unpackHeader b = (t, args.compression.toNumber) := by
    rintro t ht ⟨rest, rfl⟩
    obtain ⟨b, h1, h2, _⟩ := unpackHeader_packHeader t args.compression.toNumber ht args.compression.toNumber_lt
    exact ⟨b, rest, by rw [h1]; rfl, h2⟩
  have conv : ∀ t, args.patchType.number = .ok t → t < 8 → (∃ rest, patch = packHeader t args.compression.toNumber ++ rest) →
      ∃ t b rest, args.patchType.number = .ok t ∧ patch = b :: rest ∧ unpackHeader b = (t, args.compression.toNumber) := by
    intro t h1 h2 h3
    obtain ⟨b, rest, h4, h5⟩ := key t h2 h3
    exact ⟨t, b, rest, h1, h4, h5⟩
  unfold createPatch at hcreate
  split at hcreate
  · rename_i _ _ ha hp
    refine conv PATCH_TYPE_SEQUENTIAL (by rw [hp]; rfl) (by decide) ?_
    simp only [createSequential, bind, Except.bind, pure, Except.pure] at hcreate
    split at hcreate
    · cases hcreate
    · split at hcreate
      · cases hcreate
      · cases hcreate
        exact ⟨_, List.append_assoc _ _ _⟩
  · rename_i _ _ ha hp
    refine conv PATCH_TYPE_IN_PLACE (by rw [hp]; rfl) (by decide) ?_
    split at hcreate
    · simp only [createInPlace, bind, Except.bind, pure, Except.pure] at hcreate
      repeat' split at hcreate
      all_goals first | cases hcreate | skip
      all_goals exact ⟨_, by simp only [List.append_assoc]; rfl⟩
    · cases hcreate
  · rename_i _ _ ha hp
    exact absurd hp ht
  · rename_i _ _ ha hp
    refine conv PATCH_TYPE_HDIFFPATCH (by rw [hp]; rfl) (by decide) ?_
    simp only [createHdiffpatch, bind, Except.bind, pure, Except.pure] at hcreate
    repeat' split at hcreate
    all_goals first | cases hcreate | skip
    exact ⟨_, by simp only [List.append_assoc]; rfl⟩
  · rename_i _ _ ha
    simp only [createMatchBlocks, bind, Except.bind, pure, Except.pure] at hcreate
    split at hcreate
    · cases hcreate
    · split at hcreate
      · cases hcreate
      · split at hcreate
        · rename_i hp
          refine conv PATCH_TYPE_HDIFFPATCH (by rw [hp]; rfl) (by decide) ?_
          repeat' split at hcreate
          all_goals first | cases hcreate | skip
          exact ⟨_, by simp only [List.append_assoc]; rfl⟩
        · rename_i hp
          refine conv PATCH_TYPE_SEQUENTIAL (by rw [hp]; rfl) (by decide) ?_
          repeat' split at hcreate
          all_goals first | cases hcreate | skip
          exact ⟨_, by simp only [List.append_assoc]; rfl⟩
        · cases hcreate
  · cases hcreate

/-- C26. `apply_patch` raises, having written nothing, on an empty patch, a patch that is
neither sequential nor hdiffpatch, and an unknown compression. -/
theorem C26_apply_patch_rejects (lib : Lib) (h : HDiff) (formats : Int → Option DataFormat) (fuel : Nat) (from_ : PyFile) (patch : Bytes)
    (hbad : patch = [] ∨ ∃ b rest, patch = b :: rest ∧ (((unpackHeader b).1 ≠ 0 ∧ (unpackHeader b).1 ≠ 2) ∨ 6 < (unpackHeader b).2)) :
    ∃ m, applyPatch lib h formats fuel from_ patch = ⟨[], .error (.error m)⟩ := by
  rcases hbad with rfl | ⟨b, rest, rfl, hb⟩
  · exact ⟨_, rfl⟩
  · simp only [applyPatch, peekHeaderType, W.lift_bind_ok]
    by_cases h1 : (unpackHeader b).1 = PATCH_TYPE_SEQUENTIAL
    · rw [if_pos h1]
      have h2 : 6 < (unpackHeader b).2 := by
        rcases hb with ⟨hb, _⟩ | hb
        · exact absurd h1 hb
        · exact hb
      exact C26_sequential_rejects lib formats fuel from_ _ (.inr ⟨b, rest, rfl, .inr h2⟩)
    · rw [if_neg h1]
      by_cases h2 : (unpackHeader b).1 = PATCH_TYPE_HDIFFPATCH
      · rw [if_pos h2]
        have h3 : 6 < (unpackHeader b).2 := by
          rcases hb with ⟨_, hb⟩ | hb
          · exact absurd h2 hb
          · exact hb
        obtain ⟨m, hm⟩ : ∃ m, convertCompression (unpackHeader b).2 = .error (.error m) := by
          generalize (unpackHeader b).2 = c at h3
          match c, h3 with
          | n + 7, _ => exact ⟨_, rfl⟩
        refine ⟨m, ?_⟩
        simp only [applyHdiffpatch, readHeaderHdiffpatch, ne_eq, h2, not_true, if_false, hm, bind, Except.bind]
        rfl
      · rw [if_neg h2]
        exact ⟨_, rfl⟩

-- The hypotheses are met by an in-place patch, a patch of type 4 and compression 7.
example : (unpackHeader 0x12).1 = 1 ∧ (unpackHeader 0x42).1 = 4 ∧ 6 < (unpackHeader 0x07).2 := by decide

/-- C26. `apply_patch_in_place` raises, leaving the memory as it was, on an empty patch, a
patch of another type and an unknown compression. -/
theorem C26_apply_in_place_rejects (lib : Lib) (fuel : Nat) (patch mem : Bytes)
    (hbad : patch = [] ∨ ∃ b rest, patch = b :: rest ∧ ((unpackHeader b).1 ≠ 1 ∨ 6 < (unpackHeader b).2)) :
    ∃ m, applyInPlace lib fuel patch mem = (mem, .error (.error m)) := by
  obtain ⟨m, hm⟩ : ∃ m, readHeaderInPlace patch = .error (.error m) := by
    rcases hbad with rfl | ⟨b, rest, rfl, hb⟩
    · exact ⟨_, rfl⟩
    · simp only [readHeaderInPlace]
      by_cases h1 : (unpackHeader b).1 ≠ PATCH_TYPE_IN_PLACE
      · rw [if_pos h1]
        exact ⟨_, rfl⟩
      · rw [if_neg h1]
        have h3 : 6 < (unpackHeader b).2 := by
          rcases hb with hb | hb
          · exact absurd hb h1
          · exact hb
        obtain ⟨m, hm⟩ : ∃ m, convertCompression (unpackHeader b).2 = .error (.error m) := by
          generalize (unpackHeader b).2 = c at h3
          match c, h3 with
          | n + 7, _ => exact ⟨_, rfl⟩
        exact ⟨m, by simp only [hm, bind, Except.bind]⟩
  refine ⟨m, ?_⟩
  unfold applyInPlace
  rw [hm, Mem.lift_bind_error]

/-- C26. The other apply functions do not take a BSDIFF40 patch for theirs. -/
theorem C26_bsdiff_rejected (lib : Lib) (h : HDiff) (formats : Int → Option DataFormat) (fuel : Nat) (from_ : PyFile) (fr to patch mem : Bytes)
    (hc : createBsdiff lib fr to = .ok patch) :
    (∃ m, applyPatch lib h formats fuel from_ patch = ⟨[], .error (.error m)⟩) ∧
    (∃ m, applyInPlace lib fuel patch mem = (mem, .error (.error m))) := by
  have : ∃ rest, patch = 0x42 :: rest := by
    simp only [createBsdiff, bind, Except.bind, pure, Except.pure] at hc
    repeat' split at hc
    all_goals first | cases hc | skip
    exact ⟨_, by simp only [bsdiffMagic, List.cons_append]; rfl⟩
  obtain ⟨rest, rfl⟩ := this
  exact ⟨C26_apply_patch_rejects _ _ _ _ _ _ (.inr ⟨_, rest, rfl, .inl (by decide)⟩),
    C26_apply_in_place_rejects _ _ _ _ (.inr ⟨_, rest, rfl, .inl (by decide)⟩)⟩

/-- C26. `create_patch` raises on every combination of algorithm and patch type other than
bsdiff with sequential, in-place and bsdiff, hdiffpatch with hdiffpatch, and match-blocks
with sequential and hdiffpatch. -/
theorem C26_create_rejects (lib : Lib) (h : HDiff) (realFiles : Bool) (args : CreateArgs) (fr to : Bytes)
    (hbad : (args.algorithm, args.patchType) ∉ [(.bsdiff, .sequential), (.bsdiff, .inPlace), (.bsdiff, .bsdiff),
      (.hdiffpatch, .hdiffpatch), (.matchBlocks, .sequential), (.matchBlocks, .hdiffpatch)]) :
    ∃ e, createPatch lib h realFiles args fr to = .error e := by
  cases ha : args.algorithm <;> cases ht : args.patchType <;> rw [ha, ht] at hbad <;>
    first
    | exact absurd (by decide) hbad
    | (simp only [createPatch, ha, ht]; exact ⟨_, rfl⟩)
    | (simp only [createPatch, ha, ht, createMatchBlocks, PatchType.number, bind, Except.bind]
       cases createHdiffGeneric h realFiles args.useMmap fr to 0 args.matchBlockSize PATCH_TYPE_IN_PLACE <;> exact ⟨_, rfl⟩)

end Detools
