import Verif.Props.PyInfoText
import Verif.Proofs.PyMain
import Verif.Spec.PyMain
import Verif.Props.PyContainers
import Verif.Props.PyInPlace
import Verif.Props.PyInfo
import Verif.Props.DataFormat
/-
C52: the Python command line tool.
-/
namespace Detools

/-! ### What applying does not depend on -/

theorem lib_body (T : Tools) (s w l s' w' l') (c : Compression) :
    applySequentialBody ((T.lib s w l).codecOf c) = applySequentialBody ((T.lib s' w' l').codecOf c) := by
  cases c <;> rfl

theorem lib_applySequential (T : Tools) (s w l s' w' l') : applySequential (T.lib s w l) = applySequential (T.lib s' w' l') := by
  funext formats fuel from_ patch
  unfold applySequential
  congr 1
  funext ⟨c, toSize, rest⟩
  simp only []
  rw [lib_body T s w l s' w' l' c]

theorem lib_applyHdiffpatch (T : Tools) (s w l s' w' l') : applyHdiffpatch (T.lib s w l) = applyHdiffpatch (T.lib s' w' l') := by
  funext h fuel from_ patch
  unfold applyHdiffpatch
  congr 1
  funext ⟨c, toSize, patchSize, rest⟩
  cases c <;> rfl

theorem lib_applyPatch (T : Tools) (s w l s' w' l') : applyPatch (T.lib s w l) = applyPatch (T.lib s' w' l') := by
  funext h formats fuel from_ patch
  unfold applyPatch
  rw [lib_applySequential T s w l s' w' l', lib_applyHdiffpatch T s w l s' w' l']

theorem lib_applyInPlace (T : Tools) (s w l s' w' l') : applyInPlace (T.lib s w l) = applyInPlace (T.lib s' w' l') := by
  funext fuel patch
  unfold applyInPlace
  congr 1
  funext ⟨h, rest⟩
  obtain ⟨c, a1, a2, a3, a4, a5⟩ := h
  cases c <;> rfl

theorem lib_patchInfo (T : Tools) (s w l s' w' l') : patchInfo (T.lib s w l) = patchInfo (T.lib s' w' l') := by
  have h1 : infoSequential (T.lib s w l) = infoSequential (T.lib s' w' l') := by
    funext dfInfo fuel patch
    unfold infoSequential
    congr 1
    funext ⟨c, toSize, rest⟩
    cases c <;> rfl
  have h2 : infoInPlace (T.lib s w l) = infoInPlace (T.lib s' w' l') := by
    funext knows fuel patch
    unfold infoInPlace
    congr 1
    funext ⟨h, rest⟩
    obtain ⟨c, a1, a2, a3, a4, a5⟩ := h
    cases c <;> rfl
  funext dfInfo knows fuel patch
  unfold patchInfo
  rw [h1, h2]

/-! ### Round trips -/

/-- C52. `create_patch` (bsdiff, sequential) on two files, with any lossless compression,
heatshrink parameters and data format, followed by `apply_patch`: both end with status 0, the
to-file of `apply_patch` is a copy of the one given to `create_patch`, and only the two files
written have changed. -/
theorem C52_create_apply (T : Tools) (c : Compression) (sais : Bool) (ms mb : Nat) (noMmap : Bool) (window lookahead : Nat)
    (hsa : SuffixArrayInRange (T.suffixArray sais)) (L : Lossless ((T.lib sais window lookahead).codecOf c))
    (o : FormatOptions) (seg : DataSegment) (ho : dataFormatArgs o = .ok seg)
    (hfmt : ∀ name, o.dataFormat = some name → T.matcher.Ok ∧ Supported name.arch seg ∧ seg.Ok)
    (d : Disk) (fromfile tofile patchfile outfile : String) (fr to : Bytes)
    (hf : d.files fromfile = some fr) (ht : d.files tofile = some to) (hsz : fr.length + to.length < 2 ^ 31)
    (hw : d.writable patchfile = true) (hw' : d.writable outfile = true)
    (hpf : patchfile ≠ fromfile) (hpt : patchfile ≠ tofile) (hof : outfile ≠ fromfile) (hop : outfile ≠ patchfile) (rest : Bytes) :
    ∃ F, ∀ fuel, F ≤ fuel → ∃ e1 e2,
      runCommand T rest fuel d (.createPatch c .sequential .bsdiff sais ms mb noMmap window lookahead o fromfile tofile patchfile) = some e1 ∧
      runCommand T rest fuel e1.disk (.applyPatch fromfile patchfile outfile) = some e2 ∧
      e1.status = 0 ∧ e2.status = 0 ∧ e2.disk.files outfile = some to ∧ SameExcept d e1.disk [patchfile] ∧ SameExcept e1.disk e2.disk [outfile] := by
  obtain ⟨patch, hc, F, hF⟩ := C26_sequential_roundtrip (T.lib sais window lookahead) hsa T.hdiff true (dataFormats T.matcher {})
    { compression := c, patchType := .sequential, algorithm := .bsdiff, dataFormat := formatOf T o seg
      matchScore := ms, matchBlockSize := mb, useMmap := !noMmap } L fr to false hsz rfl rfl (by
    intro f hf
    simp only [formatOf, Option.map_eq_some_iff] at hf
    obtain ⟨name, hn, rfl⟩ := hf
    obtain ⟨m1, m2, m3⟩ := hfmt name hn
    exact ⟨(supported_reads m2 T.matcher T.matcher {}).1, (supported_reads m2 T.matcher T.matcher {}).2,
      C31_data_format_lossless m2 m3 T.matcher m1 fr to (by omega) (by omega)⟩)
  refine ⟨F, fun fuel hfuel => ⟨⟨d.put patchfile (some patch), none⟩, ⟨(d.put patchfile (some patch)).put outfile (some to), none⟩, ?_, ?_, rfl, rfl, put_same _ _ _, ?_, ?_⟩⟩
  · show some _ = _
    rw [ho]
    simp only []
    rw [createPatchFilenames_ok hf ht hw hpf hpt, hc]
    rfl
  · show (if outfile = fromfile then none else _) = _
    rw [if_neg hof, applyFilenames_ok (by rw [put_other _ _ hpf.symm]; exact hf) (put_same _ _ _) hw' hop,
      lib_applyPatch T false 8 7 sais window lookahead]
    have := hF fuel hfuel
    rw [this]
    rfl
  · intro n hn
    exact put_other _ _ (by simpa using hn)
  · intro n hn
    exact put_other _ _ (by simpa using hn)

/-- C52. `create_patch_in_place` followed by `apply_patch_in_place` on a memory file that
begins with the from-data: both end with status 0 and the memory file begins with the
to-data. If the to-data fits into the memory, the size of the memory file and everything
after the memory stay as they were. -/
theorem C52_create_apply_in_place (T : Tools) (c : Compression) (sais noMmap : Bool) (window lookahead : Nat)
    (hsa : SuffixArrayInRange (T.suffixArray sais)) (L : Lossless ((T.lib sais window lookahead).codecOf c))
    (o : FormatOptions) (seg : DataSegment) (ho : dataFormatArgs o = .ok seg) (hnf : o.dataFormat = none)
    (memory segment : Nat) (minShift : Option Nat) (hseg : 0 < segment) (hmem : segment ∣ memory) (hmin : segment ∣ minShift.getD (2 * segment))
    (d : Disk) (fromfile tofile patchfile memfile : String) (fr to mem : Bytes)
    (hsize : memory < 2 ^ 62 ∧ segment < 2 ^ 62 ∧ minShift.getD (2 * segment) < 2 ^ 62 ∧ fr.length + to.length < 2 ^ 31)
    (hf : d.files fromfile = some fr) (ht : d.files tofile = some to) (hm : d.files memfile = some mem)
    (hfr : fr <+: mem) (hml : memory ≤ mem.length) (hw : d.writable patchfile = true) (hw' : d.writable memfile = true)
    (hpf : patchfile ≠ fromfile) (hpt : patchfile ≠ tofile) (hop : memfile ≠ patchfile) (rest : Bytes) :
    ∃ mem' F, to <+: mem' ∧
      (to.length ≤ memory → minShift.getD (2 * segment) ≤ memory → mem'.length = mem.length ∧ mem'.drop memory = mem.drop memory) ∧
      ∀ fuel, F ≤ fuel → ∃ e1 e2,
        runCommand T rest fuel d (.createPatchInPlace c sais memory segment minShift noMmap window lookahead o fromfile tofile patchfile) = some e1 ∧
        runCommand T rest fuel e1.disk (.applyPatchInPlace memfile patchfile) = some e2 ∧
        e1.status = 0 ∧ e2.status = 0 ∧ e2.disk.files memfile = some mem' ∧ SameExcept d e1.disk [patchfile] ∧ SameExcept e1.disk e2.disk [memfile] := by
  obtain ⟨patch, hc, mem', F, hF, h1, h2⟩ := C18_in_place_roundtrip (T.lib sais window lookahead) hsa c L memory segment minShift fr to mem hseg hmem hmin hsize hfr hml
  refine ⟨mem', F, h1, h2, fun fuel hfuel => ⟨⟨d.put patchfile (some patch), none⟩, ⟨(d.put patchfile (some patch)).put memfile (some mem'), none⟩, ?_, ?_, rfl, rfl, put_same _ _ _, ?_, ?_⟩⟩
  · show some _ = _
    rw [ho]
    simp only []
    rw [createPatchFilenames_ok hf ht hw hpf hpt]
    have : createPatch (T.lib sais window lookahead) T.hdiff true { compression := c, patchType := .inPlace, algorithm := .bsdiff, memorySize := some (memory : Int), segmentSize := some (segment : Int), minimumShiftSize := minShift.map Int.ofNat, dataFormat := formatOf T o seg, useMmap := !noMmap } fr to = .ok patch := by
      show createInPlace _ c memory segment (minShift.map Int.ofNat) (formatOf T o seg) fr to = .ok patch
      rw [formatOf, hnf]
      exact hc
    rw [this]
    rfl
  · show (if memfile = patchfile then none else _) = _
    rw [if_neg hop, applyInPlaceFilenames_ok (by rw [put_other _ _ hop]; exact hm) (put_same _ _ _) hw',
      lib_applyInPlace T false 8 7 sais window lookahead, hF fuel hfuel]
    rfl
  · intro n hn
    exact put_other _ _ (by simpa using hn)
  · intro n hn
    exact put_other _ _ (by simpa using hn)

theorem createPatchFilenames_created {lib : Lib} {h : HDiff} {args : CreateArgs} {rest : Bytes} {d : Disk} {fromfile tofile patchfile : String} {fr to : Bytes} {e : PyExit}
    (hf : d.files fromfile = some fr) (ht : d.files tofile = some to) (hpf : patchfile ≠ fromfile) (hpt : patchfile ≠ tofile)
    (he : endOf (createPatchFilenames lib h args rest d fromfile tofile patchfile) = e) (hs : e.status = 0) :
    ∃ patch, createPatch lib h true args fr to = .ok patch ∧ e.disk = d.put patchfile (some patch) := by
  by_cases hw : d.writable patchfile = true
  · rw [createPatchFilenames_ok hf ht hw hpf hpt] at he
    cases hc : createPatch lib h true args fr to with
    | error x =>
      rw [hc] at he
      subst he
      exact absurd hs (by simp [endOf, PyExit.status])
    | ok patch =>
      rw [hc] at he
      subst he
      exact ⟨patch, rfl, rfl⟩
  · unfold createPatchFilenames Disk.openWrite at he
    rw [openRead_some hf, openRead_some ht, if_neg hw] at he
    subst he
    exact absurd hs (by simp [endOf, PyExit.status])

/-- C52. `create_patch_bsdiff` followed by `apply_patch_bsdiff`. Creation only fails if the
patch cannot be written or bz2 makes 2^63 bytes or more (`C23_bsdiff_create`). -/
theorem C52_create_apply_bsdiff (T : Tools) (hsa : SuffixArrayInRange (T.suffixArray false)) (S : WholeStream ((T.lib false 8 7).codecOf .bz2))
    (d : Disk) (fromfile tofile patchfile outfile : String) (fr to patch : Bytes)
    (hf : d.files fromfile = some fr) (ht : d.files tofile = some to) (hsz : fr.length + to.length < 2 ^ 31)
    (hw' : d.writable outfile = true)
    (hpf : patchfile ≠ fromfile) (hpt : patchfile ≠ tofile) (hof : outfile ≠ fromfile) (hop : outfile ≠ patchfile) (rest : Bytes) (fuel1 : Nat) (e1 : PyExit)
    (he : runCommand T rest fuel1 d (.createPatchBsdiff fromfile tofile patchfile) = some e1) (hs : e1.status = 0)
    (hp : e1.disk.files patchfile = some patch) (hlen : patch.length < 2 ^ 63) :
    SameExcept d e1.disk [patchfile] ∧ ∃ F, ∀ fuel, F ≤ fuel → ∃ e2,
      runCommand T rest fuel e1.disk (.applyPatchBsdiff fromfile patchfile outfile) = some e2 ∧
      e2.status = 0 ∧ e2.disk.files outfile = some to ∧ SameExcept e1.disk e2.disk [outfile] := by
  injection he with he
  obtain ⟨p, hc, hd⟩ := createPatchFilenames_created hf ht hpf hpt he hs
  rw [hd, put_same] at hp
  injection hp with hp
  subst hp
  obtain ⟨F, hF⟩ := C23_create_patch_roundtrip (T.lib false 8 7) hsa S T.hdiff true { patchType := .bsdiff } rfl rfl fr to p false hsz hc hlen
  rw [hd]
  refine ⟨fun n hn => put_other _ _ (by simpa using hn), F, fun fuel hfuel => ⟨⟨(d.put patchfile (some p)).put outfile (some to), none⟩, ?_, rfl, put_same _ _ _, ?_⟩⟩
  · show (if outfile = fromfile then none else _) = _
    rw [if_neg hof, applyFilenames_ok (by rw [put_other _ _ hpf.symm]; exact hf) (put_same _ _ _) hw' hop]
    have := hF fuel hfuel
    rw [this]
    rfl
  · intro n hn
    exact put_other _ _ (by simpa using hn)

/-- C52. `create_patch` with the algorithms of HDiffPatch followed by `apply_patch`, under the
contract of that library (`HDiff.Inverts`, `HDiff.WritesRecords`). -/
theorem C52_create_apply_hdiffpatch (T : Tools) (hI : T.hdiff.Inverts) (hW : T.hdiff.WritesRecords) (c : Compression) (t : PatchType) (a : Algorithm)
    (sais : Bool) (ms mb : Nat) (noMmap : Bool) (window lookahead : Nat) (L : Lossless ((T.lib sais window lookahead).codecOf c)) (o : FormatOptions)
    (ha : (a = .hdiffpatch ∨ a = .matchBlocks) ∧ t = .hdiffpatch ∨ a = .matchBlocks ∧ t = .sequential)
    (d : Disk) (fromfile tofile patchfile outfile : String) (fr to : Bytes)
    (hf : d.files fromfile = some fr) (ht : d.files tofile = some to) (hw' : d.writable outfile = true)
    (hpf : patchfile ≠ fromfile) (hpt : patchfile ≠ tofile) (hof : outfile ≠ fromfile) (hop : outfile ≠ patchfile) (rest : Bytes) (fuel1 : Nat) (e1 : PyExit)
    (he : runCommand T rest fuel1 d (.createPatch c t a sais ms mb noMmap window lookahead o fromfile tofile patchfile) = some e1) (hs : e1.status = 0) :
    SameExcept d e1.disk [patchfile] ∧ ∃ F, ∀ fuel, F ≤ fuel → ∃ e2,
      runCommand T rest fuel e1.disk (.applyPatch fromfile patchfile outfile) = some e2 ∧
      e2.status = 0 ∧ e2.disk.files outfile = some to ∧ SameExcept e1.disk e2.disk [outfile] := by
  injection he with he
  cases ho : dataFormatArgs o with
  | error x =>
    rw [ho] at he
    subst he
    exact absurd hs (by simp [PyExit.status])
  | ok seg =>
    rw [ho] at he
    obtain ⟨p, hc, hd⟩ := createPatchFilenames_created hf ht hpf hpt he hs
    obtain ⟨F, hF⟩ : ∃ F, ∀ fuel, F ≤ fuel → applyPatch (T.lib sais window lookahead) T.hdiff (dataFormats T.matcher {}) fuel { data := fr, pos := 0, clampSeek := false } p = ⟨to, .ok to.length⟩ := by
      rcases ha with ⟨ha, rfl⟩ | ⟨rfl, rfl⟩
      · exact C38_hdiffpatch_roundtrip _ T.hdiff hI _ true _ L fr to p false ha rfl hc
      · exact C38_match_blocks_sequential_roundtrip _ T.hdiff hW _ true _ L fr to p false rfl rfl hc
    rw [hd]
    refine ⟨fun n hn => put_other _ _ (by simpa using hn), F, fun fuel hfuel => ⟨⟨(d.put patchfile (some p)).put outfile (some to), none⟩, ?_, rfl, put_same _ _ _, ?_⟩⟩
    · show (if outfile = fromfile then none else _) = _
      rw [if_neg hof, applyFilenames_ok (by rw [put_other _ _ hpf.symm]; exact hf) (put_same _ _ _) hw' hop, lib_applyPatch T false 8 7 sais window lookahead]
      have := hF fuel hfuel
      rw [this]
      rfl
    · intro n hn
      exact put_other _ _ (by simpa using hn)

/-- C52. What `create_patch` wrote is what the function of that name makes with the parameters
of the command line: these compressors, this suffix array, this data format and segment. -/
theorem C52_create_made (T : Tools) (c : Compression) (t : PatchType) (a : Algorithm) (sais : Bool) (ms mb : Nat) (noMmap : Bool) (window lookahead : Nat)
    (o : FormatOptions) (d : Disk) (fromfile tofile patchfile : String) (fr to : Bytes)
    (hf : d.files fromfile = some fr) (ht : d.files tofile = some to) (hpf : patchfile ≠ fromfile) (hpt : patchfile ≠ tofile) (rest : Bytes) (fuel : Nat) (e : PyExit)
    (he : runCommand T rest fuel d (.createPatch c t a sais ms mb noMmap window lookahead o fromfile tofile patchfile) = some e) (hs : e.status = 0) :
    ∃ (lib : Lib) (args : CreateArgs) (seg : DataSegment) (patch : Bytes),
      (∀ c, (lib.codec c).comp = T.comp window lookahead c) ∧ lib.suffixArray = T.suffixArray sais ∧ dataFormatArgs o = .ok seg ∧
      args.compression = c ∧ args.patchType = t ∧ args.algorithm = a ∧ args.matchScore = ms ∧ args.matchBlockSize = mb ∧ args.useMmap = !noMmap ∧
      args.dataFormat = o.dataFormat.map (fun name => name.arch.format T.matcher seg) ∧
      createPatch lib T.hdiff true args fr to = .ok patch ∧ e.disk.files patchfile = some patch := by
  injection he with he
  cases ho : dataFormatArgs o with
  | error x =>
    rw [ho] at he
    subst he
    exact absurd hs (by simp [PyExit.status])
  | ok seg =>
    rw [ho] at he
    obtain ⟨p, hc, hd⟩ := createPatchFilenames_created hf ht hpf hpt he hs
    exact ⟨_, _, seg, p, fun _ => rfl, rfl, rfl, rfl, rfl, rfl, rfl, rfl, rfl, rfl, hc, by rw [hd, put_same]⟩

/-! ### Which files change -/

theorem createPatchFilenames_same (lib : Lib) (h : HDiff) (args : CreateArgs) (rest : Bytes) (d : Disk) (fromfile tofile patchfile : String) :
    SameExcept d (createPatchFilenames lib h args rest d fromfile tofile patchfile).1 [patchfile] := by
  intro n hn
  have hn : n ≠ patchfile := by simpa using hn
  unfold createPatchFilenames
  cases d.openRead fromfile with
  | error e => rfl
  | ok fr =>
    cases d.openRead tofile with
    | error e => rfl
    | ok to =>
      by_cases hw : d.writable patchfile = true
      · rw [openWrite_ok hw]
        simp only []
        cases (d.put patchfile (some [])).openRead fromfile with
        | error e => exact put_other _ _ hn
        | ok fr =>
          cases (d.put patchfile (some [])).openRead tofile with
          | error e => exact put_other _ _ hn
          | ok to =>
            simp only []
            cases createPatch lib h true args fr to with
            | error e => exact (put_other _ _ hn).trans (put_other _ _ hn)
            | ok p => exact (put_other _ _ hn).trans (put_other _ _ hn)
      · unfold Disk.openWrite
        rw [if_neg hw]

theorem applyFilenames_same (apply : PyFile → Bytes → W Int) (d : Disk) (fromfile patchfile tofile : String) :
    SameExcept d (applyFilenames apply d fromfile patchfile tofile).1 [tofile] := by
  intro n hn
  have hn : n ≠ tofile := by simpa using hn
  unfold applyFilenames
  cases d.openRead fromfile with
  | error e => rfl
  | ok fr =>
    cases d.openRead patchfile with
    | error e => rfl
    | ok p =>
      by_cases hw : d.writable tofile = true
      · rw [openWrite_ok hw]
        simp only []
        cases (d.put tofile (some [])).openRead patchfile with
        | error e => exact put_other _ _ hn
        | ok p => exact (put_other _ _ hn).trans (put_other _ _ hn)
      · unfold Disk.openWrite
        rw [if_neg hw]

theorem applyInPlaceFilenames_same (lib : Lib) (fuel : Nat) (d : Disk) (memfile patchfile : String) :
    SameExcept d (applyInPlaceFilenamesPy lib fuel d memfile patchfile).1 [memfile] := by
  intro n hn
  have hn : n ≠ memfile := by simpa using hn
  unfold applyInPlaceFilenamesPy
  cases d.openRead memfile with
  | error e => rfl
  | ok mem =>
    simp only []
    by_cases hw : d.writable memfile = true
    · rw [if_neg (by rw [hw]; simp)]
      cases d.openRead patchfile with
      | error e => rfl
      | ok p => exact put_other _ _ hn
    · rw [if_pos (by simpa using hw)]

/-- C52. Whatever a command is given and however it ends, no file but the one it writes has
changed; `patch_info` changes none. -/
theorem C52_only_output_changes (T : Tools) (rest : Bytes) (fuel : Nat) (d : Disk) (cmd : Command) {e : PyExit}
    (h : runCommand T rest fuel d cmd = some e) : SameExcept d e.disk cmd.outputs := by
  cases cmd with
  | createPatch c t a sais ms mb nm w l o f1 f2 p =>
    injection h with h
    subst h
    cases dataFormatArgs o with
    | error x => exact fun n _ => rfl
    | ok seg => exact createPatchFilenames_same _ _ _ _ _ _ _ _
  | createPatchInPlace c sais ms ss mn nm w l o f1 f2 p =>
    injection h with h
    subst h
    cases dataFormatArgs o with
    | error x => exact fun n _ => rfl
    | ok seg => exact createPatchFilenames_same _ _ _ _ _ _ _ _
  | createPatchBsdiff f1 f2 p =>
    injection h with h
    subst h
    exact createPatchFilenames_same _ _ _ _ _ _ _ _
  | applyPatch f1 p f2 =>
    simp only [runCommand] at h
    split at h
    · cases h
    · injection h with h
      subst h
      exact applyFilenames_same _ _ _ _ _
  | applyPatchInPlace m p =>
    simp only [runCommand] at h
    split at h
    · cases h
    · injection h with h
      subst h
      exact applyInPlaceFilenames_same _ _ _ _ _
  | applyPatchBsdiff f1 p f2 =>
    simp only [runCommand] at h
    split at h
    · cases h
    · injection h with h
      subst h
      exact applyFilenames_same _ _ _ _ _
  | patchInfo p =>
    injection h with h
    subst h
    exact fun n _ => rfl

theorem openRead_none {d : Disk} {n : String} (h : d.files n = none) : d.openRead n = .error (.builtin "FileNotFoundError") := by
  unfold Disk.openRead
  rw [h]

theorem openRead_cases (d : Disk) (n : String) : (∃ x, d.files n = some x ∧ d.openRead n = .ok x) ∨ d.openRead n = .error (.builtin "FileNotFoundError") := by
  cases h : d.files n with
  | none => exact .inr (openRead_none h)
  | some x => exact .inl ⟨x, rfl, openRead_some h⟩

theorem createPatchFilenames_blocked (lib : Lib) (h : HDiff) (args : CreateArgs) (rest : Bytes) (d : Disk) (fromfile tofile patchfile : String)
    (hb : (∃ n ∈ [fromfile, tofile], d.files n = none) ∨ ∃ n ∈ [patchfile], d.writable n = false) :
    ∃ x, createPatchFilenames lib h args rest d fromfile tofile patchfile = (d, .error x) := by
  unfold createPatchFilenames
  simp only [List.mem_cons, List.not_mem_nil, or_false, exists_eq_or_imp, exists_eq_left] at hb
  rcases openRead_cases d fromfile with ⟨fr, g1, h1⟩ | h1
  · rcases openRead_cases d tofile with ⟨to, g2, h2⟩ | h2
    · rw [g1, g2] at hb
      have hw : d.writable patchfile = false := by simpa using hb
      unfold Disk.openWrite
      rw [h1, h2, if_neg (by rw [hw]; decide)]
      exact ⟨_, rfl⟩
    · rw [h1, h2]
      exact ⟨_, rfl⟩
  · rw [h1]
    exact ⟨_, rfl⟩

theorem applyFilenames_blocked (apply : PyFile → Bytes → W Int) (d : Disk) (fromfile patchfile tofile : String)
    (hb : (∃ n ∈ [fromfile, patchfile], d.files n = none) ∨ ∃ n ∈ [tofile], d.writable n = false) :
    ∃ x, applyFilenames apply d fromfile patchfile tofile = (d, .error x) := by
  unfold applyFilenames
  simp only [List.mem_cons, List.not_mem_nil, or_false, exists_eq_or_imp, exists_eq_left] at hb
  rcases openRead_cases d fromfile with ⟨fr, g1, h1⟩ | h1
  · rcases openRead_cases d patchfile with ⟨to, g2, h2⟩ | h2
    · rw [g1, g2] at hb
      have hw : d.writable tofile = false := by simpa using hb
      unfold Disk.openWrite
      rw [h1, h2, if_neg (by rw [hw]; decide)]
      exact ⟨_, rfl⟩
    · rw [h1, h2]
      exact ⟨_, rfl⟩
  · rw [h1]
    exact ⟨_, rfl⟩

theorem applyInPlaceFilenames_blocked (lib : Lib) (fuel : Nat) (d : Disk) (memfile patchfile : String)
    (hb : (∃ n ∈ [memfile, patchfile], d.files n = none) ∨ ∃ n ∈ [memfile], d.writable n = false) :
    ∃ x, applyInPlaceFilenamesPy lib fuel d memfile patchfile = (d, .error x) := by
  unfold applyInPlaceFilenamesPy
  simp only [List.mem_cons, List.not_mem_nil, or_false, exists_eq_or_imp, exists_eq_left] at hb
  rcases openRead_cases d memfile with ⟨fr, g1, h1⟩ | h1
  · rw [h1]
    simp only []
    by_cases hw : d.writable memfile = true
    · rw [if_neg (by rw [hw]; simp)]
      rcases openRead_cases d patchfile with ⟨to, g2, h2⟩ | h2
      · rw [g1, g2, hw] at hb
        simp at hb
      · rw [h2]
        exact ⟨_, rfl⟩
    · rw [if_pos (by simpa using hw)]
      exact ⟨_, rfl⟩
  · rw [h1]
    exact ⟨_, rfl⟩

/-- C52. If a file to read is missing or the file to write cannot be opened, the status is 1
and nothing has changed. -/
theorem C52_blocked (T : Tools) (rest : Bytes) (fuel : Nat) (d : Disk) (cmd : Command) {e : PyExit}
    (hb : (∃ n ∈ cmd.inputs, d.files n = none) ∨ ∃ n ∈ cmd.outputs, d.writable n = false)
    (h : runCommand T rest fuel d cmd = some e) : e.status = 1 ∧ e.disk = d := by
  have key : ∀ {α : Type} {r : Disk × Except PyErr α}, (∃ x, r = (d, .error x)) → (endOf r).status = 1 ∧ (endOf r).disk = d := by
    rintro α r ⟨x, rfl⟩
    exact ⟨by simp [endOf, PyExit.status], rfl⟩
  cases cmd with
  | createPatch c t a sais ms mb nm w l o f1 f2 p =>
    injection h with h
    subst h
    cases dataFormatArgs o with
    | error x => exact ⟨by simp [PyExit.status], rfl⟩
    | ok seg => exact key (createPatchFilenames_blocked _ _ _ _ _ _ _ _ hb)
  | createPatchInPlace c sais ms ss mn nm w l o f1 f2 p =>
    injection h with h
    subst h
    cases dataFormatArgs o with
    | error x => exact ⟨by simp [PyExit.status], rfl⟩
    | ok seg => exact key (createPatchFilenames_blocked _ _ _ _ _ _ _ _ hb)
  | createPatchBsdiff f1 f2 p =>
    injection h with h
    subst h
    exact key (createPatchFilenames_blocked _ _ _ _ _ _ _ _ hb)
  | applyPatch f1 p f2 =>
    simp only [runCommand] at h
    split at h
    · cases h
    · injection h with h
      subst h
      exact key (applyFilenames_blocked _ _ _ _ _ hb)
  | applyPatchInPlace m p =>
    simp only [runCommand] at h
    split at h
    · cases h
    · injection h with h
      subst h
      exact key (applyInPlaceFilenames_blocked _ _ _ _ _ hb)
  | applyPatchBsdiff f1 p f2 =>
    simp only [runCommand] at h
    split at h
    · cases h
    · injection h with h
      subst h
      exact key (applyFilenames_blocked _ _ _ _ _ hb)
  | patchInfo p =>
    injection h with h
    subst h
    refine key ⟨.builtin "FileNotFoundError", ?_⟩
    simp only [Command.inputs, Command.outputs, List.mem_cons, List.not_mem_nil, or_false, false_and, exists_const, exists_eq_left] at hb
    rw [patchInfoFilename, openRead_none hb]
    rfl

/-- C52. A bad data format option: status 1 and nothing has changed. -/
theorem C52_bad_option (T : Tools) (rest : Bytes) (fuel : Nat) (d : Disk) (o : FormatOptions) (x : PyErr) (ho : dataFormatArgs o = .error x)
    (c : Compression) (t : PatchType) (a : Algorithm) (sais : Bool) (ms mb memory segment : Nat) (minShift : Option Nat) (noMmap : Bool) (window lookahead : Nat)
    (fromfile tofile patchfile : String) :
    runCommand T rest fuel d (.createPatch c t a sais ms mb noMmap window lookahead o fromfile tofile patchfile) = some ⟨d, some x⟩ ∧
    runCommand T rest fuel d (.createPatchInPlace c sais memory segment minShift noMmap window lookahead o fromfile tofile patchfile) = some ⟨d, some x⟩ := by
  simp only [runCommand, ho, and_self]

/-! ### Failures and files named twice -/

/-- C52. Once its three files are open, `apply_patch` leaves in the to-file exactly what
applying the patch wrote, and the status tells if that succeeded: earlier contents of the
to-file are gone in any case. If the patch is a sequential one, and the decompressor gives no
more than it is asked for, this is never more than the size in its header, and exactly as
much if the status is 0. -/
theorem C52_apply_result (T : Tools) (rest : Bytes) (fuel : Nat) (d : Disk) (fromfile patchfile tofile : String) (fr patch : Bytes)
    (hf : d.files fromfile = some fr) (hp : d.files patchfile = some patch) (hw : d.writable tofile = true)
    (hof : tofile ≠ fromfile) (hop : tofile ≠ patchfile) :
    ∃ e out, runCommand T rest fuel d (.applyPatch fromfile patchfile tofile) = some e ∧ e.disk.files tofile = some out ∧
      out = (applyPatch (T.lib false 8 7) T.hdiff (dataFormats T.matcher {}) fuel { data := fr } patch).out ∧
      (e.status = 0 ↔ ∃ n, (applyPatch (T.lib false 8 7) T.hdiff (dataFormats T.matcher {}) fuel { data := fr } patch).res = .ok n) ∧
      ∀ c toSize body, readHeaderSequential patch = .ok (c, toSize, body) → ((T.lib false 8 7).codecOf c).decomp.Bounded →
        out.length ≤ toSize.toNat ∧ (e.status = 0 → out.length = toSize.toNat) := by
  refine ⟨endOf (d.put tofile (some (applyPatch (T.lib false 8 7) T.hdiff (dataFormats T.matcher {}) fuel { data := fr } patch).out),
      (applyPatch (T.lib false 8 7) T.hdiff (dataFormats T.matcher {}) fuel { data := fr } patch).res), _, ?_, put_same _ _ _, rfl, ?_⟩
  · show (if tofile = fromfile then none else _) = _
    rw [if_neg hof, applyFilenames_ok hf hp hw hop]
  · have hstat : (endOf (d.put tofile (some (applyPatch (T.lib false 8 7) T.hdiff (dataFormats T.matcher {}) fuel { data := fr } patch).out),
        (applyPatch (T.lib false 8 7) T.hdiff (dataFormats T.matcher {}) fuel { data := fr } patch).res)).status = 0 ↔
        ∃ n, (applyPatch (T.lib false 8 7) T.hdiff (dataFormats T.matcher {}) fuel { data := fr } patch).res = .ok n := by
      cases (applyPatch (T.lib false 8 7) T.hdiff (dataFormats T.matcher {}) fuel { data := fr } patch).res with
      | ok n => simp [endOf, PyExit.status]
      | error x => simp [endOf, PyExit.status]
    refine ⟨hstat, fun c toSize body hdr hD => ?_⟩
    have hseq : applyPatch (T.lib false 8 7) T.hdiff (dataFormats T.matcher {}) fuel { data := fr } patch =
        applySequential (T.lib false 8 7) (dataFormats T.matcher {}) fuel { data := fr } patch := by
      cases patch with
      | nil => simp [readHeaderSequential] at hdr
      | cons b bs =>
        have : (unpackHeader b).1 = PATCH_TYPE_SEQUENTIAL := by
          by_cases hb : (unpackHeader b).1 = PATCH_TYPE_SEQUENTIAL
          · exact hb
          · simp only [readHeaderSequential, ne_eq, hb, not_false_eq_true, if_true] at hdr
            cases hdr
        rw [applyPatch]
        simp only [peekHeaderType, W.lift_bind_ok, this, if_true]
    rw [hstat, hseq]
    obtain ⟨h1, h2⟩ := C36_writes_exactly_to_size (T.lib false 8 7) (dataFormats T.matcher {}) fuel { data := fr } patch c toSize body hdr hD
    exact ⟨h1, fun ⟨n, hn⟩ => (h2 n hn).2⟩

/-- C52. If the to-file of `apply_patch` is the patch, the patch is emptied before it is read:
the command fails and the patch is lost. -/
theorem C52_apply_over_patch (T : Tools) (rest : Bytes) (fuel : Nat) (d : Disk) (fromfile patchfile : String) (fr patch : Bytes)
    (hf : d.files fromfile = some fr) (hp : d.files patchfile = some patch) (hw : d.writable patchfile = true) (hne : patchfile ≠ fromfile) :
    ∃ e, runCommand T rest fuel d (.applyPatch fromfile patchfile patchfile) = some e ∧
      e.error = some (.error "Failed to read the patch header.") ∧ e.disk.files patchfile = some [] := by
  refine ⟨⟨(d.put patchfile (some [])).put patchfile (some []), _⟩, ?_, rfl, put_same _ _ _⟩
  show (if patchfile = fromfile then none else _) = _
  rw [if_neg hne]
  unfold applyFilenames
  rw [openRead_some hf, openRead_some hp, openWrite_ok hw]
  simp only []
  rw [openRead_some (put_same d patchfile (some []))]
  rfl

/-- C52. If the patch of `create_patch` is the from-file or the to-file, that file is emptied
before it is read: the command succeeds, the file is overwritten, and the patch is the one
for an empty file. -/
theorem C52_create_over_input (T : Tools) (c : Compression) (sais : Bool) (ms mb : Nat) (noMmap : Bool) (window lookahead : Nat)
    (hsa : SuffixArrayInRange (T.suffixArray sais)) (L : Lossless ((T.lib sais window lookahead).codecOf c))
    (d : Disk) (fromfile tofile : String) (fr to : Bytes) (hne : fromfile ≠ tofile)
    (hf : d.files fromfile = some fr) (ht : d.files tofile = some to) (hsz : fr.length + to.length < 2 ^ 31)
    (hw : d.writable fromfile = true) (hw' : d.writable tofile = true) (rest : Bytes) (fuel : Nat) :
    (∃ e patch, runCommand T rest fuel d (.createPatch c .sequential .bsdiff sais ms mb noMmap window lookahead {} fromfile tofile fromfile) = some e ∧
      e.status = 0 ∧ e.disk.files fromfile = some patch ∧ createSequential (T.lib sais window lookahead) c none [] to = .ok patch) ∧
    (∃ e patch, runCommand T rest fuel d (.createPatch c .sequential .bsdiff sais ms mb noMmap window lookahead {} fromfile tofile tofile) = some e ∧
      e.status = 0 ∧ e.disk.files tofile = some patch ∧ createSequential (T.lib sais window lookahead) c none fr [] = .ok patch) := by
  have hfmt : ∀ f, (none : Option DataFormat) = some f → f.number < 2 ^ 62 ∧ ReadsFormat (dataFormats T.matcher {}) f ∧ f.LosslessOn ([] : Bytes) to := by
    intro f h; cases h
  have hfmt' : ∀ f, (none : Option DataFormat) = some f → f.number < 2 ^ 62 ∧ ReadsFormat (dataFormats T.matcher {}) f ∧ f.LosslessOn fr ([] : Bytes) := by
    intro f h; cases h
  obtain ⟨p1, h1, _⟩ := C03_sequential_roundtrip (T.lib sais window lookahead) hsa (dataFormats T.matcher {}) c L none [] to false (by simp; omega) hfmt
  obtain ⟨p2, h2, _⟩ := C03_sequential_roundtrip (T.lib sais window lookahead) hsa (dataFormats T.matcher {}) c L none fr [] false (by simp; omega) hfmt'
  constructor
  · refine ⟨⟨(d.put fromfile (some [])).put fromfile (some p1), none⟩, p1, ?_, rfl, put_same _ _ _, h1⟩
    show some (endOf (createPatchFilenames (T.lib sais window lookahead) T.hdiff _ rest d fromfile tofile fromfile)) = _
    unfold createPatchFilenames
    rw [openRead_some hf, openRead_some ht, openWrite_ok hw]
    simp only []
    rw [openRead_some (put_same _ _ _), openRead_some (by rw [put_other _ _ hne.symm]; exact ht)]
    simp only [createPatch, formatOf, Option.map_none, h1]
    rfl
  · refine ⟨⟨(d.put tofile (some [])).put tofile (some p2), none⟩, p2, ?_, rfl, put_same _ _ _, h2⟩
    show some (endOf (createPatchFilenames (T.lib sais window lookahead) T.hdiff _ rest d fromfile tofile tofile)) = _
    unfold createPatchFilenames
    rw [openRead_some hf, openRead_some ht, openWrite_ok hw']
    simp only []
    rw [openRead_some (put_same _ tofile _), openRead_some (by rw [put_other _ _ hne]; exact hf)]
    simp only [createPatch, formatOf, Option.map_none, h2]
    rfl

/-! ### Ranges -/

theorem splitDash_iff : ∀ {l a b : List Char}, splitDash l = [a, b] ↔ l = a ++ '-' :: b ∧ '-' ∉ a ∧ '-' ∉ b := by
  have one : ∀ {l a : List Char}, splitDash l = [a] ↔ l = a ∧ '-' ∉ a := by
    intro l
    induction l with
    | nil =>
      intro a
      simp only [splitDash, List.cons.injEq, and_true]
      constructor
      · rintro rfl; simp
      · rintro ⟨h, _⟩; exact h
    | cons c l ih =>
      intro a
      rw [splitDash]
      by_cases hc : c = '-'
      · rw [if_pos hc]
        constructor
        · intro h
          injection h with _ h
          cases l with
          | nil => cases h
          | cons x xs =>
            rw [splitDash] at h
            split at h
            · cases h
            · split at h <;> cases h
        · rintro ⟨rfl, h⟩
          exact absurd (hc ▸ List.mem_cons_self) h
      · rw [if_neg hc]
        cases hs : splitDash l with
        | nil =>
          exfalso
          cases l with
          | nil => cases hs
          | cons x xs =>
            rw [splitDash] at hs
            split at hs
            · cases hs
            · split at hs <;> cases hs
        | cons p ps =>
          simp only []
          constructor
          · intro h
            injection h with h1 h2
            subst h2
            obtain ⟨e1, e2⟩ := ih.1 hs
            subst h1
            exact ⟨by rw [e1], by simp [e2]; exact fun h => hc h.symm⟩
          · rintro ⟨rfl, h⟩
            have := ih.2 ⟨rfl, fun hm => h (List.mem_cons_of_mem _ hm)⟩
            rw [hs] at this
            injection this with t1 t2
            rw [t1, t2]
  intro l
  induction l with
  | nil =>
    intro a b
    simp [splitDash]
  | cons c l ih =>
    intro a b
    rw [splitDash]
    by_cases hc : c = '-'
    · rw [if_pos hc]
      constructor
      · intro h
        injection h with h1 h2
        obtain ⟨e1, e2⟩ := one.1 h2
        subst h1
        exact ⟨by rw [hc, e1]; rfl, by simp, e2⟩
      · rintro ⟨e, ha, hb⟩
        cases a with
        | nil =>
          injection e with _ e
          rw [one.2 ⟨e, hb⟩]
        | cons x xs =>
          injection e with e _
          exact absurd (by rw [← e, hc]; exact List.mem_cons_self) ha
    · rw [if_neg hc]
      cases hs : splitDash l with
      | nil =>
        exfalso
        cases l with
        | nil => cases hs
        | cons x xs =>
          rw [splitDash] at hs
          split at hs
          · cases hs
          · split at hs <;> cases hs
      | cons p ps =>
        simp only []
        constructor
        · intro h
          injection h with h1 h2
          subst h2
          obtain ⟨e1, e2, e3⟩ := ih.1 hs
          subst h1
          exact ⟨by rw [e1]; rfl, by simp [e2]; exact fun h => hc h.symm, e3⟩
        · rintro ⟨e, ha, hb⟩
          cases a with
          | nil =>
            injection e with e _
            exact absurd e hc
          | cons x xs =>
            injection e with e0 e
            have := ih.2 ⟨e, fun hm => ha (List.mem_cons_of_mem _ hm), hb⟩
            rw [hs] at this
            injection this with t1 t2
            rw [t1, t2, e0]

/-- C52. A range is accepted if and only if it is two numbers with one `-` between them, the
first not greater than the second; these numbers are the result. -/
theorem C52_range_iff (option : String) (value : List Char) (x y : Int) :
    parseRange option (some value) = .ok (x, y) ↔
      ∃ a b, value = a ++ '-' :: b ∧ '-' ∉ a ∧ '-' ∉ b ∧ pyInt a = some x ∧ pyInt b = some y ∧ x ≤ y := by
  unfold parseRange
  simp only []
  constructor
  · intro h
    split at h
    · rename_i a b hs
      obtain ⟨e1, e2, e3⟩ := splitDash_iff.1 hs
      simp only [parseInteger, Bind.bind, Except.bind] at h
      cases ha : pyInt a with
      | none => rw [ha] at h; cases h
      | some u =>
        cases hb : pyInt b with
        | none => rw [ha, hb] at h; cases h
        | some v =>
          rw [ha, hb] at h
          simp only [] at h
          by_cases hlt : v < u
          · rw [if_pos hlt] at h; cases h
          · rw [if_neg hlt] at h
            cases h
            exact ⟨a, b, e1, e2, e3, ha, hb, by omega⟩
    · cases h
  · rintro ⟨a, b, e1, e2, e3, ha, hb, hle⟩
    rw [splitDash_iff.2 ⟨e1, e2, e3⟩]
    simp only [parseInteger, ha, hb, Bind.bind, Except.bind]
    rw [if_neg (by omega)]
    rfl

/-- C52. Ranges as the tool prints them, and decimal ones, are read as what they say. A
range that ends before it begins is an error that names the option. -/
theorem C52_range_roundtrip (option : String) (a b : Nat) :
    (a ≤ b → parseRange option (some (hexRange a b)) = .ok ((a : Int), (b : Int)) ∧
      parseRange option (some (formatDec a ++ '-' :: formatDec b)) = .ok ((a : Int), (b : Int))) ∧
    (b < a → parseRange option (some (hexRange a b)) =
      .error (.error (option ++ ": End value " ++ String.ofList (formatHex b) ++ " is less than begin value " ++ String.ofList (formatHex a) ++ "."))) :=
  ⟨fun h => ⟨parseRange_two (formatHex_plain a) (formatHex_plain b) (pyInt_hex a) (pyInt_hex b) (by omega),
      parseRange_two (formatDec_plain a) (formatDec_plain b) (pyInt_dec a) (pyInt_dec b) (by omega)⟩,
    fun h => parseRange_reversed (formatHex_plain a) (formatHex_plain b) (pyInt_hex a) (pyInt_hex b) (by omega)⟩

theorem dropWhile_all {p : Char → Bool} {b : List Char} : ∀ {l : List Char}, (∀ c ∈ l, p c = true) → (l ++ b).dropWhile p = b.dropWhile p
  | [], _ => rfl
  | c :: l, h => by
    rw [List.cons_append, List.dropWhile_cons, if_pos (h c List.mem_cons_self)]
    exact dropWhile_all fun d hd => h d (List.mem_cons_of_mem _ hd)

theorem pyInt_signed {l : List Char} {n : Nat} (h : ∀ c ∈ l, PlainChar c) (hv : pyInt l = some (n : Int)) (s t : List Char)
    (hs : ∀ c ∈ s, isPySpace c = true) (ht : ∀ c ∈ t, isPySpace c = true) :
    pyInt (s ++ l ++ t) = some (n : Int) ∧ pyInt (s ++ '+' :: l ++ t) = some (n : Int) ∧ pyInt (s ++ '-' :: l ++ t) = some (-(n : Int)) := by
  have key : ∀ m : List Char, (∀ c ∈ m, isPySpace c = false) →
      ((((s ++ m ++ t).dropWhile isPySpace).reverse).dropWhile isPySpace).reverse = m := by
    intro m hm
    rw [List.append_assoc, dropWhile_all hs]
    cases m with
    | nil =>
      have := dropWhile_all (b := []) ht
      rw [List.append_nil] at this
      rw [List.nil_append, this]
      rfl
    | cons c m =>
      rw [List.cons_append, List.dropWhile_cons, hm c List.mem_cons_self, if_neg (by decide), ← List.cons_append, List.reverse_append,
        dropWhile_all (fun c hc => ht c (List.mem_reverse.1 hc)), dropWhile_none (fun c hc => hm c (List.mem_reverse.1 hc)), List.reverse_reverse]
  have hu : unsignedValue l = some n := by
    unfold pyInt at hv
    have k := key l fun c hc => (h c hc).space
    have k' : ((l.dropWhile isPySpace).reverse.dropWhile isPySpace).reverse = l := by
      rw [dropWhile_none fun c hc => (h c hc).space, dropWhile_none fun c hc => (h c (List.mem_reverse.1 hc)).space, List.reverse_reverse]
    rw [k'] at hv
    split at hv
    · exact absurd rfl (h _ List.mem_cons_self).minus
    · exact absurd rfl (h _ List.mem_cons_self).plus
    · cases hu : unsignedValue l with
      | none => rw [hu] at hv; cases hv
      | some m =>
        rw [hu] at hv
        have hv' : (m : Int) = (n : Int) := Option.some.inj hv
        rw [show m = n by omega]
  have cons : ∀ c, isPySpace c = false → ∀ d ∈ c :: l, isPySpace d = false := by
    intro c hc d hd
    rcases List.mem_cons.1 hd with rfl | hd
    · exact hc
    · exact (h d hd).space
  refine ⟨?_, ?_, ?_⟩
  · unfold pyInt
    rw [key l fun c hc => (h c hc).space]
    split
    · exact absurd rfl (h _ List.mem_cons_self).minus
    · exact absurd rfl (h _ List.mem_cons_self).plus
    · rw [hu]; rfl
  · unfold pyInt
    rw [key ('+' :: l) (cons '+' (by decide))]
    simp [hu]
  · unfold pyInt
    rw [key ('-' :: l) (cons '-' (by decide))]
    simp [hu]

/-- C52. A number is read as what it says, in decimal and as the tool prints it, with and
without a sign and with white space around it. -/
theorem C52_integers (option : String) (n : Nat) (s t : List Char)
    (hs : ∀ c ∈ s, c.toNat ∈ [9, 10, 11, 12, 13, 28, 29, 30, 31, 32]) (ht : ∀ c ∈ t, c.toNat ∈ [9, 10, 11, 12, 13, 28, 29, 30, 31, 32]) :
    ∀ l ∈ [formatDec n, formatHex n],
      parseInteger option (s ++ l ++ t) = .ok (n : Int) ∧ parseInteger option (s ++ '+' :: l ++ t) = .ok (n : Int) ∧
      parseInteger option (s ++ '-' :: l ++ t) = .ok (-(n : Int)) := by
  have sp : ∀ c : Char, c.toNat ∈ [9, 10, 11, 12, 13, 28, 29, 30, 31, 32] → isPySpace c = true := by
    intro c hc
    have e : c = Char.ofNat c.toNat := (Char.ofNat_toNat c).symm
    simp only [List.mem_cons, List.not_mem_nil, or_false] at hc
    rcases hc with h | h | h | h | h | h | h | h | h | h <;> rw [e, h] <;> decide
  intro l hl
  simp only [List.mem_cons, List.not_mem_nil, or_false] at hl
  have : pyInt (s ++ l ++ t) = some (n : Int) ∧ pyInt (s ++ '+' :: l ++ t) = some (n : Int) ∧ pyInt (s ++ '-' :: l ++ t) = some (-(n : Int)) := by
    rcases hl with rfl | rfl
    · exact pyInt_signed (formatDec_plain n) (pyInt_dec n) s t (fun c h => sp c (hs c h)) (fun c h => sp c (ht c h))
    · exact pyInt_signed (formatHex_plain n) (pyInt_hex n) s t (fun c h => sp c (hs c h)) (fun c h => sp c (ht c h))
  simp only [parseInteger, this.1, this.2.1, this.2.2]
  exact ⟨trivial, trivial, trivial⟩

example : parseInteger "--x" "\t-0x00000010 ".toList = .ok (-16) ∧ formatHex 16 = "0x00000010".toList := by decide +kernel

/-- C52. The six ranges end up in the data segment where their names say. A range that is not
given is empty. -/
theorem C52_data_segment (f : Option FormatName) (a1 b1 a2 b2 a3 b3 a4 b4 a5 b5 a6 b6 : Nat)
    (h1 : a1 ≤ b1) (h2 : a2 ≤ b2) (h3 : a3 ≤ b3) (h4 : a4 ≤ b4) (h5 : a5 ≤ b5) (h6 : a6 ≤ b6) :
    dataFormatArgs { dataFormat := f, fromDataOffsets := some (hexRange a1 b1), fromCodeAddresses := some (hexRange a2 b2)
                     fromDataAddresses := some (hexRange a3 b3), toDataOffsets := some (hexRange a4 b4)
                     toCodeAddresses := some (hexRange a5 b5), toDataAddresses := some (hexRange a6 b6) } =
      .ok { from_ := { offsetBegin := a1, offsetEnd := b1, codeBegin := a2, codeEnd := b2, dataBegin := a3, dataEnd := b3 }
            to := { offsetBegin := a4, offsetEnd := b4, codeBegin := a5, codeEnd := b5, dataBegin := a6, dataEnd := b6 } } ∧
    dataFormatArgs { dataFormat := f } = .ok {} := by
  refine ⟨?_, rfl⟩
  unfold dataFormatArgs
  simp only [((C52_range_roundtrip _ _ _).1 h1).1, ((C52_range_roundtrip _ _ _).1 h2).1, ((C52_range_roundtrip _ _ _).1 h3).1,
    ((C52_range_roundtrip _ _ _).1 h4).1, ((C52_range_roundtrip _ _ _).1 h5).1, ((C52_range_roundtrip _ _ _).1 h6).1, Bind.bind, Except.bind, elfRanges]
  rfl

/-- C52 does not extend to the name of the option in the error message for a bad value of
`--to-data-offsets`: it names `--from-data-offsets`. -/
theorem C52_wrong_option_named :
    dataFormatArgs { toDataOffsets := some "5".toList } =
      .error (.error "--from-data-offsets: Expected a range on the form <integer>-<integer>, but got '5'.") := by
  rfl

/-! ### Information -/

theorem printSegments_created {fr to : Bytes} {seg shift toSize : Nat} (hseg : 0 < seg) : ∀ (opss : List (List Op)) (i : Nat),
    SegOps fr to seg shift i opss → printSegments (describeSegments seg toSize i opss) = .ok ()
  | [], _, _ => rfl
  | ops :: rest, i, h => by
    obtain ⟨h1, h2, h3⟩ := h
    rw [describeSegments, printSegments]
    have : (describeOps ((min seg (toSize - i * seg) : Nat) : Int) ops).diffSizes ≠ [] := by
      intro he
      have hops : ops = [] := by
        cases ops with
        | nil => rfl
        | cons x xs => simp [describeOps] at he
      subst hops
      have : ((to.drop (i * seg)).take seg) = [] := by simpa [Rebuilds] using h2
      have hl := congrArg List.length this
      simp at hl
      omega
    rw [if_neg this]
    exact printSegments_created hseg rest (i + 1) h3

/-- C52. `patch_info` ends with status 0 for what `create_patch` (bsdiff, sequential, with and
without a data format) and `create_patch_in_place` made. -/
theorem C52_info (T : Tools) (c : Compression) (sais : Bool) (window lookahead : Nat)
    (hsa : SuffixArrayInRange (T.suffixArray sais)) (L : Lossless ((T.lib sais window lookahead).codecOf c))
    (memory segment : Nat) (minShift : Option Nat) (hseg : 0 < segment) (hmem : segment ∣ memory) (hmin : segment ∣ minShift.getD (2 * segment))
    (fr to patch : Bytes)
    (hsize : memory < 2 ^ 62 ∧ segment < 2 ^ 62 ∧ minShift.getD (2 * segment) < 2 ^ 62 ∧ fr.length + to.length < 2 ^ 31)
    (hc : createSequential (T.lib sais window lookahead) c none fr to = .ok patch ∨
      (∃ A seg, Supported A seg ∧ seg.Ok ∧ T.matcher.Ok ∧ to ≠ [] ∧
        createSequential (T.lib sais window lookahead) c (some (A.format T.matcher seg)) fr to = .ok patch) ∨
      createInPlace (T.lib sais window lookahead) c memory segment (minShift.map Int.ofNat) none fr to = .ok patch)
    (d : Disk) (patchfile : String) (hp : d.files patchfile = some patch) (rest : Bytes) :
    ∃ F, ∀ fuel, F ≤ fuel → runCommand T rest fuel d (.patchInfo patchfile) = some ⟨d, none⟩ := by
  obtain ⟨z1, z2, z3, z4⟩ := hsize
  obtain ⟨F, info, hF, hpr⟩ : ∃ (F : Nat) (info : PatchInfo), (∀ fuel, F ≤ fuel →
      patchInfo (T.lib sais window lookahead) dataFormatInfoRaises (fun n => (dataFormats T.matcher {} n).isSome) fuel patch = .ok info) ∧ printInfo info = .ok () := by
    rcases hc with hc | ⟨A, seg, hA, hs, hm, hne, hc⟩ | hc
    · obtain ⟨p, ops, g1, _, _, _, F, hF⟩ := C25_info_created (T.lib sais window lookahead) hsa dataFormatInfoRaises (fun n => (dataFormats T.matcher {} n).isSome) c L fr to z4
      rw [hc] at g1
      injection g1 with g1
      subst g1
      exact ⟨F, _, hF, rfl⟩
    · obtain ⟨_, _, _, p, ops, _, g1, _, _, F, hF⟩ := C25_info_created_supported (T.lib sais window lookahead) hsa
        (fun n => (dataFormats T.matcher {} n).isSome) c L hA hs T.matcher hm fr to z4 hne
      rw [hc] at g1
      injection g1 with g1
      subst g1
      exact ⟨F, _, hF, rfl⟩
    · obtain ⟨p, shift, opss, g1, _, _, g3, F, hF⟩ := C25_info_in_place (T.lib sais window lookahead) hsa dataFormatInfoRaises (fun n => (dataFormats T.matcher {} n).isSome) c L
        memory segment minShift fr to hseg hmem hmin z1 z3 z4 z2
      rw [hc] at g1
      injection g1 with g1
      subst g1
      exact ⟨F, _, hF, printSegments_created hseg opss 0 g3⟩
  refine ⟨F, fun fuel hfuel => ?_⟩
  show some (endOf (d, (do
      let info ← patchInfoFilename (T.lib false 8 7) dataFormatInfoRaises (fun n => (dataFormats T.matcher {} n).isSome) fuel d patchfile
      printInfo info))) = _
  rw [patchInfoFilename, openRead_some hp, lib_patchInfo T false 8 7 sais window lookahead]
  simp only [Bind.bind, Except.bind, hF fuel hfuel, hpr]
  rfl

/-! ### Examples -/

/-- Tools without compression, with a suffix array that is not sorted, for the examples. -/
def exampleTools : Tools where
  comp := fun _ _ _ => noneCodec.comp
  codec := fun _ => noneCodec
  suffixArray := fun _ fr => List.range (fr.length + 1)
  hdiff := exampleHDiff
  matcher := exampleMatcher

/-- A disk with two files. -/
def exampleTwoFiles : Disk where
  files := fun n => if n = "old" then some [1, 2, 3, 4, 5] else if n = "new" then some [1, 2, 3, 9, 4, 5, 6] else none

def filesAfter (names : List String) (e : Option PyExit) : Option (Nat × List (Option Bytes)) := e.map fun e => (e.status, names.map e.disk.files)

/-- The commands of the examples one after the other. -/
def exampleCommands (cmds : List Command) : Option PyExit :=
  cmds.foldl (fun e cmd => e.bind fun e => runCommand exampleTools [7] 60 e.disk cmd) (some ⟨exampleTwoFiles, none⟩)

example : SuffixArrayInRange (exampleTools.suffixArray true) := exampleLib_inRange

example : Nonempty (Lossless ((exampleTools.lib true 8 7).codecOf .crle)) := ⟨crleLossless⟩

/-- The hypotheses of `C52_create_apply` can be met with a data format and data addresses. -/
example : ∃ seg, dataFormatArgs { dataFormat := some .armCortexM4, fromDataOffsets := some (hexRange 16 32), fromDataAddresses := some (hexRange 65552 65568) } = .ok seg ∧
    exampleTools.matcher.Ok ∧ Supported FormatName.armCortexM4.arch seg ∧ seg.Ok := by
  refine ⟨{ from_ := { offsetBegin := 16, offsetEnd := 32, dataBegin := 65552, dataEnd := 65568 } }, by rfl, exampleMatcher_ok, .cortexM4 ⟨?_, ?_⟩, ⟨?_, ?_, ?_, ?_, ?_, ?_⟩⟩ <;>
    simp [Address]

example : filesAfter ["old", "new", "copy"] (exampleCommands [.createPatch .crle .sequential .bsdiff true 6 64 false 8 7 {} "old" "new" "patch",
    .patchInfo "patch", .applyPatch "old" "patch" "copy"]) =
    some (0, [some [1, 2, 3, 4, 5], some [1, 2, 3, 9, 4, 5, 6], some [1, 2, 3, 9, 4, 5, 6]]) := by decide +kernel

example : filesAfter ["new", "old"] (exampleCommands [.createPatchInPlace .none true 4 2 (some 2) false 8 7 {} "old" "new" "patch",
    .patchInfo "patch", .applyPatchInPlace "old" "patch"]) =
    some (0, [some [1, 2, 3, 9, 4, 5, 6], some [1, 2, 3, 9, 4, 5, 6]]) := by decide +kernel

example : filesAfter ["copy", "new"] (exampleCommands [.createPatch .none .hdiffpatch .hdiffpatch true 6 64 false 8 7 {} "old" "new" "patch",
    .applyPatch "old" "patch" "copy"]) =
    some (0, [some [1, 2, 3, 9, 4, 5, 6], some [1, 2, 3, 9, 4, 5, 6]]) := by decide +kernel

/-- A failing `apply_patch` empties the to-file. -/
example : filesAfter ["new"] (exampleCommands [.applyPatch "old" "old" "new"]) = some (1, [some []]) := by decide +kernel

/-- The from-file given as the patch is lost. -/
example : filesAfter ["old", "copy"] (exampleCommands [.createPatch .none .sequential .bsdiff true 6 64 false 8 7 {} "old" "new" "old",
    .applyPatch "new" "old" "copy"]) =
    some (0, [some [0x00, 7, 0, 0, 7, 1, 2, 3, 9, 4, 5, 6, 0], some [1, 2, 3, 9, 4, 5, 6]]) := by decide +kernel

example : hexRange 16 74565 = "0x00000010-0x00012345".toList := by decide +kernel

example : parseRange "--x" (some "0x10-0x20".toList) = .ok (16, 32) ∧ parseRange "--x" (some "1_0-0b11111".toList) = .ok (10, 31) ∧
    parseRange "--x" (some "010-20".toList) = .error (.error "--x: Expected an integer, but got '010'.") ∧
    parseRange "--x" (some "1-2-3".toList) = .error (.error "--x: Expected a range on the form <integer>-<integer>, but got '1-2-3'.") ∧
    parseRange "--x" (some "-1-2".toList) = .error (.error "--x: Expected a range on the form <integer>-<integer>, but got '-1-2'.") := by
  decide +kernel

end Detools
