import Verif.Proofs.CCodes
import Verif.Props.CCallbacks
import Verif.Props.CInPlaceFiles
/-
C49: every failure of the C library has a documented error code and message, and the
command line tool reports it. `DocumentedError` is in Spec/CCodes.lean, `runCalls` and
`runInPlaceCalls` in Spec/CApi.lean and Spec/CInPlaceApi.lean.
-/
namespace Detools

attribute [local instance] noLzma

/-- C49. Whatever the callbacks do and whatever data is processed: every call of the
sequential API that does not succeed returns a documented error code. -/
theorem C49_sequential_codes [Build] (E : SeqEnv σ) (patchSize : Nat) (arg : σ) (calls : List Call) {rs s w}
    (h : runCalls E (applyPatchInit patchSize) { arg := arg } calls = .ok (rs, s, w)) :
    ∀ r ∈ rs, 0 ≤ r ∨ DocumentedError r :=
  runCalls_doc calls (SInv.start patchSize) h

/-- C49. The same for the in-place API, except that the return value of a memory callback
may be passed on. -/
theorem C49_in_place_codes [Build] (E : MemEnv σ) (hE : ¬ E.Returns ALREADY_DONE) (patchSize : Nat) (arg : σ) (calls : List Call) {rs s w}
    (h : runInPlaceCalls E (inPlaceInit patchSize) { arg := arg } calls = .ok (rs, s, w)) :
    ∀ r ∈ rs, 0 ≤ r ∨ DocumentedError r ∨ E.Returns r :=
  runInPlaceCalls_doc hE calls (IPState.start patchSize) h

/-- C49. The same for the functions that take all callbacks at once. -/
theorem C49_callbacks_codes [Build] (E : SeqEnv σ) (patchRead : PatchRead σ) (patchSize : Nat) (arg : σ) {res w reads}
    (h : applyPatchCallbacks E patchRead patchSize arg = .ok (res, w, reads)) : 0 ≤ res ∨ DocumentedError res :=
  callbacks_doc h

theorem C49_in_place_callbacks_codes [Build] (E : MemEnv σ) (hE : ¬ E.Returns ALREADY_DONE) (patchRead : PatchRead σ) (patchSize : Nat) (arg : σ) {res w reads}
    (h : applyPatchInPlaceCallbacks E patchRead patchSize arg = .ok (res, w, reads)) : 0 ≤ res ∨ DocumentedError res ∨ E.Returns res :=
  inPlaceCallbacks_doc hE h

/-- C49. The same for the functions that take file names, whatever the operating system
answers. -/
theorem C49_filenames_codes [Build] (os : Os) {res out} (h : applyPatchFilenames os = .ok (res, out)) : 0 ≤ res ∨ DocumentedError res :=
  filenames_doc h

theorem C49_in_place_filenames_codes [Build] (os : IpOs) (steps : Steps υ) (u : υ) {res out}
    (h : applyPatchInPlaceFilenames os steps u = .ok (res, out)) : 0 ≤ res ∨ DocumentedError res :=
  inPlaceFilenames_doc h

theorem documented_iff (e : Int) : DocumentedError e ↔ ∃ n : Fin 27, e = -((n.val : Int) + 1) := by
  constructor
  · rintro ⟨h1, h2⟩
    exact ⟨⟨(-e - 1).toNat, by omega⟩, by simp only; omega⟩
  · rintro ⟨n, rfl⟩
    have := n.isLt
    exact ⟨by omega, by omega⟩

/-- C49. Different error codes have different messages, none of them the one of an
unknown error; the message of each code is the one its name promises. The sign of the
code does not matter. -/
theorem C49_messages :
    (∀ e, errorAsString (-e) = errorAsString e) ∧
    (∀ e e', DocumentedError e → DocumentedError e' → errorAsString e = errorAsString e' → e = e') ∧
    (∀ e, DocumentedError e → errorAsString e ≠ "Unknown error.") ∧
    (∀ e, ¬ DocumentedError e → ¬ DocumentedError (-e) → errorAsString e = "Unknown error.") ∧
    (∀ x ∈ errorTable, DocumentedError (-x.1) ∧ errorAsString (-x.1) = x.2.2) := by
  refine ⟨fun e => ?_, fun e e' h h' => ?_, fun e h => ?_, fun e h h' => ?_, by decide +kernel⟩
  · have : (if -e < 0 then -e * -1 else -e) = if e < 0 then e * -1 else e := by
      split <;> split <;> omega
    unfold errorAsString
    rw [this]
  · obtain ⟨n, rfl⟩ := (documented_iff e).1 h
    obtain ⟨n', rfl⟩ := (documented_iff e').1 h'
    have key : ∀ n n' : Fin 27, errorAsString (-((n.val : Int) + 1)) = errorAsString (-((n'.val : Int) + 1)) → n = n' := by decide +kernel
    intro k
    rw [key n n' k]
  · obtain ⟨n, rfl⟩ := (documented_iff e).1 h
    revert n
    intro n _
    have key : ∀ n : Fin 27, errorAsString (-((n.val : Int) + 1)) ≠ "Unknown error." := by decide +kernel
    exact key n
  · unfold DocumentedError at h h'
    unfold errorAsString
    simp only
    generalize hk : (if e < 0 then e * -1 else e) = k
    have hk' : k < 1 ∨ 27 < k := by rw [← hk]; split <;> omega
    iterate 27 rw [if_neg (by omega)]

/-- C49. The error codes the library returns, by name. -/
theorem C49_names : errorTable.map (·.1) = (List.range' 1 27).map Int.ofNat ∧
    ∀ x ∈ [(NOT_IMPLEMENTED, "NOT_IMPLEMENTED"), (BAD_PATCH_TYPE, "BAD_PATCH_TYPE"), (BAD_COMPRESSION, "BAD_COMPRESSION"),
      (INTERNAL_ERROR, "INTERNAL_ERROR"), (LZMA_DECODE, "LZMA_DECODE"), (CORRUPT_PATCH, "CORRUPT_PATCH"), (IO_FAILED, "IO_FAILED"),
      (ALREADY_DONE, "ALREADY_DONE"), (FILE_OPEN_FAILED, "FILE_OPEN_FAILED"), (FILE_CLOSE_FAILED, "FILE_CLOSE_FAILED"),
      (FILE_READ_FAILED, "FILE_READ_FAILED"), (FILE_WRITE_FAILED, "FILE_WRITE_FAILED"), (FILE_SEEK_FAILED, "FILE_SEEK_FAILED"),
      (FILE_TELL_FAILED, "FILE_TELL_FAILED"), (SHORT_HEADER, "SHORT_HEADER"), (NOT_ENOUGH_PATCH_DATA, "NOT_ENOUGH_PATCH_DATA"),
      (HEATSHRINK_SINK, "HEATSHRINK_SINK"), (HEATSHRINK_POLL, "HEATSHRINK_POLL"), (STEP_SET_FAILED, "STEP_SET_FAILED"),
      (STEP_GET_FAILED, "STEP_GET_FAILED"), (ALREADY_FAILED, "ALREADY_FAILED"), (CORRUPT_PATCH_OVERFLOW, "CORRUPT_PATCH_OVERFLOW"),
      (CORRUPT_PATCH_CRLE_KIND, "CORRUPT_PATCH_CRLE_KIND"), (HEATSHRINK_HEADER, "HEATSHRINK_HEADER")],
      (errorTable.find? (·.1 = -x.1)).map (·.2.1) = some x.2 := by
  decide +kernel

example : errorAsString CORRUPT_PATCH = "Corrupt patch." ∧ errorAsString 9 = "Corrupt patch." ∧ errorAsString 28 = "Unknown error." := by decide +kernel

theorem mainEnd_cases {res : Int} (d : Disk) (h : 0 ≤ res ∨ DocumentedError res) :
    0 ≤ res ∧ mainEnd res d = ⟨0, "", d⟩ ∨
    DocumentedError res ∧ mainEnd res d = ⟨-res, "error: " ++ errorAsString (-res) ++ " (error code " ++ toString (-res) ++ ")\n", d⟩ := by
  unfold mainEnd
  have hneg : res * -1 = -res := by omega
  by_cases h0 : 0 < res
  · exact .inl ⟨by omega, by rw [if_pos h0]⟩
  · rw [if_neg h0]
    by_cases h1 : res < 0
    · rw [if_pos h1, hneg]
      exact .inr ⟨h.resolve_left (by omega), rfl⟩
    · rw [if_neg h1]
      have : res = 0 := by omega
      exact .inl ⟨by omega, by rw [this]⟩

/-- C49. `detools apply_patch` ends with status 0 and prints nothing if
`detools_apply_patch_filenames` succeeded; otherwise it prints the message of the error
and the status is the error code, from 1 to 27. No file but the to-file has changed. -/
theorem C49_main_apply_patch [Build] (d : Disk) (name from_ patch to : String) {ex : Exit}
    (h : cMain d [name, "apply_patch", from_, patch, to] = some (.ok ex)) :
    ∃ res, applyPatchOnDisk d from_ patch to = .ok (res, ex.disk) ∧
      (0 ≤ res ∧ ex.status = 0 ∧ ex.output = "" ∨
        1 ≤ ex.status ∧ ex.status ≤ 27 ∧ res = -ex.status ∧
          ex.output = "error: " ++ errorAsString ex.status ++ " (error code " ++ toString ex.status ++ ")\n") ∧
      ∀ n, n ≠ to → ex.disk.files n = d.files n := by
  simp only [cMain, if_true] at h
  split at h
  · cases h
  · injection h with h
    simp only [Bind.bind, Except.bind] at h
    split at h
    · cases h
    · rename_i v hv
      obtain ⟨res, d1⟩ := v
      have hdoc : (0 ≤ res ∨ DocumentedError res) ∧ ∀ n, n ≠ to → d1.files n = d.files n := by
        simp only [applyPatchOnDisk, Bind.bind, Except.bind] at hv
        split at hv
        · cases hv
        · rename_i o ho
          obtain ⟨r1, out⟩ := o
          cases hv
          refine ⟨filenames_doc ho, fun n hn => ?_⟩
          cases out with
          | none => rfl
          | some data => simp [Disk.put, hn]
      injection h with h
      rcases mainEnd_cases d1 hdoc.1 with ⟨k, e⟩ | ⟨k, e⟩
      · rw [e] at h
        subst h
        exact ⟨res, hv, .inl ⟨k, rfl, rfl⟩, hdoc.2⟩
      · rw [e] at h
        subst h
        exact ⟨res, hv, .inr ⟨by have := k.2; simp only; omega, by have := k.1; simp only; omega, by simp, rfl⟩, hdoc.2⟩

/-- C49. The same for `detools apply_patch_in_place`. -/
theorem C49_main_apply_patch_in_place [Build] (d : Disk) (name memory patch : String) {ex : Exit}
    (h : cMain d [name, "apply_patch_in_place", memory, patch] = some (.ok ex)) :
    ∃ res, applyInPlaceOnDisk d memory patch = .ok (res, ex.disk) ∧
      (0 ≤ res ∧ ex.status = 0 ∧ ex.output = "" ∨
        1 ≤ ex.status ∧ ex.status ≤ 27 ∧ res = -ex.status ∧
          ex.output = "error: " ++ errorAsString ex.status ++ " (error code " ++ toString ex.status ++ ")\n") ∧
      ∀ n, n ≠ memory → ex.disk.files n = d.files n := by
  simp only [cMain] at h
  rw [if_neg (by decide), if_pos trivial] at h
  split at h
  · cases h
  · injection h with h
    simp only [Bind.bind, Except.bind] at h
    split at h
    · cases h
    · rename_i v hv
      obtain ⟨res, d1⟩ := v
      have hdoc : (0 ≤ res ∨ DocumentedError res) ∧ ∀ n, n ≠ memory → d1.files n = d.files n := by
        simp only [applyInPlaceOnDisk, Bind.bind, Except.bind] at hv
        split at hv
        · cases hv
        · rename_i o ho
          obtain ⟨r1, out, u⟩ := o
          cases hv
          refine ⟨inPlaceFilenames_doc ho, fun n hn => ?_⟩
          by_cases hw : d.writable memory = true
          · rw [if_pos hw]; simp [Disk.put, hn]
          · rw [if_neg hw]
      injection h with h
      rcases mainEnd_cases d1 hdoc.1 with ⟨k, e⟩ | ⟨k, e⟩
      · rw [e] at h
        subst h
        exact ⟨res, hv, .inl ⟨k, rfl, rfl⟩, hdoc.2⟩
      · rw [e] at h
        subst h
        exact ⟨res, hv, .inr ⟨by have := k.2; simp only; omega, by have := k.1; simp only; omega, by simp, rfl⟩, hdoc.2⟩

/-- C49. Any other command line prints the usage, ends with status 1 and changes no
file. -/
theorem C49_main_usage [Build] (d : Disk) (argv : List String)
    (h1 : ∀ name from_ patch to, argv ≠ [name, "apply_patch", from_, patch, to])
    (h2 : ∀ name memory patch, argv ≠ [name, "apply_patch_in_place", memory, patch]) :
    ∃ usage, cMain d argv = some (.ok ⟨1, "Usage: " ++ argv.headD "" ++ usage, d⟩) := by
  match argv with
  | [] => exact ⟨" {apply_patch, apply_patch_in_place}\n", by simp [cMain, usageExit]⟩
  | [name] => exact ⟨" {apply_patch, apply_patch_in_place}\n", by simp [cMain, usageExit, String.append_assoc]⟩
  | name :: cmd :: args =>
    by_cases hc : cmd = "apply_patch"
    · subst hc
      refine ⟨" apply_patch <from-file> <patch-file> <to-file>\n", ?_⟩
      simp only [cMain, if_true]
      split
      · exact absurd rfl (h1 _ _ _ _)
      · simp [applyUsageExit, String.append_assoc]
    · by_cases hc' : cmd = "apply_patch_in_place"
      · subst hc'
        refine ⟨" apply_patch_in_place <memory-file> <patch-file>\n", ?_⟩
        simp only [cMain]
        rw [if_neg (by decide), if_pos trivial]
        split
        · exact absurd rfl (h2 _ _ _)
        · simp [inPlaceUsageExit, String.append_assoc]
      · refine ⟨" {apply_patch, apply_patch_in_place}\n", ?_⟩
        simp only [cMain, if_neg hc, if_neg hc']
        simp [usageExit, String.append_assoc]

/-- C49. `detools apply_patch` with a patch created in Python: status 0, the to-file has the
to-data, every other file is as before. -/
theorem C49_main_created [Build] (lib : Lib) (hsa : SuffixArrayInRange lib.suffixArray) (c : Compression)
    (hc : c = .none ∨ c = .crle ∨ (c = .heatshrink ∧ HsDefault lib))
    (fr to : Bytes) (hfr : fr.length < 2 ^ 27) (hto : to.length < 2 ^ 27)
    (plain : Bytes) (hplain : createSequential lib .none none fr to = .ok plain) (hsz : plain.length < 2 ^ 28)
    (patch : Bytes) (hcreate : createSequential lib c none fr to = .ok patch) (hpl : patch.length < 2 ^ 50)
    (d : Disk) (name fromFile patchFile toFile : String) (h1 : toFile ≠ fromFile) (h2 : toFile ≠ patchFile)
    (hf : d.files fromFile = some fr) (hp : d.files patchFile = some patch) (hw : d.writable toFile = true) :
    ∃ ex, cMain d [name, "apply_patch", fromFile, patchFile, toFile] = some (.ok ex) ∧ ex.status = 0 ∧
      ex.disk.files toFile = some to ∧ ∀ n, n ≠ toFile → ex.disk.files n = d.files n := by
  have hrun := C34_filenames_created lib hsa c hc fr to hfr hto plain hplain hsz patch hcreate hpl
    { from_ := d.files fromFile, patch := d.files patchFile, toOpens := d.writable toFile }
    ⟨hf, hp, hw, rfl⟩ ⟨rfl, rfl, rfl⟩
  have hon : applyPatchOnDisk d fromFile patchFile toFile = .ok ((to.length : Int), d.put toFile (some to)) := by
    simp only [applyPatchOnDisk, Bind.bind, Except.bind]
    rw [hrun]
  have hend : mainEnd to.length (d.put toFile (some to)) = ⟨0, "", d.put toFile (some to)⟩ := by
    rcases mainEnd_cases (d.put toFile (some to)) (.inl (Int.natCast_nonneg to.length)) with ⟨_, e⟩ | ⟨k, _⟩
    · exact e
    · have := k.2; omega
  refine ⟨⟨0, "", d.put toFile (some to)⟩, ?_, rfl, by simp [Disk.put], fun n hn => by simp [Disk.put, hn]⟩
  simp only [cMain, if_true]
  rw [if_neg (by simp [h1, h2]), hon]
  simp only [Bind.bind, Except.bind]
  rw [hend]

/-- C49. `detools apply_patch_in_place` with a patch created in Python and a memory file at
least as long as the memory: status 0, the memory file begins with the to-data. -/
theorem C49_main_in_place_created [Build] {lib : Lib} (hsa : SuffixArrayInRange lib.suffixArray) {c : Compression} {memory seg : Nat} {minShift : Option Nat}
    {fr to patch : Bytes} (h : DevicePatch lib c memory seg minShift fr to patch)
    (d : Disk) (name memoryFile patchFile : String) (hd : memoryFile ≠ patchFile) (file : Bytes)
    (hm : d.files memoryFile = some file) (hp : d.files patchFile = some patch) (hw : d.writable memoryFile = true)
    (hlen : memory ≤ file.length) (hfr : fr.length ≤ memory) (hpre : fr <+: file) :
    ∃ ex file', cMain d [name, "apply_patch_in_place", memoryFile, patchFile] = some (.ok ex) ∧ ex.status = 0 ∧
      ex.disk.files memoryFile = some file' ∧ to <+: file' ∧ file'.length = file.length ∧ file'.drop memory = file.drop memory ∧
      ∀ n, n ≠ memoryFile → ex.disk.files n = d.files n := by
  obtain ⟨file', u', hrun, h1, h2, h3⟩ := C44_in_place_filenames hsa h
    { memory := if d.writable memoryFile then d.files memoryFile else none, patch := d.files patchFile } file
    (by simp only; rw [if_pos hw]; exact hm) hlen hfr hpre hp rfl ⟨rfl, rfl⟩ ()
  have hon : applyInPlaceOnDisk d memoryFile patchFile = .ok ((to.length : Int), d.put memoryFile (some file')) := by
    simp only [applyInPlaceOnDisk, Bind.bind, Except.bind]
    rw [hrun]
    simp only
    rw [if_pos hw]
  have hend : mainEnd to.length (d.put memoryFile (some file')) = ⟨0, "", d.put memoryFile (some file')⟩ := by
    rcases mainEnd_cases (d.put memoryFile (some file')) (.inl (Int.natCast_nonneg to.length)) with ⟨_, e⟩ | ⟨k, _⟩
    · exact e
    · have := k.2; omega
  refine ⟨⟨0, "", d.put memoryFile (some file')⟩, file', ?_, rfl, by simp [Disk.put], h1, h2, h3, fun n hn => by simp [Disk.put, hn]⟩
  simp only [cMain]
  rw [if_neg (by decide), if_pos trivial, if_neg hd, hon]
  simp only [Bind.bind, Except.bind]
  rw [hend]

/-- A machine with some files. -/
def exampleDisk : Disk where
  files n :=
    if n = "old" then some [1, 2]
    else if n = "patch" then some [0, 3, 0, 2, 0, 0, 1, 3, 0]
    else if n = "bad" then some [0, 3, 0, 9]
    else if n = "memory" then some [1, 2, 3, 4, 5, 255, 254, 253, 252, 251, 250, 249, 70, 71, 72]
    else if n = "update" then some exampleInPlacePatch
    else none

/-- What can be compared of the end of a program. -/
def Exit.view (ex : Exit) (name : String) : Int × String × Option Bytes := (ex.status, ex.output, ex.disk.files name)

example : (cMain exampleDisk ["detools", "apply_patch", "old", "patch", "new"]).map (·.map (·.view "new")) =
    some (.ok (0, "", some [1, 2, 3])) := by decide +kernel
example : (cMain exampleDisk ["detools", "apply_patch", "old", "bad", "new"]).map (·.map (·.view "new")) =
    some (.ok (9, "error: Corrupt patch. (error code 9)\n", some [])) := by decide +kernel
example : (cMain exampleDisk ["detools", "apply_patch", "none", "bad", "new"]).map (·.map (·.view "new")) =
    some (.ok (12, "error: File open failed. (error code 12)\n", none)) := by decide +kernel
example : (cMain exampleDisk ["detools", "apply_patch_in_place", "memory", "update"]).map (·.map (·.view "memory")) =
    some (.ok (0, "", some [1, 2, 3, 9, 4, 5, 6, 2, 3, 4, 5, 255, 70, 71, 72])) := by decide +kernel
example : (cMain exampleDisk ["detools", "apply_patch"]).map (·.map (·.view "new")) =
    some (.ok (1, "Usage: detools apply_patch <from-file> <patch-file> <to-file>\n", none)) := by decide +kernel

-- The return values of some calls on a patch that ends too early.
example : (runCalls (fileEnv [1, 2]) (applyPatchInit 9) { arg := {} } [.process [0, 3, 0, 2], .process [0, 0], .finalize, .process [1]]).map (·.1) =
    .ok [0, 0, NOT_ENOUGH_PATCH_DATA, 0] := by decide +kernel

end Detools
