import Verif.Props.CStdio
import Verif.Proofs.CMainStdio
/-
C68: the command line tool of the C library on any stdio.
-/
namespace Detools

/-- C68. Whatever the C library and the system answer and whatever the arguments are, when the
command line tool ends every file it opened is closed, once, and no file was used that was not
open. Either the status is 0, nothing was printed, and no call but `fclose` failed; or the status is
from 1 to 27 and a message was printed. -/
theorem C68_main [Build] (S : Stdio ν) (sys : ν) (argv : List String) (status : Int) (out : String) (io : Io ν)
    (h : cMainOn S { sys := sys } argv = .ok (status, out, io)) :
    io.opened = [] ∧ io.misused = false ∧
      (status = 0 ∧ out = "" ∧ io.failed = false ∨ 1 ≤ status ∧ status ≤ 27 ∧ out ≠ "") := by
  have hne : ∀ a b : String, a ≠ "" → a ++ b ≠ "" := by
    intro a b ha e
    rw [String.append_eq_empty_iff] at e
    exact ha e.1
  have usage : ∀ a b : String, "Usage: " ++ a ++ b ≠ "" := fun a b => hne _ _ (hne _ _ (by decide))
  have finish : ∀ res, (0 ≤ res ∨ DocumentedError res) → (0 ≤ res → io.failed = false) →
      ((mainEndOn res).1 = 0 ∧ (mainEndOn res).2 = "" ∧ io.failed = false ∨ 1 ≤ (mainEndOn res).1 ∧ (mainEndOn res).1 ≤ 27 ∧ (mainEndOn res).2 ≠ "") := by
    intro res hd hf
    rcases mainEndOn_cases hd with ⟨k, e⟩ | ⟨k1, k2, -, k3⟩
    · rw [e]; exact .inl ⟨rfl, rfl, hf k⟩
    · refine .inr ⟨k1, k2, ?_⟩
      rw [k3]
      exact hne _ _ (hne _ _ (hne _ _ (hne _ _ (by decide))))
  unfold cMainOn at h
  split at h
  · split at h
    · split at h
      · cases h; exact ⟨rfl, rfl, .inr ⟨by decide, by decide, usage _ _⟩⟩
      · simp only [Bind.bind, Except.bind] at h
        split at h
        · cases h
        rename_i x hx
        obtain ⟨res, io1⟩ := x
        cases h
        obtain ⟨c1, c2, c3, -⟩ := C67_filenames S sys res io1 hx
        exact ⟨c1, c2, finish res (applyFilenamesOn_doc hx) c3⟩
    · split at h
      · split at h
        · cases h; exact ⟨rfl, rfl, .inr ⟨by decide, by decide, usage _ _⟩⟩
        · simp only [Bind.bind, Except.bind] at h
          split at h
          · cases h
          rename_i x hx
          obtain ⟨res, io1⟩ := x
          cases h
          obtain ⟨c1, c2, c3, -⟩ := C67_in_place_filenames S {} sys res io1 hx
          exact ⟨c1, c2, finish res (applyInPlaceFilenamesOn_doc hx) c3⟩
      · cases h; exact ⟨rfl, rfl, .inr ⟨by decide, by decide, usage _ _⟩⟩
  · cases h; exact ⟨rfl, rfl, .inr ⟨by decide, by decide, usage _ _⟩⟩
  · cases h; exact ⟨rfl, rfl, .inr ⟨by decide, by decide, by decide⟩⟩

/-- C68. Any other command line than the two that are shown ends with status 1, without a call. -/
theorem C68_main_usage [Build] (S : Stdio ν) (io : Io ν) (argv : List String)
    (h1 : ∀ name from_ patch to, argv ≠ [name, "apply_patch", from_, patch, to])
    (h2 : ∀ name memory patch, argv ≠ [name, "apply_patch_in_place", memory, patch]) :
    ∃ usage, cMainOn S io argv = .ok (1, "Usage: " ++ argv.headD "" ++ usage, io) := by
  match argv with
  | [] => exact ⟨" {apply_patch, apply_patch_in_place}\n", by simp [cMainOn]⟩
  | [name] => exact ⟨_, rfl⟩
  | name :: cmd :: args =>
    by_cases hc : cmd = "apply_patch"
    · subst hc
      refine ⟨" apply_patch <from-file> <patch-file> <to-file>\n", ?_⟩
      simp only [cMainOn, if_true]
      rw [if_pos]
      · rfl
      · intro hl
        match args, hl with
        | [a, b, c], _ => exact h1 _ _ _ _ rfl
    · by_cases hc' : cmd = "apply_patch_in_place"
      · subst hc'
        refine ⟨" apply_patch_in_place <memory-file> <patch-file>\n", ?_⟩
        simp only [cMainOn]
        rw [if_neg (by decide), if_pos trivial, if_pos]
        · rfl
        · intro hl
          match args, hl with
          | [a, b], _ => exact h2 _ _ _ rfl
      · exact ⟨_, by simp only [cMainOn, if_neg hc, if_neg hc']; rfl⟩

/-- C68. `detools apply_patch` with a patch made by `create_patch`, on a stdio that may fail at any
call: status 0 means that the to-file is the to-data, unless `fclose` failed. -/
theorem C68_main_created [Build] (lib : Lib) (hsa : SuffixArrayInRange lib.suffixArray) (c : Compression)
    (hcomp : c = .none ∨ c = .crle ∨ (c = .heatshrink ∧ HsDefault lib))
    (fr to : Bytes) (hfr : fr.length < 2 ^ 27) (hto : to.length < 2 ^ 27)
    (plain : Bytes) (hplain : createSequential lib .none none fr to = .ok plain) (hsz : plain.length < 2 ^ 28)
    (patch : Bytes) (hcreate : createSequential lib c none fr to = .ok patch) (hpl : patch.length < 2 ^ 50)
    {S : Stdio ν} {view : ν → StdioView} (hS : Honest S fr patch view)
    (sys : ν) (name fromFile patchFile toFile out : String) (io : Io ν)
    (h : cMainOn S { sys := sys } [name, "apply_patch", fromFile, patchFile, toFile] = .ok (0, out, io)) (hc : io.closeFailed = false) :
    (view io.sys).out = to := by
  simp only [cMainOn, if_true, List.length_cons, List.length_nil, Bind.bind, Except.bind] at h
  rw [if_neg (by decide)] at h
  split at h
  · cases h
  rename_i x hx
  obtain ⟨res, io1⟩ := x
  simp only [Except.ok.injEq, Prod.mk.injEq] at h
  obtain ⟨h1, -, rfl⟩ := h
  refine (C67_created lib hsa c hcomp fr to hfr hto plain hplain hsz patch hcreate hpl hS sys res io1 hx ?_ hc).2
  rcases mainEndOn_cases (applyFilenamesOn_doc hx) with ⟨k, -⟩ | ⟨k, -⟩ <;> omega

/-- C68. `detools apply_patch_in_place`, likewise. -/
theorem C68_main_in_place_created [Build] {lib : Lib} (hsa : SuffixArrayInRange lib.suffixArray) {c : Compression} {memory seg : Nat} {minShift : Option Nat}
    {fr to patch : Bytes} (hd : DevicePatch lib c memory seg minShift fr to patch) {S : Stdio ν} {view : ν → MemView} (hS : HonestMem S patch view)
    (sys : ν) (hlen : memory ≤ (view sys).file.length) (hfr : fr.length ≤ memory) (hpre : fr <+: (view sys).file)
    (name memoryFile patchFile out : String) (io : Io ν)
    (h : cMainOn S { sys := sys } [name, "apply_patch_in_place", memoryFile, patchFile] = .ok (0, out, io)) (hc : io.closeFailed = false) :
    to <+: (view io.sys).file ∧ (view io.sys).file.length = (view sys).file.length ∧
      (view io.sys).file.drop memory = (view sys).file.drop memory := by
  simp only [cMainOn, if_true, List.length_cons, List.length_nil, Bind.bind, Except.bind] at h
  rw [if_neg (by decide), if_neg (by decide)] at h
  split at h
  · cases h
  rename_i x hx
  obtain ⟨res, io1⟩ := x
  simp only [Except.ok.injEq, Prod.mk.injEq] at h
  obtain ⟨h1, -, rfl⟩ := h
  refine (C67_in_place_created hsa hd hS sys hlen hfr hpre res io1 hx ?_ hc).2
  rcases mainEndOn_cases (applyInPlaceFilenamesOn_doc hx) with ⟨k, -⟩ | ⟨k, -⟩ <;> omega

/-- C68. The other direction: on a stdio on which no call fails that need not, `detools apply_patch`
with a patch made by `create_patch` ends with status 0, prints nothing, and the to-file is the
to-data. -/
theorem C68_main_created_works [Build] (lib : Lib) (hsa : SuffixArrayInRange lib.suffixArray) (c : Compression)
    (hcomp : c = .none ∨ c = .crle ∨ (c = .heatshrink ∧ HsDefault lib))
    (fr to : Bytes) (hfr : fr.length < 2 ^ 27) (hto : to.length < 2 ^ 27)
    (plain : Bytes) (hplain : createSequential lib .none none fr to = .ok plain) (hsz : plain.length < 2 ^ 28)
    (patch : Bytes) (hcreate : createSequential lib c none fr to = .ok patch) (hpl : patch.length < 2 ^ 50)
    {S : Stdio ν} {view : ν → StdioView} (hS : Works S fr patch view)
    (sys : ν) (name fromFile patchFile toFile : String) :
    ∃ io, cMainOn S { sys := sys } [name, "apply_patch", fromFile, patchFile, toFile] = .ok (0, "", io) ∧ (view io.sys).out = to ∧
      io.opened = [] ∧ io.failed = false ∧ io.closeFailed = false := by
  obtain ⟨io, e, h⟩ := C67_created_works lib hsa c hcomp fr to hfr hto plain hplain hsz patch hcreate hpl hS sys
  refine ⟨io, ?_, h⟩
  simp only [cMainOn, if_true, List.length_cons, List.length_nil, Bind.bind, Except.bind]
  rw [if_neg (by decide), e]
  rcases mainEndOn_cases (applyFilenamesOn_doc e) with ⟨-, k⟩ | ⟨k1, -, k2, -⟩
  · simp only [k]
  · omega

/-- C68. `detools apply_patch_in_place`, likewise. -/
theorem C68_main_in_place_created_works [Build] {lib : Lib} (hsa : SuffixArrayInRange lib.suffixArray) {c : Compression} {memory seg : Nat}
    {minShift : Option Nat} {fr to patch : Bytes} (hd : DevicePatch lib c memory seg minShift fr to patch) {S : Stdio ν} {view : ν → MemView}
    (hS : WorksMem S patch view)
    (sys : ν) (hlen : memory ≤ (view sys).file.length) (hfr : fr.length ≤ memory) (hpre : fr <+: (view sys).file) (name memoryFile patchFile : String) :
    ∃ io, cMainOn S { sys := sys } [name, "apply_patch_in_place", memoryFile, patchFile] = .ok (0, "", io) ∧ to <+: (view io.sys).file ∧
      (view io.sys).file.length = (view sys).file.length ∧ (view io.sys).file.drop memory = (view sys).file.drop memory ∧
      io.opened = [] ∧ io.failed = false ∧ io.closeFailed = false := by
  obtain ⟨io, e, h⟩ := C67_in_place_created_works hsa hd hS sys hlen hfr hpre
  refine ⟨io, ?_, h⟩
  simp only [cMainOn, if_true, List.length_cons, List.length_nil, Bind.bind, Except.bind]
  rw [if_neg (by decide), if_neg (by decide), e]
  rcases mainEndOn_cases (applyInPlaceFilenamesOn_doc e) with ⟨-, k⟩ | ⟨k1, -, k2, -⟩
  · simp only [k]
  · omega

attribute [local instance] noLzma

-- The hypotheses are met; a call fails; and a wrong command line.
example : (cMainOn (exampleStdio [1, 2] exampleFilesPatch []) { sys := (0, 0, 0, []) } ["detools", "apply_patch", "old", "patch", "new"]).map
    (fun r => (r.1, r.2.1, r.2.2.sys.2.2.2, r.2.2.closeFailed)) = .ok (0, "", [1, 2, 3], false) := by decide +kernel
example : (cMainOn (exampleStdio [1, 2] exampleFilesPatch [7]) { sys := (0, 0, 0, []) } ["detools", "apply_patch", "old", "patch", "new"]).map
    (fun r => (r.1, r.2.1, r.2.2.opened, r.2.2.failed)) = .ok (10, "error: Input/output failed. (error code 10)\n", [], true) := by decide +kernel
example : (cMainOn (exampleMemStdio exampleInPlacePatch []) { sys := (0, 0, 0, 0, [1, 2, 3, 4, 5, 255, 254, 253, 252, 251, 250, 249, 70, 71, 72]) }
    ["detools", "apply_patch_in_place", "memory", "patch"]).map (fun r => (r.1, r.2.1, r.2.2.sys.2.2.2.2, r.2.2.closeFailed)) =
    .ok (0, "", [1, 2, 3, 9, 4, 5, 6, 2, 3, 4, 5, 255, 70, 71, 72], false) := by decide +kernel
example : (cMainOn (exampleStdio [1, 2] exampleFilesPatch []) { sys := (0, 0, 0, []) } ["detools", "apply_patch", "old", "patch"]).map
    (fun r => (r.1, r.2.1, r.2.2.sys.1)) = .ok (1, "Usage: detools apply_patch <from-file> <patch-file> <to-file>\n", 0) := by decide +kernel

/-- C68. The command line tool ends with status 0 although `fclose` of the to-file failed, as it
does if the last bytes could not be written to a full disk. -/
theorem C68_main_close_failure_lost : ∃ io, cMainOn (exampleStdio [1, 2] exampleFilesPatch [12]) { sys := (0, 0, 0, []) }
    ["detools", "apply_patch", "old", "patch", "new"] = .ok (0, "", io) ∧ io.closeFailed = true := by
  have h : (cMainOn (exampleStdio [1, 2] exampleFilesPatch [12]) { sys := (0, 0, 0, []) } ["detools", "apply_patch", "old", "patch", "new"]).map
      (fun r => (r.1, r.2.1, r.2.2.closeFailed)) = .ok (0, "", true) := by decide +kernel
  rcases hr : cMainOn (exampleStdio [1, 2] exampleFilesPatch [12]) { sys := (0, 0, 0, []) } ["detools", "apply_patch", "old", "patch", "new"] with e | ⟨st, out, io⟩
  · rw [hr] at h; cases h
  · rw [hr] at h
    simp only [Except.map, Except.ok.injEq, Prod.mk.injEq] at h
    exact ⟨io, by rw [h.1, h.2.1], h.2.2⟩

end Detools
