import Verif.Proofs.CStdioInPlace
import Verif.Proofs.CStdioSim
import Verif.Proofs.CStdioInPlaceSim
import Verif.Props.CCallbacks
import Verif.Props.CInPlaceFiles
import Verif.Proofs.CStdioWorks
/-
C67: detools_apply_patch_filenames and detools_apply_patch_in_place_filenames on any stdio.
-/
namespace Detools

/-- C67. Whatever the C library and the system answer, when `detools_apply_patch_filenames`
returns it has closed each file it opened once, and used and closed no file that was not open.
If the value is not negative no other call failed: every file could be opened, the size of the
patch was found, and every read, seek and write succeeded. If it is 0, `fclose` succeeded too. -/
theorem C67_filenames [Build] (S : Stdio ν) (sys : ν) (n : Int) (io : Io ν) (h : applyFilenamesOn S { sys := sys } = .ok (n, io)) :
    io.opened = [] ∧ io.misused = false ∧ (0 ≤ n → io.failed = false) ∧ (n = 0 → io.closeFailed = false) := by
  unfold applyFilenamesOn at h
  rcases hz : fileIoInitOn S { sys := sys } with ⟨⟨res, size⟩, io0⟩
  have hk := fileIoInitOn_kept S sys
  rw [hz] at hk h
  simp only at hk h
  rcases hk with ⟨k1, k2, k3, k4⟩ | ⟨k1, k2, k3⟩
  · rw [if_neg (by omega)] at h
    simp only [Bind.bind, Except.bind] at h
    split at h
    · cases h
    rename_i x hx
    have hw := applyPatchCallbacks_kept (fileIoEnv_watched S) (fun io n => fileIoRead S io .patch n)
      (fun io n hi => fileIoRead_kept S io n (by decide) hi) size.toNat io0 (res := x.1) (w := x.2.1) (rs := x.2.2) hx k3 (by simp [k4])
    obtain ⟨c1, c2, c3, c4, c5⟩ := fileIoCleanupOn_kept S x.2.1.arg hw.1
    split at h
    · rename_i hne
      cases h
      exact ⟨c1, c2, fun h0 => by rw [c3]; simpa using hw.2 h0, fun e => absurd e hne⟩
    · rename_i he
      rcases hc : fileIoCleanupOn S x.2.1.arg with ⟨r, io'⟩
      rw [hc] at h c1 c2 c3 c4
      cases h
      exact ⟨c1, c2, fun _ => by rw [show io.failed = x.2.1.arg.failed from c3]; simpa using hw.2 (by omega), fun e => c4.1 e⟩
  · rw [if_pos (by omega)] at h
    cases h
    exact ⟨k2, k3, fun h0 => by omega, fun e => by omega⟩

/-- C67. The same of `detools_apply_patch_in_place_filenames`, whatever the step callbacks of
the user do (but for using the library's files). -/
theorem C67_in_place_filenames [Build] (S : Stdio ν) (steps : Steps ν) (sys : ν) (n : Int) (io : Io ν)
    (h : applyInPlaceFilenamesOn S steps { sys := sys } = .ok (n, io)) :
    io.opened = [] ∧ io.misused = false ∧ (0 ≤ n → io.failed = false) ∧ (n = 0 → io.closeFailed = false) := by
  unfold applyInPlaceFilenamesOn at h
  rcases hz : inPlaceFileIoInitOn S { sys := sys } with ⟨⟨res, size⟩, io0⟩
  have hk := inPlaceFileIoInitOn_kept S sys
  rw [hz] at hk h
  simp only at hk h
  rcases hk with ⟨k1, k2, k3, k4⟩ | ⟨k1, k2, k3⟩
  · rw [if_neg (by omega)] at h
    simp only [Bind.bind, Except.bind] at h
    split at h
    · cases h
    rename_i x hx
    have hw := applyPatchInPlaceCallbacks_kept (inPlaceFileIoEnv_watched S steps) (inPlaceFileIoEnv_np S steps) (fun io n => fileIoRead S io .patch n)
      (fun io n hi => fileIoRead_kept S io n (by decide) hi) size.toNat io0 (res := x.1) (w := x.2.1) (rs := x.2.2) hx k3 (by simp [k4])
    obtain ⟨c1, c2, c3, c4⟩ := inPlaceFileIoCleanupOn_kept S x.2.1.arg hw.1
    split at h
    · rename_i hne
      cases h
      exact ⟨c1, c2, fun h0 => by rw [c3]; simpa using hw.2 h0, fun e => absurd e hne⟩
    · rename_i he
      rcases hc : inPlaceFileIoCleanupOn S x.2.1.arg with ⟨r, io'⟩
      rw [hc] at h c1 c2 c3 c4
      cases h
      exact ⟨c1, c2, fun _ => by rw [show io.failed = x.2.1.arg.failed from c3]; simpa using hw.2 (by omega), fun e => c4.1 e⟩
  · rw [if_pos (by omega)] at h
    cases h
    exact ⟨k2, k3, fun h0 => by omega, fun e => by omega⟩

/-- C67. On a stdio that does what the C standard says whenever a call succeeds, and that may
fail at any call: if the value is not negative and `fclose` did not fail, the to-file has exactly
the data that the patch makes of the from-file, and the value is its length. -/
theorem C67_output [Build] {fr patch : Bytes} (hP : patch.length < 2 ^ 63) {S : Stdio ν} {view : ν → StdioView} (hS : Honest S fr patch view)
    (sys : ν) (n : Int) (io : Io ν) (h : applyFilenamesOn S { sys := sys } = .ok (n, io)) (h0 : 0 ≤ n) (hc : io.closeFailed = false) :
    CAccepts fr patch.length (parts512 patch) n (view io.sys).out := by
  unfold applyFilenamesOn at h
  have hv := fileIoInitOn_view hS sys
  rcases hz : fileIoInitOn S { sys := sys } with ⟨⟨res, size⟩, io0⟩
  have hk := fileIoInitOn_kept S sys
  rw [hz] at hk h hv
  simp only at hk h hv
  rcases hk with ⟨k1, -, -, -⟩ | ⟨k1, k2, k3⟩
  · obtain ⟨v1, v2⟩ := hv k1
    rw [if_neg (by omega), v1] at h
    simp only [Bind.bind, Except.bind, Int.toNat_natCast] at h
    split at h
    · cases h
    rename_i x hx
    have main (hn : 0 ≤ x.1) : CAccepts fr patch.length (parts512 patch) x.1 (view x.2.1.arg.sys).out := by
      obtain ⟨w2, e, -, hR, -⟩ := applyPatchCallbacks_simR (fileIoEnv_sim hS) (fun io n => fileIoRead S io .patch n) (patchReadWith Files fileRead)
        (fun a b n hR hr => patchRead_sim hS a b n hR hr) patch.length io0 ({}, { data := patch })
        ⟨by rw [v2]; rfl, by rw [v2], by rw [v2], rfl⟩ (res := x.1) (w1 := x.2.1) (rs := x.2.2) hx hn
      rw [← C34_files_parts fr patch hP]
      refine ⟨hn, ?_⟩
      unfold callbacksOnFiles
      rw [e, ← hR]
      rfl
    split at h
    · cases h
      rw [fileIoCleanupOn_view hS _ hc]
      exact main h0
    · rename_i he
      rcases hcl : fileIoCleanupOn S x.2.1.arg with ⟨r, io'⟩
      rw [hcl] at h
      cases h
      have hcl1 := fileIoCleanupOn_view hS x.2.1.arg (by rw [hcl]; exact hc)
      rw [hcl] at hcl1
      rw [show view io.sys = view x.2.1.arg.sys from hcl1]
      have hx0 : x.1 = 0 := Decidable.not_not.mp he
      have hn : n = 0 := by
        have : (fileIoCleanupOn S x.2.1.arg).1 = n := by rw [hcl]
        unfold fileIoCleanupOn at this
        simp only at this
        split at this
        · rw [← this] at h0; exact absurd h0 (by decide)
        · rename_i hne
          rw [← this]
          exact Decidable.not_not.mp (fun e => hne (.inl e))
      rw [hn, ← hx0]
      exact main (by omega)
  · rw [if_pos (by omega)] at h
    cases h
    omega

/-- C67. In particular, for a patch made by `create_patch` for the C library: on a stdio that may
fail at any call, a value that is not negative means that the to-file is the to-data, unless
`fclose` failed. -/
theorem C67_created [Build] (lib : Lib) (hsa : SuffixArrayInRange lib.suffixArray) (c : Compression)
    (hcomp : c = .none ∨ c = .crle ∨ (c = .heatshrink ∧ HsDefault lib))
    (fr to : Bytes) (hfr : fr.length < 2 ^ 27) (hto : to.length < 2 ^ 27)
    (plain : Bytes) (hplain : createSequential lib .none none fr to = .ok plain) (hsz : plain.length < 2 ^ 28)
    (patch : Bytes) (hcreate : createSequential lib c none fr to = .ok patch) (hpl : patch.length < 2 ^ 50)
    {S : Stdio ν} {view : ν → StdioView} (hS : Honest S fr patch view)
    (sys : ν) (n : Int) (io : Io ν) (h : applyFilenamesOn S { sys := sys } = .ok (n, io)) (h0 : 0 ≤ n) (hc : io.closeFailed = false) :
    n = to.length ∧ (view io.sys).out = to := by
  have h1 := C34_filenames_created lib hsa c hcomp fr to hfr hto plain hplain hsz patch hcreate hpl
    { from_ := some fr, patch := some patch } ⟨rfl, rfl, rfl, rfl⟩ ⟨rfl, rfl, rfl⟩
  have h2 := (C34_filenames { from_ := some fr, patch := some patch } fr patch ⟨rfl, rfl, rfl, rfl⟩ (by omega)).1 n (view io.sys).out
    (C67_output (by omega) hS sys n io h h0 hc)
  rw [h1, if_neg (fun e => e.2 ⟨rfl, rfl, rfl⟩)] at h2
  simp only [Except.ok.injEq, Prod.mk.injEq, Option.some.injEq] at h2
  exact ⟨h2.1.symm, h2.2.symm⟩

/-- An example of stdio on a from-file and a patch in memory. The state is the number of calls,
the positions in the two and what was written; the calls with the given numbers fail. -/
def exampleStdio (fr patch : Bytes) (fails : List Nat) : Stdio (Nat × Nat × Nat × Bytes) where
  fopen s fd := if s.1 ∈ fails then (false, (s.1 + 1, s.2)) else
    match fd with
    | .from_ => (true, (s.1 + 1, 0, s.2.2))
    | .to => (true, (s.1 + 1, s.2.1, s.2.2.1, []))
    | _ => (true, (s.1 + 1, s.2.1, 0, s.2.2.2))
  fclose s _ := (if s.1 ∈ fails then -1 else 0, (s.1 + 1, s.2))
  fseek s fd off whence := if s.1 ∈ fails then (-1, (s.1 + 1, s.2)) else
    match fd, whence with
    | .from_, .cur => if (s.2.1 : Int) + off < 0 then (-1, (s.1 + 1, s.2)) else (0, (s.1 + 1, ((s.2.1 : Int) + off).toNat, s.2.2))
    | _, .end_ => (0, (s.1 + 1, s.2.1, patch.length, s.2.2.2))
    | _, _ => (0, (s.1 + 1, s.2.1, 0, s.2.2.2))
  ftell s _ := (if s.1 ∈ fails then -1 else s.2.2.1, (s.1 + 1, s.2))
  fread s fd n := if s.1 ∈ fails then (none, (s.1 + 1, s.2)) else
    match fd with
    | .from_ => if s.2.1 + n ≤ fr.length then (some ((fr.drop s.2.1).take n), (s.1 + 1, s.2.1 + n, s.2.2)) else (none, (s.1 + 1, s.2))
    | _ => if s.2.2.1 + n ≤ patch.length then (some ((patch.drop s.2.2.1).take n), (s.1 + 1, s.2.1, s.2.2.1 + n, s.2.2.2)) else (none, (s.1 + 1, s.2))
  fwrite s _ d := if s.1 ∈ fails then (false, (s.1 + 1, s.2)) else (true, (s.1 + 1, s.2.1, s.2.2.1, s.2.2.2 ++ d))

/-- The example does what the C standard says, whichever calls fail. -/
theorem exampleStdio_honest (fr patch : Bytes) (fails : List Nat) :
    Honest (exampleStdio fr patch fails) fr patch (fun s => ⟨s.2.1, s.2.2.1, s.2.2.2⟩) where
  openFrom s h := by
    by_cases hf : s.1 ∈ fails <;> simp [exampleStdio, hf] at h ⊢
  openPatch s h := by
    by_cases hf : s.1 ∈ fails <;> simp [exampleStdio, hf] at h ⊢
  openTo s h := by
    by_cases hf : s.1 ∈ fails <;> simp [exampleStdio, hf] at h ⊢
  close s fd h := rfl
  seekFrom s off h := by
    by_cases hf : s.1 ∈ fails
    · simp [exampleStdio, hf] at h
    · by_cases ho : (s.2.1 : Int) + off < 0
      · simp [exampleStdio, hf, ho] at h
      · simp only [exampleStdio, if_neg hf, if_neg ho]
        exact ⟨by omega, trivial⟩
  seekEnd s h := by
    by_cases hf : s.1 ∈ fails <;> simp [exampleStdio, hf] at h ⊢
  seekSet s h := by
    by_cases hf : s.1 ∈ fails <;> simp [exampleStdio, hf] at h ⊢
  tell s h := by
    by_cases hf : s.1 ∈ fails <;> simp [exampleStdio, hf] at h ⊢
  readFrom s n data h := by
    by_cases hf : s.1 ∈ fails
    · simp [exampleStdio, hf] at h
    · by_cases hn : s.2.1 + n ≤ fr.length
      · simp only [exampleStdio, if_neg hf, if_pos hn, Option.some.injEq] at h ⊢
        exact ⟨hn, h.symm, trivial⟩
      · simp [exampleStdio, hf, hn] at h
  readPatch s n data h := by
    by_cases hf : s.1 ∈ fails
    · simp [exampleStdio, hf] at h
    · by_cases hn : s.2.2.1 + n ≤ patch.length
      · simp only [exampleStdio, if_neg hf, if_pos hn, Option.some.injEq] at h ⊢
        exact ⟨hn, h.symm, trivial⟩
      · simp [exampleStdio, hf, hn] at h
  write s data h := by
    by_cases hf : s.1 ∈ fails <;> simp [exampleStdio, hf] at h ⊢

attribute [local instance] noLzma

/-- A patch that takes two bytes of the from-file and adds one. -/
def exampleFilesPatch : Bytes := [0, 3, 0, 2, 0, 0, 1, 3, 0]

/-- C67. The other direction: on a stdio on which no call fails that need not, a patch that the low
level API accepts is applied, with the same value and to-data, and nothing fails. -/
theorem C67_works [Build] {fr patch : Bytes} (hP : patch.length < 2 ^ 63) {S : Stdio ν} {view : ν → StdioView} (hS : Works S fr patch view)
    (sys : ν) (n : Int) (out : Bytes) (h : CAccepts fr patch.length (parts512 patch) n out) :
    ∃ io, applyFilenamesOn S { sys := sys } = .ok (n, io) ∧ (view io.sys).out = out ∧ io.opened = [] ∧ io.failed = false ∧ io.closeFailed = false := by
  have hne : patch ≠ [] := by
    rintro rfl
    have h1 := (C34_filenames { from_ := some fr, patch := some [] } fr [] ⟨rfl, rfl, rfl, rfl⟩ hP).1 n out h
    rw [if_neg (fun e => e.2 ⟨rfl, rfl, rfl⟩), show applyPatchFilenames { from_ := some fr, patch := some [] } = .ok (FILE_TELL_FAILED, some []) from rfl] at h1
    cases h1
    obtain ⟨_, _, _, h0, _⟩ := h
    exact absurd h0 (by decide)
  obtain ⟨h0, hf⟩ := (C34_files_parts fr patch hP n out).2 h
  have hi := fileIoInitOn_works hS hne sys
  have hv := fileIoInitOn_view hS.toHonest sys hi
  have hk := fileIoInitOn_kept S sys
  unfold applyFilenamesOn
  rcases hz : fileIoInitOn S { sys := sys } with ⟨⟨res, size⟩, io0⟩
  rw [hz] at hi hv hk
  simp only at hi hv hk ⊢
  obtain ⟨v1, v2⟩ := hv
  rcases hk with ⟨-, -, k3, k4⟩ | ⟨k, -, -⟩
  rotate_left 1
  · omega
  rw [if_neg (fun e => e hi), v1, Int.toNat_natCast]
  unfold callbacksOnFiles at hf
  rcases hx : applyPatchCallbacks ((fileEnv fr).with ReadFile) (patchReadWith Files fileRead) patch.length ({}, { data := patch }) with u | ⟨r, w, rs⟩
  · rw [hx] at hf; cases hf
  rw [hx] at hf
  simp only [Except.map, Except.ok.injEq, Prod.mk.injEq] at hf
  obtain ⟨rfl, rfl⟩ := hf
  obtain ⟨w2, e, -, hR, -⟩ := applyPatchCallbacks_simR (fileEnv_sim hS) (patchReadWith Files fileRead) (fun io n => fileIoRead S io .patch n)
    (fun a b n hR hr => fileRead_sim hS a b n hR hr) patch.length ({}, { data := patch }) io0
    ⟨by rw [v2]; rfl, by rw [v2], by rw [v2], rfl⟩ hx h0
  rw [e]
  have hw := applyPatchCallbacks_kept (fileIoEnv_watched S) (fun io n => fileIoRead S io .patch n)
    (fun io n hi => fileIoRead_kept S io n (by decide) hi) patch.length io0 e k3 (by simp [k4])
  obtain ⟨c1, -, c3, c4, -⟩ := fileIoCleanupOn_kept S w2.arg hw.1
  have hc := fileIoCleanupOn_works hS w2.arg
  have hcv := fileIoCleanupOn_view hS.toHonest w2.arg (c4.1 hc)
  refine ⟨(fileIoCleanupOn S w2.arg).2, ?_, by rw [hcv, hR], c1, by rw [c3]; simpa using hw.2 h0, c4.1 hc⟩
  simp only [Bind.bind, Except.bind]
  split
  · rfl
  · rename_i hr
    rw [Decidable.not_not.mp hr, ← hc]

/-- C67. In particular a patch made by `create_patch` for the C library is applied on every such
stdio: the value is the size of the to-data and the to-file is the to-data. -/
theorem C67_created_works [Build] (lib : Lib) (hsa : SuffixArrayInRange lib.suffixArray) (c : Compression)
    (hcomp : c = .none ∨ c = .crle ∨ (c = .heatshrink ∧ HsDefault lib))
    (fr to : Bytes) (hfr : fr.length < 2 ^ 27) (hto : to.length < 2 ^ 27)
    (plain : Bytes) (hplain : createSequential lib .none none fr to = .ok plain) (hsz : plain.length < 2 ^ 28)
    (patch : Bytes) (hcreate : createSequential lib c none fr to = .ok patch) (hpl : patch.length < 2 ^ 50)
    {S : Stdio ν} {view : ν → StdioView} (hS : Works S fr patch view) (sys : ν) :
    ∃ io, applyFilenamesOn S { sys := sys } = .ok (to.length, io) ∧ (view io.sys).out = to ∧ io.opened = [] ∧ io.failed = false ∧ io.closeFailed = false := by
  have h1 := C34_filenames_created lib hsa c hcomp fr to hfr hto plain hplain hsz patch hcreate hpl
    { from_ := some fr, patch := some patch } ⟨rfl, rfl, rfl, rfl⟩ ⟨rfl, rfl, rfl⟩
  obtain ⟨data, e, ha⟩ := (C34_filenames { from_ := some fr, patch := some patch } fr patch ⟨rfl, rfl, rfl, rfl⟩ (by omega)).2 _ _ (by omega) h1
  cases e
  exact C67_works (by omega) hS sys _ _ ha

/-- The example without failing calls meets the hypothesis. -/
theorem exampleStdio_works (fr patch : Bytes) : Works (exampleStdio fr patch []) fr patch (fun s => ⟨s.2.1, s.2.2.1, s.2.2.2⟩) where
  toHonest := exampleStdio_honest fr patch []
  opens s fd := by cases fd <;> simp [exampleStdio]
  closes s fd := by simp [exampleStdio]
  seeksFrom s off h := by
    have h : ¬ (s.2.1 : Int) + off < 0 := by simp only at h; omega
    simp [exampleStdio, h]
  seeksEnd s := by simp [exampleStdio]
  seeksSet s := by simp [exampleStdio]
  tells s := by simp [exampleStdio]
  readsFrom s n h := by
    simp only at h
    simp [exampleStdio, h]
  readsPatch s n h := by
    simp only at h
    simp [exampleStdio, h]
  writes s data := by simp [exampleStdio]

/-- C67. That `fclose` failed is lost if the to-data is not empty, though the to-file may then
not be complete: the length is returned as if all was well. -/
theorem C67_close_failure_lost : ∃ io, applyFilenamesOn (exampleStdio [1, 2] exampleFilesPatch [12]) { sys := (0, 0, 0, []) } = .ok (3, io) ∧
    io.closeFailed = true := by
  have h : (applyFilenamesOn (exampleStdio [1, 2] exampleFilesPatch [12]) { sys := (0, 0, 0, []) }).map (fun r => (r.1, r.2.closeFailed)) =
      .ok (3, true) := by decide +kernel
  rcases hr : applyFilenamesOn (exampleStdio [1, 2] exampleFilesPatch [12]) { sys := (0, 0, 0, []) } with e | ⟨n, io⟩
  · rw [hr] at h; cases h
  · rw [hr] at h
    simp only [Except.map, Except.ok.injEq, Prod.mk.injEq] at h
    exact ⟨io, by rw [h.1], h.2⟩

-- All succeeds: 14 calls. Then each of the calls before the three of fclose fails.
example : (applyFilenamesOn (exampleStdio [1, 2] exampleFilesPatch []) { sys := (0, 0, 0, []) }).map (fun r => (r.1, r.2.sys.1, r.2.sys.2.2.2, r.2.opened)) =
    .ok (3, 14, [1, 2, 3], []) := by decide +kernel
example : (List.range 11).map (fun k => (applyFilenamesOn (exampleStdio [1, 2] exampleFilesPatch [k]) { sys := (0, 0, 0, []) }).map
    (fun r => (r.1, r.2.opened))) =
    [.ok (FILE_OPEN_FAILED, []), .ok (FILE_OPEN_FAILED, []), .ok (FILE_OPEN_FAILED, []), .ok (FILE_SEEK_FAILED, []), .ok (FILE_TELL_FAILED, []),
     .ok (FILE_SEEK_FAILED, []), .ok (IO_FAILED, []), .ok (IO_FAILED, []), .ok (IO_FAILED, []), .ok (IO_FAILED, []), .ok (IO_FAILED, [])] := by
  decide +kernel

/-- C67. If the from-file cannot be opened, no other call is made: an older to-file is still
there. -/
theorem C67_no_from [Build] (S : Stdio ν) (sys : ν) (h : (S.fopen sys .from_).1 = false) :
    applyFilenamesOn S { sys := sys } = .ok (FILE_OPEN_FAILED, { sys := (S.fopen sys .from_).2, failed := true }) := by
  unfold applyFilenamesOn fileIoInitOn Io.fopen
  revert h
  rcases S.fopen sys .from_ with ⟨_ | _, s1⟩
  · intro _; rfl
  · intro h; cases h

/-- C67. If it is only the patch that cannot be opened, the to-file is empty afterwards, whatever it
was: it is opened before the patch. -/
theorem C67_no_patch_empties [Build] {fr patch : Bytes} {S : Stdio ν} {view : ν → StdioView} (hS : Honest S fr patch view)
    (sys : ν) (hfrom : ∀ s, (S.fopen s .from_).1 = true) (hto : ∀ s, (S.fopen s .to).1 = true)
    (hpatch : ∀ s, (S.fopen s .patch).1 = false ∧ view (S.fopen s .patch).2 = view s) (hclose : ∀ s fd, (S.fclose s fd).1 = 0) :
    ∃ io, applyFilenamesOn S { sys := sys } = .ok (FILE_OPEN_FAILED, io) ∧ (view io.sys).out = [] := by
  unfold applyFilenamesOn fileIoInitOn Io.fopen
  have e1 := hfrom sys
  revert e1
  rcases S.fopen sys .from_ with ⟨_ | _, s1⟩
  · intro h; cases h
  intro _
  simp only
  have e2 := hto s1
  have v2 := hS.openTo s1
  revert e2 v2
  rcases S.fopen s1 .to with ⟨_ | _, s2⟩
  · intro h; cases h
  intro _ v2
  have v2 := v2 rfl
  simp only at v2 ⊢
  obtain ⟨e3, v3⟩ := hpatch s2
  revert e3 v3
  rcases S.fopen s2 .patch with ⟨_ | _, s3⟩
  rotate_left 1
  · intro h; cases h
  intro _ v3
  simp only at v3 ⊢
  refine ⟨_, by rw [if_pos (by decide)], ?_⟩
  rw [fclose_view hS _ _ (hclose _ _), fclose_view hS _ _ (hclose _ _)]
  show (view s3).out = []
  rw [v3, v2]

-- An older to-file of three bytes: kept if the from-file cannot be opened, lost if the patch cannot.
example : ([0, 1, 2].map fun k => (applyFilenamesOn (exampleStdio [1, 2] exampleFilesPatch [k]) { sys := (0, 0, 0, [7, 8, 9]) }).map
    (fun r => (r.1, r.2.sys.2.2.2))) = [.ok (FILE_OPEN_FAILED, [7, 8, 9]), .ok (FILE_OPEN_FAILED, [7, 8, 9]), .ok (FILE_OPEN_FAILED, [])] := by
  decide +kernel

/-- C67. An in-place update writes nothing if the memory file or the patch cannot be opened: what all
calls but `fread` and `fwrite` keep is kept. -/
theorem C67_in_place_no_start [Build] (S : Stdio ν) (steps : Steps ν) (sys : ν) (P : ν → Prop) (hP : P sys)
    (hopen : ∀ s fd, P s → P (S.fopen s fd).2) (hclose : ∀ s fd, P s → P (S.fclose s fd).2)
    (hseek : ∀ s fd off wh, P s → P (S.fseek s fd off wh).2) (htell : ∀ s fd, P s → P (S.ftell s fd).2)
    (h : (S.fopen sys .memory).1 = false ∨ (S.fopen (S.fopen sys .memory).2 .patch).1 = false) :
    ∃ io, applyInPlaceFilenamesOn S steps { sys := sys } = .ok (FILE_OPEN_FAILED, io) ∧ P io.sys := by
  have h : (inPlaceFileIoInitOn S { sys := sys }).1.1 = FILE_OPEN_FAILED := by
    unfold inPlaceFileIoInitOn Io.fopen
    revert h
    rcases S.fopen sys .memory with ⟨_ | _, s1⟩
    · intro _; rfl
    intro h
    simp only at h ⊢
    revert h
    rcases S.fopen s1 .patch with ⟨_ | _, s2⟩
    · intro _; rfl
    · rintro (h | h) <;> cases h
  have hsys : P (inPlaceFileIoInitOn S { sys := sys }).2.sys := by
    have o (io : Io ν) (fd : Fd) (k : P io.sys) : P (io.fopen S fd).2.sys := by
      have := hopen io.sys fd k
      unfold Io.fopen
      revert this
      rcases S.fopen io.sys fd with ⟨_ | _, s⟩ <;> exact fun k => k
    have cl (io : Io ν) (fd : Fd) (k : P io.sys) : P (io.fclose S fd).2.sys := hclose io.sys fd k
    have sk (io : Io ν) (fd : Fd) (off : Int) (wh : Whence) (k : P io.sys) : P (io.fseek S fd off wh).2.sys := hseek io.sys fd off wh k
    have tl (io : Io ν) (fd : Fd) (k : P io.sys) : P (io.ftell S fd).2.sys := htell io.sys fd k
    have sz (io : Io ν) (fd : Fd) (k : P io.sys) : P (fileSizeOn S io fd).2.sys := by
      unfold fileSizeOn
      have k1 := sk io fd 0 .end_ k
      revert k1
      rcases io.fseek S fd 0 .end_ with ⟨r1, io1⟩
      intro k1
      simp only at k1 ⊢
      split
      · exact k1
      have k2 := tl io1 fd k1
      revert k2
      rcases io1.ftell S fd with ⟨z, io2⟩
      intro k2
      simp only at k2 ⊢
      split
      · exact k2
      have k3 := sk io2 fd 0 .set k2
      revert k3
      rcases io2.fseek S fd 0 .set with ⟨r3, io3⟩
      intro k3
      simp only at k3 ⊢
      split <;> exact k3
    unfold inPlaceFileIoInitOn
    have k1 := o { sys := sys } .memory hP
    revert k1
    rcases Io.fopen S { sys := sys } .memory with ⟨_ | _, io1⟩
    · exact fun k => k
    intro k1
    simp only at k1 ⊢
    have k2 := o io1 .patch k1
    revert k2
    rcases io1.fopen S .patch with ⟨_ | _, io2⟩
    · exact fun k => cl _ _ k
    intro k2
    simp only at k2 ⊢
    have k3 := sz io2 .patch k2
    revert k3
    rcases fileSizeOn S io2 .patch with ⟨⟨res, size⟩, io3⟩
    intro k3
    simp only at k3 ⊢
    split
    · exact cl _ _ (cl _ _ k3)
    · exact k3
  unfold applyInPlaceFilenamesOn
  revert h hsys
  rcases inPlaceFileIoInitOn S { sys := sys } with ⟨⟨res, size⟩, io0⟩
  intro h hsys
  simp only at h hsys ⊢
  subst h
  rw [if_pos (by decide)]
  exact ⟨io0, rfl, hsys⟩

/-- The same for a memory file and a patch: the number of calls, the positions in the two, a
stored step and the memory. -/
def exampleMemStdio (patch : Bytes) (fails : List Nat) : Stdio (Nat × Nat × Nat × Int × Bytes) where
  fopen s fd := if s.1 ∈ fails then (false, (s.1 + 1, s.2)) else
    match fd with
    | .memory => (true, (s.1 + 1, 0, s.2.2))
    | _ => (true, (s.1 + 1, s.2.1, 0, s.2.2.2))
  fclose s _ := (if s.1 ∈ fails then -1 else 0, (s.1 + 1, s.2))
  fseek s fd off whence := if s.1 ∈ fails ∨ off < 0 then (-1, (s.1 + 1, s.2)) else
    match fd, whence with
    | .memory, _ => (0, (s.1 + 1, off.toNat, s.2.2))
    | _, .end_ => (0, (s.1 + 1, s.2.1, patch.length, s.2.2.2))
    | _, _ => (0, (s.1 + 1, s.2.1, 0, s.2.2.2))
  ftell s _ := (if s.1 ∈ fails then -1 else s.2.2.1, (s.1 + 1, s.2))
  fread s fd n := if s.1 ∈ fails then (none, (s.1 + 1, s.2)) else
    match fd with
    | .memory => if s.2.1 + n ≤ s.2.2.2.2.length then (some ((s.2.2.2.2.drop s.2.1).take n), (s.1 + 1, s.2.1 + n, s.2.2)) else (none, (s.1 + 1, s.2))
    | _ => if s.2.2.1 + n ≤ patch.length then (some ((patch.drop s.2.2.1).take n), (s.1 + 1, s.2.1, s.2.2.1 + n, s.2.2.2)) else (none, (s.1 + 1, s.2))
  fwrite s _ d := if s.1 ∈ fails then (false, (s.1 + 1, s.2)) else (true, (s.1 + 1, s.2.1 + d.length, s.2.2.1, s.2.2.2.1, fileWrite s.2.2.2.2 s.2.1 d))

/-- Step callbacks that keep the step there. -/
def exampleMemSteps (fails : List Nat) : Steps (Nat × Nat × Nat × Int × Bytes) where
  set := some fun s n => if s.1 ∈ fails then (-1, (s.1 + 1, s.2)) else (0, (s.1 + 1, s.2.1, s.2.2.1, n, s.2.2.2.2))
  get := some fun s => if s.1 ∈ fails then (-1, 0, (s.1 + 1, s.2)) else (0, s.2.2.2.1, (s.1 + 1, s.2))

/-- A patch for a memory of 8 bytes with segments of 4: the two bytes of the from-data, shifted
by 4, and one more. -/
def exampleMemPatch : Bytes := [0x10, 8, 4, 4, 2, 3, 0, 2, 0, 0, 1, 3, 0]

-- All succeeds: 18 calls. Then each of the calls before the two of fclose fails, then fclose.
example : (applyInPlaceFilenamesOn (exampleMemStdio exampleMemPatch []) {} { sys := (0, 0, 0, 0, [1, 2, 0, 0, 9, 9, 9, 9]) }).map
    (fun r => (r.1, r.2.sys.1, r.2.sys.2.2.2.2, r.2.opened)) = .ok (3, 18, [1, 2, 3, 0, 1, 2, 0, 0], []) := by decide +kernel
example : (List.range 18).map (fun k => (applyInPlaceFilenamesOn (exampleMemStdio exampleMemPatch [k]) {} { sys := (0, 0, 0, 0, [1, 2, 0, 0, 9, 9, 9, 9]) }).map
    (fun r => (r.1, r.2.opened, r.2.failed, r.2.closeFailed))) =
    ([FILE_OPEN_FAILED, FILE_OPEN_FAILED, FILE_SEEK_FAILED, FILE_TELL_FAILED, FILE_SEEK_FAILED, IO_FAILED,
      FILE_SEEK_FAILED, FILE_READ_FAILED, FILE_SEEK_FAILED, FILE_WRITE_FAILED, IO_FAILED, IO_FAILED, IO_FAILED, IO_FAILED, IO_FAILED, IO_FAILED].map
        fun e => .ok (e, [], true, false)) ++ [.ok (3, [], false, true), .ok (3, [], false, true)] := by
  decide +kernel

/-- C67. In place too, that `fclose` of the memory file failed is lost. -/
theorem C67_in_place_close_failure_lost : ∃ io, applyInPlaceFilenamesOn (exampleMemStdio exampleMemPatch [16]) {}
    { sys := (0, 0, 0, 0, [1, 2, 0, 0, 9, 9, 9, 9]) } = .ok (3, io) ∧ io.closeFailed = true := by
  have h : (applyInPlaceFilenamesOn (exampleMemStdio exampleMemPatch [16]) {} { sys := (0, 0, 0, 0, [1, 2, 0, 0, 9, 9, 9, 9]) }).map
      (fun r => (r.1, r.2.closeFailed)) = .ok (3, true) := by decide +kernel
  rcases hr : applyInPlaceFilenamesOn (exampleMemStdio exampleMemPatch [16]) {} { sys := (0, 0, 0, 0, [1, 2, 0, 0, 9, 9, 9, 9]) } with e | ⟨n, io⟩
  · rw [hr] at h; cases h
  · rw [hr] at h
    simp only [Except.map, Except.ok.injEq, Prod.mk.injEq] at h
    exact ⟨io, by rw [h.1], h.2⟩

/-- C67. On a stdio that does what the C standard says whenever a call succeeds, and that may
fail at any call: if the value is not negative and `fclose` did not fail, the memory file has
exactly what the update makes of it with files that never fail, and the value is the same.
Without step callbacks. -/
theorem C67_in_place_output [Build] {patch : Bytes} {S : Stdio ν} {view : ν → MemView} (hS : HonestMem S patch view)
    (sys : ν) (n : Int) (io : Io ν) (h : applyInPlaceFilenamesOn S {} { sys := sys } = .ok (n, io)) (h0 : 0 ≤ n) (hc : io.closeFailed = false) :
    applyPatchInPlaceFilenames { memory := some (view sys).file, patch := some patch } {} () = .ok (n, some (view io.sys).file, ()) :=
  applyInPlaceFilenamesOn_output hS (user := fun _ => ()) ⟨.inl ⟨rfl, rfl⟩, .inl ⟨rfl, rfl⟩⟩ sys n io h h0 hc

/-- C67. The same with step callbacks that store the step and may fail at any call. -/
theorem C67_in_place_output_steps [Build] {patch : Bytes} {S : Stdio ν} {view : ν → MemView} (hS : HonestMem S patch view)
    {steps : Steps ν} (hst : HonestSteps steps view)
    (sys : ν) (n : Int) (io : Io ν) (h : applyInPlaceFilenamesOn S steps { sys := sys } = .ok (n, io)) (h0 : 0 ≤ n) (hc : io.closeFailed = false) :
    applyPatchInPlaceFilenames { memory := some (view sys).file, patch := some patch } rememberSteps (view sys).step =
      .ok (n, some (view io.sys).file, (view io.sys).step) := by
  obtain ⟨⟨f, f1, f2⟩, g, g1, g2⟩ := hst
  refine applyInPlaceFilenamesOn_output hS (user := fun n => n) ⟨.inr ⟨f, _, f1, rfl, fun s n hr => ⟨f2 s n hr, fun _ => rfl⟩⟩,
    .inr ⟨g, _, g1, rfl, fun s hr => ⟨(g2 s hr).2, ?_⟩⟩⟩ sys n io h h0 hc
  rw [(g2 s hr).1]

/-- C67. In particular, for a patch made by `create_patch` for a memory that the memory file
has: on a stdio that may fail at any call, a value that is not negative means that the memory file
begins with the to-data, has the same length and is unchanged beyond the memory of the patch,
unless `fclose` failed. -/
theorem C67_in_place_created [Build] {lib : Lib} (hsa : SuffixArrayInRange lib.suffixArray) {c : Compression} {memory seg : Nat} {minShift : Option Nat}
    {fr to patch : Bytes} (hd : DevicePatch lib c memory seg minShift fr to patch) {S : Stdio ν} {view : ν → MemView} (hS : HonestMem S patch view)
    (sys : ν) (hlen : memory ≤ (view sys).file.length) (hfr : fr.length ≤ memory) (hpre : fr <+: (view sys).file)
    (n : Int) (io : Io ν) (h : applyInPlaceFilenamesOn S {} { sys := sys } = .ok (n, io)) (h0 : 0 ≤ n) (hc : io.closeFailed = false) :
    n = to.length ∧ to <+: (view io.sys).file ∧ (view io.sys).file.length = (view sys).file.length ∧
      (view io.sys).file.drop memory = (view sys).file.drop memory := by
  obtain ⟨file', u', e, h2, h3, h4⟩ := C44_in_place_filenames hsa hd { memory := some (view sys).file, patch := some patch } (view sys).file
    rfl hlen hfr hpre rfl rfl ⟨rfl, rfl⟩ ()
  rw [C67_in_place_output hS sys n io h h0 hc] at e
  simp only [Except.ok.injEq, Prod.mk.injEq, Option.some.injEq] at e
  obtain ⟨e1, e2, -⟩ := e
  subst e2
  exact ⟨e1, h2, h3, h4⟩

/-- C67. The same with step callbacks that store the step and may fail at any call; the stored
step is 0 again. -/
theorem C67_in_place_created_steps [Build] {lib : Lib} (hsa : SuffixArrayInRange lib.suffixArray) {c : Compression} {memory seg : Nat} {minShift : Option Nat}
    {fr to patch : Bytes} (hd : DevicePatch lib c memory seg minShift fr to patch) (hne : to ≠ []) {S : Stdio ν} {view : ν → MemView} (hS : HonestMem S patch view)
    {steps : Steps ν} (hst : HonestSteps steps view)
    (sys : ν) (hlen : memory ≤ (view sys).file.length) (hfr : fr.length ≤ memory) (hpre : fr <+: (view sys).file) (hstep : (view sys).step = 0)
    (n : Int) (io : Io ν) (h : applyInPlaceFilenamesOn S steps { sys := sys } = .ok (n, io)) (h0 : 0 ≤ n) (hc : io.closeFailed = false) :
    n = to.length ∧ to <+: (view io.sys).file ∧ (view io.sys).file.length = (view sys).file.length ∧
      (view io.sys).file.drop memory = (view sys).file.drop memory ∧ (view io.sys).step = 0 := by
  obtain ⟨file', e, h2, h3, h4⟩ := C44_in_place_filenames_steps hsa hd { memory := some (view sys).file, patch := some patch } (view sys).file
    rfl hlen hfr hpre rfl rfl ⟨rfl, rfl⟩ hne
  have ho := C67_in_place_output_steps hS hst sys n io h h0 hc
  rw [hstep, e] at ho
  simp only [Except.ok.injEq, Prod.mk.injEq, Option.some.injEq] at ho
  obtain ⟨e1, e2, e3⟩ := ho
  rw [← e2]
  exact ⟨e1.symm, h2, h3, h4, e3.symm⟩

/-- The example does what the C standard says, whichever calls fail. -/
theorem exampleMemStdio_honest (patch : Bytes) (fails : List Nat) :
    HonestMem (exampleMemStdio patch fails) patch (fun s => ⟨s.2.2.2.2, s.2.1, s.2.2.1, s.2.2.2.1⟩) where
  openMemory s h := by
    by_cases hf : s.1 ∈ fails <;> simp [exampleMemStdio, hf] at h ⊢
  openPatch s h := by
    by_cases hf : s.1 ∈ fails <;> simp [exampleMemStdio, hf] at h ⊢
  close s fd h := rfl
  seekMemory s off h := by
    by_cases hf : s.1 ∈ fails ∨ off < 0
    · simp [exampleMemStdio, hf] at h
    · simp only [exampleMemStdio, if_neg hf]
      exact ⟨by omega, trivial⟩
  seekEnd s h := by
    by_cases hf : s.1 ∈ fails <;> simp [exampleMemStdio, hf] at h ⊢
  seekSet s h := by
    by_cases hf : s.1 ∈ fails <;> simp [exampleMemStdio, hf] at h ⊢
  tell s h := by
    by_cases hf : s.1 ∈ fails <;> simp [exampleMemStdio, hf] at h ⊢
  readMemory s n data h := by
    by_cases hf : s.1 ∈ fails
    · simp [exampleMemStdio, hf] at h
    · by_cases hn : s.2.1 + n ≤ s.2.2.2.2.length
      · simp only [exampleMemStdio, if_neg hf, if_pos hn, Option.some.injEq] at h ⊢
        exact ⟨hn, h.symm, trivial⟩
      · simp [exampleMemStdio, hf, hn] at h
  readPatch s n data h := by
    by_cases hf : s.1 ∈ fails
    · simp [exampleMemStdio, hf] at h
    · by_cases hn : s.2.2.1 + n ≤ patch.length
      · simp only [exampleMemStdio, if_neg hf, if_pos hn, Option.some.injEq] at h ⊢
        exact ⟨hn, h.symm, trivial⟩
      · simp [exampleMemStdio, hf, hn] at h
  write s data h := by
    by_cases hf : s.1 ∈ fails <;> simp [exampleMemStdio, hf] at h ⊢

attribute [local instance] noLzma in
-- The hypotheses of C67_in_place_created are met: a file with three more bytes than the memory.
example : DevicePatch exampleLib .none 12 2 (some 2) [1, 2, 3, 4, 5] [1, 2, 3, 9, 4, 5, 6] exampleInPlacePatch ∧
    (applyInPlaceFilenamesOn (exampleMemStdio exampleInPlacePatch []) {} { sys := (0, 0, 0, 0, [1, 2, 3, 4, 5, 255, 254, 253, 252, 251, 250, 249, 70, 71, 72]) }).map
      (fun r => (r.1, r.2.sys.2.2.2.2, r.2.closeFailed)) = .ok (7, [1, 2, 3, 9, 4, 5, 6, 2, 3, 4, 5, 255, 70, 71, 72], false) :=
  ⟨exampleDevice_patch, by decide +kernel⟩

theorem exampleMemSteps_honest (fails : List Nat) :
    HonestSteps (exampleMemSteps fails) (fun s => ⟨s.2.2.2.2, s.2.1, s.2.2.1, s.2.2.2.1⟩) where
  set := ⟨_, rfl, fun s n h => by by_cases hf : s.1 ∈ fails <;> simp [hf] at h ⊢⟩
  get := ⟨_, rfl, fun s h => by by_cases hf : s.1 ∈ fails <;> simp [hf] at h ⊢⟩

attribute [local instance] noLzma in
-- With the step callbacks, the hypotheses of C67_in_place_created_steps are met; then one of them
-- fails.
example : (applyInPlaceFilenamesOn (exampleMemStdio exampleInPlacePatch []) (exampleMemSteps [])
      { sys := (0, 0, 0, 0, [1, 2, 3, 4, 5, 255, 254, 253, 252, 251, 250, 249, 70, 71, 72]) }).map
      (fun r => (r.1, r.2.sys.2.2.2, r.2.closeFailed)) = .ok (7, (0, [1, 2, 3, 9, 4, 5, 6, 2, 3, 4, 5, 255, 70, 71, 72]), false) ∧
    (applyInPlaceFilenamesOn (exampleMemStdio exampleInPlacePatch [6]) (exampleMemSteps [6])
      { sys := (0, 0, 0, 0, [1, 2, 3, 4, 5, 255, 254, 253, 252, 251, 250, 249, 70, 71, 72]) }).map
      (fun r => (r.1, r.2.sys.2.2.2, r.2.opened)) = .ok (STEP_GET_FAILED, (0, [1, 2, 3, 4, 5, 255, 254, 253, 252, 251, 250, 249, 70, 71, 72]), []) := by
  decide +kernel

/-- C67. The other direction for in-place updates: on a stdio on which no call fails that need not,
a patch that is applied with files that never fail is applied, with the same value and the same
contents of the memory file, and nothing fails. Without step callbacks. -/
theorem C67_in_place_works [Build] {patch : Bytes} {S : Stdio ν} {view : ν → MemView} (hS : WorksMem S patch view)
    (sys : ν) (n : Int) (file : Bytes) (h0 : 0 ≤ n)
    (h : applyPatchInPlaceFilenames { memory := some (view sys).file, patch := some patch } {} () = .ok (n, some file, ())) :
    ∃ io, applyInPlaceFilenamesOn S {} { sys := sys } = .ok (n, io) ∧ (view io.sys).file = file ∧
      io.opened = [] ∧ io.failed = false ∧ io.closeFailed = false := by
  obtain ⟨io, e, e1, -, h1⟩ := applyInPlaceFilenamesOn_works hS (user := fun _ => ()) (steps := {}) ⟨.inl ⟨rfl, rfl⟩, .inl ⟨rfl, rfl⟩⟩
    ⟨fun _ k => (nomatch k), fun _ k => (nomatch k)⟩ sys n _ _ h0 h
  cases e1
  exact ⟨io, e, rfl, h1⟩

/-- C67. The same with step callbacks that store the step and do not fail. -/
theorem C67_in_place_works_steps [Build] {patch : Bytes} {S : Stdio ν} {view : ν → MemView} (hS : WorksMem S patch view)
    {steps : Steps ν} (hst : HonestSteps steps view) (hss : StepsSucceed steps) (sys : ν) (n : Int) (file : Bytes) (step : Int) (h0 : 0 ≤ n)
    (h : applyPatchInPlaceFilenames { memory := some (view sys).file, patch := some patch } rememberSteps (view sys).step = .ok (n, some file, step)) :
    ∃ io, applyInPlaceFilenamesOn S steps { sys := sys } = .ok (n, io) ∧ (view io.sys).file = file ∧ (view io.sys).step = step ∧
      io.opened = [] ∧ io.failed = false ∧ io.closeFailed = false := by
  obtain ⟨⟨f, f1, f2⟩, g, g1, g2⟩ := hst
  have hag : StepsAgree view (fun n => n) steps rememberSteps := by
    refine ⟨.inr ⟨f, _, f1, rfl, fun s n hr => ⟨f2 s n hr, fun _ => rfl⟩⟩, .inr ⟨g, _, g1, rfl, fun s hr => ⟨(g2 s hr).2, ?_⟩⟩⟩
    rw [(g2 s hr).1]
  obtain ⟨io, e, e1, e2, h1⟩ := applyInPlaceFilenamesOn_works hS hag hss sys n _ _ h0 h
  cases e1
  exact ⟨io, e, rfl, e2.symm, h1⟩

/-- C67. In particular a patch made by `create_patch` for a memory that the memory file has is
applied on every such stdio. -/
theorem C67_in_place_created_works [Build] {lib : Lib} (hsa : SuffixArrayInRange lib.suffixArray) {c : Compression} {memory seg : Nat}
    {minShift : Option Nat} {fr to patch : Bytes} (hd : DevicePatch lib c memory seg minShift fr to patch) {S : Stdio ν} {view : ν → MemView}
    (hS : WorksMem S patch view)
    (sys : ν) (hlen : memory ≤ (view sys).file.length) (hfr : fr.length ≤ memory) (hpre : fr <+: (view sys).file) :
    ∃ io, applyInPlaceFilenamesOn S {} { sys := sys } = .ok (to.length, io) ∧ to <+: (view io.sys).file ∧
      (view io.sys).file.length = (view sys).file.length ∧ (view io.sys).file.drop memory = (view sys).file.drop memory ∧
      io.opened = [] ∧ io.failed = false ∧ io.closeFailed = false := by
  obtain ⟨file', u', e, h2, h3, h4⟩ := C44_in_place_filenames hsa hd { memory := some (view sys).file, patch := some patch } (view sys).file
    rfl hlen hfr hpre rfl rfl ⟨rfl, rfl⟩ ()
  obtain ⟨io, e1, rfl, h1⟩ := C67_in_place_works hS sys to.length file' (by omega) e
  exact ⟨io, e1, h2, h3, h4, h1⟩

/-- C67. The same with step callbacks that store the step and do not fail; the stored step is 0
again. -/
theorem C67_in_place_created_works_steps [Build] {lib : Lib} (hsa : SuffixArrayInRange lib.suffixArray) {c : Compression} {memory seg : Nat}
    {minShift : Option Nat} {fr to patch : Bytes} (hd : DevicePatch lib c memory seg minShift fr to patch) (hne : to ≠ [])
    {S : Stdio ν} {view : ν → MemView} (hS : WorksMem S patch view) {steps : Steps ν} (hst : HonestSteps steps view) (hss : StepsSucceed steps)
    (sys : ν) (hlen : memory ≤ (view sys).file.length) (hfr : fr.length ≤ memory) (hpre : fr <+: (view sys).file) (hstep : (view sys).step = 0) :
    ∃ io, applyInPlaceFilenamesOn S steps { sys := sys } = .ok (to.length, io) ∧ to <+: (view io.sys).file ∧
      (view io.sys).file.length = (view sys).file.length ∧ (view io.sys).file.drop memory = (view sys).file.drop memory ∧ (view io.sys).step = 0 ∧
      io.opened = [] ∧ io.failed = false ∧ io.closeFailed = false := by
  obtain ⟨file', e, h2, h3, h4⟩ := C44_in_place_filenames_steps hsa hd { memory := some (view sys).file, patch := some patch } (view sys).file
    rfl hlen hfr hpre rfl rfl ⟨rfl, rfl⟩ hne
  obtain ⟨io, e1, rfl, e2, h1⟩ := C67_in_place_works_steps hS hst hss sys to.length file' 0 (by omega) (by rw [hstep]; exact e)
  exact ⟨io, e1, h2, h3, h4, e2, h1⟩

/-- The example without failing calls meets the hypotheses. -/
theorem exampleMemStdio_works (patch : Bytes) : WorksMem (exampleMemStdio patch []) patch (fun s => ⟨s.2.2.2.2, s.2.1, s.2.2.1, s.2.2.2.1⟩) where
  toHonestMem := exampleMemStdio_honest patch []
  opens s fd := by cases fd <;> simp [exampleMemStdio]
  closes s fd := by simp [exampleMemStdio]
  seeksMemory s off h := by
    have h : ¬ off < 0 := by omega
    simp [exampleMemStdio, h]
  seeksEnd s := by simp [exampleMemStdio]
  seeksSet s := by simp [exampleMemStdio]
  tells s := by simp [exampleMemStdio]
  readsMemory s n h := by
    simp only at h
    simp [exampleMemStdio, h]
  readsPatch s n h := by
    simp only at h
    simp [exampleMemStdio, h]
  writes s data := by simp [exampleMemStdio]

theorem exampleMemSteps_succeed : StepsSucceed (exampleMemSteps []) where
  sets f h s n := by cases h; simp
  gets f h s := by cases h; simp

attribute [local instance] noLzma in
-- The hypotheses of C67_in_place_no_start are met by the contents of the memory file.
example : ∃ io, applyInPlaceFilenamesOn (exampleMemStdio exampleMemPatch [1]) {} { sys := (0, 0, 0, 0, [1, 2, 0, 0, 9, 9, 9, 9]) } =
    .ok (FILE_OPEN_FAILED, io) ∧ io.sys.2.2.2.2 = [1, 2, 0, 0, 9, 9, 9, 9] := by
  refine C67_in_place_no_start (exampleMemStdio exampleMemPatch [1]) {} (0, 0, 0, 0, [1, 2, 0, 0, 9, 9, 9, 9])
    (fun s => s.2.2.2.2 = [1, 2, 0, 0, 9, 9, 9, 9]) rfl ?_ (fun s fd h => h) ?_ (fun s fd h => h) (.inr (by decide))
  · intro s fd h
    by_cases hf : s.1 = 1 <;> cases fd <;> simp [exampleMemStdio, hf, h]
  · intro s fd off wh h
    by_cases hf : s.1 = 1 ∨ off < 0 <;> cases fd <;> cases wh <;> simp [exampleMemStdio, hf, h]

end Detools
