import Verif.Proofs.CCallbacks
import Verif.Props.CSequential
import Verif.Props.CHeatshrink
/-
C34: detools_apply_patch_callbacks and detools_apply_patch_filenames. `Supplies` and
`parts512` are in Spec/Callbacks.lean.
-/
namespace Detools

attribute [local instance] noLzma

/-- C34. If every `patch_read` succeeds, `detools_apply_patch_callbacks` returns what
the low level API returns for the pieces read, and makes the same calls of the other
callbacks, whatever these do. -/
theorem C34_equals_incremental [Build] (E : SeqEnv τ) (read : PatchRead ρ) (patchSize : Nat) (a : τ) (r : ρ) (pieces : List Bytes)
    (hsup : Supplies read r patchSize pieces) :
    (applyPatchCallbacks (E.with ρ) (patchReadWith τ read) patchSize (a, r)).map (fun (n, w, _) => (n, w.arg.1, w.trace)) =
    (applyPieces E patchSize { arg := a } pieces).map (fun (n, _, w) => (n, w.arg, w.trace)) := by
  have h := callbacksLoop_with E read patchSize (patchSize + 2) 0 (applyPatchInit patchSize) { arg := a } r [] pieces
    (SInv.start patchSize) (by omega) (by omega) hsup
  unfold applyPatchCallbacks applyPieces
  rw [show ({ arg := (a, r) } : World (τ × ρ)) = World.attach r { arg := a } from rfl]
  cases hp : processAll E (applyPatchInit patchSize) { arg := a } pieces with
  | error u =>
    simp only [hp] at h
    rw [h]
    rfl
  | ok x =>
    obtain ⟨res, s, w⟩ := x
    simp only [hp] at h
    obtain ⟨r', rs', h1, h2, h3⟩ := h
    rw [h1]
    simp only [Bind.bind, Except.bind]
    by_cases hr : res = 0
    · rw [if_pos hr, if_neg (by simp [hr]), applyPatchFinalize_with]
      rcases applyPatchFinalize E s w with e | ⟨n, s', w'⟩ <;> rfl
    · rw [if_neg hr, if_pos hr]
      obtain ⟨s1, h4, _⟩ := failed_final (E.with ρ) (w := w.attach r') h2 (h3 hr)
      rw [h4]
      rfl

/-- C34, for arbitrary callbacks that may all depend on each other. The function
returns, with the same two kinds of undefined behaviour as the low level API. On
success every `patch_read` succeeded, they asked for exactly `patch_size` bytes, every
other callback succeeded, and the value returned is the number of bytes written. If a
`patch_read` fails the result is IO_FAILED. -/
theorem C34_any_callbacks [Build] (E : SeqEnv σ) (patchRead : PatchRead σ) (patchSize : Nat) (arg : σ) :
    match applyPatchCallbacks E patchRead patchSize arg with
    | .error u => u = .uninit ∨ u = .overflow
    | .ok (n, w, reads) =>
      (∀ x ∈ reads, x.1 ≤ 512) ∧
      ((∃ x ∈ reads, x.2 ≠ 0) → n = IO_FAILED) ∧
      (0 ≤ n → (∀ x ∈ reads, x.2 = 0) ∧ (reads.map Prod.fst).sum = patchSize ∧
        ((written w.trace).length < 2 ^ 64 → ((written w.trace).length : Int) = n)) := by
  unfold applyPatchCallbacks
  rcases callbacksLoop_ok E patchRead patchSize (patchSize + 2) 0 (applyPatchInit patchSize) { arg := arg } []
    (SInv.start patchSize) (by omega) (by omega) with (e | e) | ⟨res, s, w, rs, e, hs, hend⟩
  · rw [e]; exact .inl rfl
  · rw [e]; exact .inr rfl
  · have hcap := callbacksLoop_cap E patchRead patchSize _ _ _ _ _ _ (by simp) e
    have hoff : s.toOffset = sz (written w.trace).length := by
      refine callbacksLoop_inv E patchRead patchSize (fun s tr => s.toOffset = sz (written tr).length) ?_ _ _ _ _ _ _ (SInv.start patchSize) rfl e
      intro s w p res s' w' hs hq hp
      rcases process_ok E hs w p with (e | e) | ⟨_, _, _, e, _, g, _⟩
      · rw [e] at hp; cases hp
      · rw [e] at hp; cases hp
      · rw [e] at hp; cases hp
        exact g.off hq
    rw [e]
    simp only [Bind.bind, Except.bind]
    rcases finalize_ok E hs w with (e1 | e1) | ⟨m, s', w', e1, g1, g2, _⟩
    · rw [e1]
      by_cases hr : res = 0
      · rw [if_pos hr]; exact .inl rfl
      · rw [if_neg hr]; exact .inl rfl
    · rw [e1]
      by_cases hr : res = 0
      · rw [if_pos hr]; exact .inr rfl
      · rw [if_neg hr]; exact .inr rfl
    rw [e1]
    by_cases hr : res = 0
    · subst hr
      rw [if_pos rfl]
      have hall : ∀ x ∈ rs, x.2 = 0 := by
        cases hend with
        | all k _ => simpa using k
        | failed _ k => exact absurd k (by decide)
      refine ⟨hcap, ?_, ?_⟩
      · rintro ⟨x, hx, hne⟩
        exact absurd (hall x hx) hne
      · intro hn
        refine ⟨hall, ?_, ?_⟩
        · cases hend with
          | all _ k => simpa using k
          | failed _ k => exact absurd k (by decide)
        · intro hlt
          have := g2.off hoff
          cases g1 with
          | ok evs k1 k2 k3 k4 =>
            rw [g2.inv.done k3] at this
            unfold sz at this
            rw [Nat.mod_eq_of_lt hlt] at this
            omega
          | fail _ _ _ k => omega
          | io => exact absurd (show (0 : Int) ≤ IO_FAILED from hn) (by decide)
    · rw [if_neg hr]
      refine ⟨hcap, ?_, ?_⟩
      · rintro ⟨x, hx, hne⟩
        cases hend with
        | all => exact absurd rfl hr
        | failed k => exact absurd (k x (by simpa using hx)) hne
        | read => rfl
      · intro hn
        cases hend with
        | all => exact absurd rfl hr
        | failed _ k => omega
        | read => exact absurd hn (by decide)

/-- The callback function on a from-file and a patch file. -/
def callbacksOnFiles [Build] (fr patch : Bytes) : C (Int × World (Files × ReadFile) × Reads) :=
  applyPatchCallbacks ((fileEnv fr).with ReadFile) (patchReadWith Files fileRead) patch.length ({}, { data := patch })

/-- C34, on files: the callback function succeeds with `n` and `out` exactly if the low
level API does for the patch in parts of 512 bytes. -/
theorem C34_files_parts [Build] (fr patch : Bytes) (hP : patch.length < 2 ^ 63) (n : Int) (out : Bytes) :
    (0 ≤ n ∧ (callbacksOnFiles fr patch).map (fun (n, w, _) => (n, w.arg.1.out)) = .ok (n, out)) ↔
      CAccepts fr patch.length (parts512 patch) n out := by
  have hsup := supplies_file patch patch.length 0 (by omega)
  rw [List.drop_zero, Nat.sub_zero] at hsup
  have h := C34_equals_incremental (fileEnv fr) fileRead patch.length {} _ _ hsup
  unfold CAccepts callbacksOnFiles
  constructor
  · rintro ⟨hn, he⟩
    cases hc : applyPatchCallbacks ((fileEnv fr).with ReadFile) (patchReadWith Files fileRead) patch.length ({}, { data := patch }) with
    | error u => rw [hc] at he; cases he
    | ok x =>
      obtain ⟨m, w, rs⟩ := x
      rw [hc] at he h
      simp only [Except.map, Except.ok.injEq, Prod.mk.injEq] at he
      cases ha : applyPieces (fileEnv fr) patch.length { arg := {} } (parts512 patch) with
      | error u => rw [ha] at h; cases h
      | ok y =>
        obtain ⟨m', s', w'⟩ := y
        rw [ha] at h
        simp only [Except.map, Except.ok.injEq, Prod.mk.injEq] at h
        exact ⟨s', w', by rw [← h.1, he.1], hn, by rw [← h.2.1, he.2]⟩
  · rintro ⟨s, w, ha, hn, ho⟩
    refine ⟨hn, ?_⟩
    rw [ha] at h
    cases hc : applyPatchCallbacks ((fileEnv fr).with ReadFile) (patchReadWith Files fileRead) patch.length ({}, { data := patch }) with
    | error u => rw [hc] at h; cases h
    | ok x =>
      obtain ⟨m, w', rs⟩ := x
      rw [hc] at h
      simp only [Except.map, Except.ok.injEq, Prod.mk.injEq] at h ⊢
      exact ⟨h.1, by rw [h.2.1, ho]⟩

/-- C34 and C09: the same for every other division of the patch that does not split the
header of an uncompressed patch, unless the patch is compressed with LZMA. -/
theorem C34_files [Build] (fr patch : Bytes) (hfr : fr.length < 2 ^ 31) (hP : patch.length < 2 ^ 63) (pieces : List Bytes)
    (hpieces : pieces.flatten = patch ∧ HeaderInFirst patch.length pieces) (hz : NotLzmaPatch patch) (n : Int) (out : Bytes) :
    (0 ≤ n ∧ (callbacksOnFiles fr patch).map (fun (n, w, _) => (n, w.arg.1.out)) = .ok (n, out)) ↔
      CAccepts fr patch.length pieces n out := by
  rw [C34_files_parts fr patch hP]
  exact C09_chunk_independence fr hfr _ hP _ _ (by rw [parts512_flatten _ _ (Nat.le_refl _), hpieces.1]) (by rw [parts512_flatten _ _ (Nat.le_refl _)]; exact hz) (headerInFirst_parts patch) hpieces.2 n out

/-- The three files can be opened and the size of the patch is found. -/
structure Os.Opens (os : Os) (fr patch : Bytes) : Prop where
  from_ : os.from_ = some fr
  patch : os.patch = some patch
  to : os.toOpens = true
  seeks : os.seeks = true

/-- C34. `detools_apply_patch_filenames` applies exactly the patches the low level API
applies, with the same result and the same to-data. Only the size 0 is replaced by an
error if a file cannot be closed. -/
theorem C34_filenames [Build] (os : Os) (fr patch : Bytes) (hos : os.Opens fr patch) (hP : patch.length < 2 ^ 63) :
    (∀ n out, CAccepts fr patch.length (parts512 patch) n out →
      applyPatchFilenames os = .ok (if n = 0 ∧ ¬ (os.closeFrom = 0 ∧ os.closeTo = 0 ∧ os.closePatch = 0) then FILE_CLOSE_FAILED else n, some out)) ∧
    (∀ n out, 0 ≤ n → applyPatchFilenames os = .ok (n, out) → ∃ data, out = some data ∧ CAccepts fr patch.length (parts512 patch) n data) := by
  have hfiles := C34_files_parts fr patch hP
  have hcl : fileIoCleanup os = if os.closeFrom = 0 ∧ os.closeTo = 0 ∧ os.closePatch = 0 then 0 else FILE_CLOSE_FAILED := by
    unfold fileIoCleanup
    by_cases h : os.closeFrom = 0 ∧ os.closeTo = 0 ∧ os.closePatch = 0
    · rw [if_pos h, if_neg (by simp [h.1, h.2.1, h.2.2]), h.1]
    · rw [if_neg h, if_pos]
      by_cases h1 : os.closeFrom = 0
      · by_cases h2 : os.closeTo = 0
        · exact .inr (.inr fun h3 => h ⟨h1, h2, h3⟩)
        · exact .inr (.inl h2)
      · exact .inl h1
  by_cases hne : patch.length = 0
  · have : patch = [] := List.length_eq_zero_iff.1 hne
    subst this
    constructor
    · intro n out hacc
      obtain ⟨s, w, h, hn, _⟩ := hacc
      have hr : ∃ s w, applyPieces (fileEnv fr) 0 { arg := {} } [] = .ok (SHORT_HEADER, s, w) := by
        obtain ⟨f, hf⟩ : ∃ f, ApplyPatch.fuel { applyPatchInit 0 with chunk := { buf := [], offset := 0 } } = f + 2 := by
          unfold ApplyPatch.fuel
          exact ⟨_, (Nat.sub_add_cancel (by omega)).symm⟩
        simp only [applyPieces, processAll, Bind.bind, Except.bind, applyPatchFinalize, hf]
        exact ⟨_, _, rfl⟩
      obtain ⟨_, _, hr⟩ := hr
      rw [show parts512 [] = [] from rfl, List.length_nil, hr] at h
      cases h
      exact absurd hn (by decide)
    · intro n out hn h
      unfold applyPatchFilenames fileIoInit at h
      simp only [hos.from_, hos.patch, hos.to, hos.seeks, Bool.true_eq_false, if_false, List.length_nil, if_true] at h
      cases h
      exact absurd hn (by decide)
  · have hrun : applyPatchFilenames os = (do
        let (res, w, _) ← applyPatchCallbacks ((fileEnv fr).with ReadFile) (patchReadWith Files fileRead) patch.length ({}, { data := patch })
        if res ≠ 0 then .ok (res, some w.arg.1.out) else .ok (fileIoCleanup os, some w.arg.1.out)) := by
      unfold applyPatchFilenames fileIoInit
      simp only [hos.from_, hos.patch, hos.to, hos.seeks, Bool.true_eq_false, if_false, hne]
    rw [hrun]
    unfold callbacksOnFiles at hfiles
    cases hx : applyPatchCallbacks ((fileEnv fr).with ReadFile) (patchReadWith Files fileRead) patch.length ({}, { data := patch }) with
    | error u =>
      rw [hx] at hfiles
      constructor
      · intro n out hacc
        obtain ⟨_, he⟩ := (hfiles n out).2 hacc
        cases he
      · intro n out _ h
        cases h
    | ok x =>
      obtain ⟨m, w, rs⟩ := x
      rw [hx] at hfiles
      simp only [Except.map, Except.ok.injEq, Prod.mk.injEq] at hfiles
      simp only [Bind.bind, Except.bind]
      constructor
      · intro n out hacc
        obtain ⟨_, rfl, rfl⟩ := (hfiles n out).2 hacc
        by_cases h0 : m = 0
        · rw [if_neg (by simp [h0]), hcl, h0]
          by_cases h : os.closeFrom = 0 ∧ os.closeTo = 0 ∧ os.closePatch = 0
          · rw [if_pos h, if_neg (fun h' => h'.2 h)]
          · rw [if_neg h, if_pos ⟨rfl, h⟩]
        · rw [if_pos h0, if_neg (fun h' => h0 h'.1)]
      · intro n out hn h
        by_cases h0 : m = 0
        · rw [if_neg (by simp [h0]), hcl] at h
          cases h
          refine ⟨_, rfl, (hfiles _ _).1 ⟨hn, ?_, rfl⟩⟩
          by_cases h : os.closeFrom = 0 ∧ os.closeTo = 0 ∧ os.closePatch = 0
          · rw [if_pos h, h0]
          · rw [if_neg h] at hn
            exact absurd hn (by decide)
        · rw [if_pos h0] at h
          cases h
          exact ⟨_, rfl, (hfiles _ _).1 ⟨hn, rfl, rfl⟩⟩

/-- C34. If a file cannot be opened, or the patch is empty or its size cannot be found, an
error is returned. The to-file does not exist if it or the from-file could not be opened;
otherwise it is empty. -/
theorem C34_filenames_no_start [Build] (os : Os) (h : os.from_ = none ∨ os.toOpens = false ∨ os.patch = none ∨ os.seeks = false ∨ os.patch = some []) :
    ∃ e, e < 0 ∧ applyPatchFilenames os = .ok (e, if os.from_ = none ∨ os.toOpens = false then none else some []) := by
  unfold applyPatchFilenames fileIoInit
  rcases os with ⟨fr, patch, toOpens, seeks, c1, c2, c3⟩
  simp only at h
  cases fr with
  | none => exact ⟨_, by decide, rfl⟩
  | some fr =>
    cases toOpens with
    | false => exact ⟨_, by decide, rfl⟩
    | true =>
      cases patch with
      | none => exact ⟨_, by decide, rfl⟩
      | some patch =>
        cases seeks with
        | false => exact ⟨_, by decide, rfl⟩
        | true =>
          rcases h with h | h | h | h | h
          · cases h
          · cases h
          · cases h
          · cases h
          · cases h
            exact ⟨_, by decide, rfl⟩

-- A patch to no data: the size is 0, and closing the files decides.
example : applyPatchFilenames { from_ := some [1, 2], patch := some [0, 0] } = .ok (0, some []) ∧
    applyPatchFilenames { from_ := some [1, 2], patch := some [0, 0], closeTo := -1 } = .ok (FILE_CLOSE_FAILED, some []) ∧
    applyPatchFilenames { from_ := some [1, 2], patch := some [0, 0], toOpens := false } = .ok (FILE_OPEN_FAILED, none) ∧
    applyPatchFilenames { from_ := some [1, 2], patch := some [] } = .ok (FILE_TELL_FAILED, some []) := by decide +kernel

/-- `detools_apply_patch_filenames` applies a patch created in Python: the three files
can be opened and closed and the patch file is not changed meanwhile. -/
theorem C34_filenames_created [Build] (lib : Lib) (hsa : SuffixArrayInRange lib.suffixArray) (c : Compression)
    (hc : c = .none ∨ c = .crle ∨ (c = .heatshrink ∧ HsDefault lib))
    (fr to : Bytes) (hfr : fr.length < 2 ^ 27) (hto : to.length < 2 ^ 27)
    (plain : Bytes) (hplain : createSequential lib .none none fr to = .ok plain) (hsz : plain.length < 2 ^ 28)
    (patch : Bytes) (hcreate : createSequential lib c none fr to = .ok patch) (hpl : patch.length < 2 ^ 50)
    (os : Os) (hos : os.Opens fr patch) (hclose : os.closeFrom = 0 ∧ os.closeTo = 0 ∧ os.closePatch = 0) :
    applyPatchFilenames os = .ok (to.length, some to) := by
  have hflat := parts512_flatten _ patch (Nat.le_refl _)
  have hacc : CAccepts fr patch.length (parts512 patch) to.length to := by
    rcases hc with rfl | rfl | ⟨rfl, hl⟩
    · exact C08_c_applies_created lib hsa _ (.inl rfl) fr to hfr hto plain hplain hsz patch hcreate _ hflat (headerInFirst_parts patch) (by omega)
    · exact C08_c_applies_created lib hsa _ (.inr rfl) fr to hfr hto plain hplain hsz patch hcreate _ hflat (headerInFirst_parts patch) (by omega)
    · exact C08_c_applies_created_heatshrink lib hsa hl fr to hfr hto patch hcreate [] (by simpa using hpl) _ (by simpa using hflat) _ (by omega)
  rw [(C34_filenames os fr patch hos (by omega)).1 _ _ hacc, if_neg (fun h => h.2 hclose)]

-- A patch created with heatshrink, in a file.
example : (createSequential exampleLib2 .heatshrink none [1, 2] [1, 2, 3]).map (fun patch => applyPatchFilenames { from_ := some [1, 2], patch := some patch }) =
    .ok (.ok (3, some [1, 2, 3])) := by decide +kernel

/-- A to-file that cannot be closed (its data is not stored) is reported as success. -/
theorem C34_close_failure_ignored :
    applyPatchFilenames { from_ := some [1, 2], patch := some [0, 3, 0, 2, 0, 0, 1, 3, 0], closeTo := -1 } = .ok (3, some [1, 2, 3]) := by
  decide +kernel

-- A patch of two parts of 512 bytes and a rest, read one after the other.
example : (callbacksOnFiles [1, 2] ([0, 0x90, 0x10, 0, 2, 0, 0, 0x8e, 0x10] ++ List.replicate 1038 5 ++ [0])).map
    (fun (n, w, rs) => (n, w.arg.1.out, rs)) = .ok (1040, [1, 2] ++ List.replicate 1038 5, [(24, 0), (512, 0), (512, 0)]) := by
  decide +kernel

-- A patch_read that fails.
example : (applyPatchCallbacks ((fileEnv [1, 2]).with ReadFile) (patchReadWith Files fileRead) 600 ({}, { data := [0, 3, 0, 2, 0, 0, 1, 3, 0] })).map
    (fun (n, w, rs) => (n, w.arg.1.out, rs)) = .ok (IO_FAILED, [], [(512, FILE_READ_FAILED)]) := by decide +kernel

end Detools
