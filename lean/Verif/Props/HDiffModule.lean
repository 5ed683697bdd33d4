import Verif.Proofs.HDiffModule
import Verif.Props.PyContainers

/-!
C60: patches of the algorithms hdiffpatch and match-blocks, made and applied through the
extension module `hdiffpatch` and the library HDiffPatch.
-/

namespace Detools

/-- C60. A patch of type hdiffpatch that was created with one system is applied with another
that has memory: the to-data, whatever larger caches the system refuses. -/
theorem C60_roundtrip (lib : Lib) (L : HDiffPatch) (hL : L.Correct) (made applied : HEnv) (hE : applied.HasMemory) (formats : Int → Option DataFormat)
    (realFiles : Bool) (args : CreateArgs) (C : Lossless (lib.codecOf args.compression)) (fr to patch : Bytes) (clamp : Bool) (n m : Nat) (hm : 14 ≤ m)
    (hto : to.length < 2 ^ 63)
    (halg : args.algorithm = .hdiffpatch ∨ args.algorithm = .matchBlocks) (htype : args.patchType = .hdiffpatch)
    (hcreate : createPatch lib (L.extension made made n) realFiles args fr to = .ok patch) :
    ∃ F, ∀ fuel, F ≤ fuel →
      applyPatch lib (L.extension applied applied m) formats fuel { data := fr, pos := 0, clampSeek := clamp } patch = ⟨to, .ok to.length⟩ := by
  obtain ⟨p, n1, n2, score, block, hp, h1, h2, hpatch⟩ := createPatch_hdiffpatch_shape halg htype hcreate
  obtain ⟨F, hF⟩ := applyHdiffpatch_ok lib (L.extension applied applied m) args.compression C fr to p clamp
    (mApplyPatch_undoes hL hE hm hto (mCreatePatch_ok hp))
  refine ⟨F, fun fuel hf => ?_⟩
  rw [hpatch, pyPackSize_eq h1, pyPackSize_eq h2, applyPatch]
  simp only [List.append_assoc, peek_header PATCH_TYPE_HDIFFPATCH (by decide), W.lift_bind_ok]
  rw [if_neg (by decide), if_pos trivial]
  have := hF fuel hf
  simpa only [List.append_assoc] using this

/-- C60. The same for match-blocks and patch type sequential; HDiffPatch is not needed to apply it. -/
theorem C60_sequential_roundtrip (lib : Lib) (L : HDiffPatch) (hL : L.WritesRecords) (made : HEnv) (h : HDiff) (formats : Int → Option DataFormat)
    (realFiles : Bool) (args : CreateArgs) (C : Lossless (lib.codecOf args.compression)) (fr to patch : Bytes) (clamp : Bool) (n : Nat)
    (halg : args.algorithm = .matchBlocks) (htype : args.patchType = .sequential)
    (hcreate : createPatch lib (L.extension made made n) realFiles args fr to = .ok patch) :
    ∃ F, ∀ fuel, F ≤ fuel →
      applyPatch lib h formats fuel { data := fr, pos := 0, clampSeek := clamp } patch = ⟨to, .ok to.length⟩ :=
  C38_match_blocks_sequential_roundtrip lib ⟨(L.extension made made n).create, h.apply⟩
    (fun fr to score block diff hc => by
      have hc : mCreatePatch L made fr to score block PATCH_TYPE_SEQUENTIAL = .ok diff := hc
      obtain ⟨k, hk⟩ := mCreatePatch_ok hc
      exact hL _ _ k _ hk)
    formats realFiles args C fr to patch clamp halg htype hcreate

/-- C60. From-data of another size is refused, with nothing written; only a patch of empty
to-data is applied to anything. -/
theorem C60_wrong_size (lib : Lib) (L : HDiffPatch) (hL : L.Correct) (made applied : HEnv) (formats : Int → Option DataFormat)
    (realFiles : Bool) (args : CreateArgs) (C : Lossless (lib.codecOf args.compression)) (fr to patch : Bytes) (n m : Nat)
    (halg : args.algorithm = .hdiffpatch ∨ args.algorithm = .matchBlocks) (htype : args.patchType = .hdiffpatch)
    (hcreate : createPatch lib (L.extension made made n) realFiles args fr to = .ok patch) (hto : to ≠ []) :
    ∃ F, ∀ fuel, F ≤ fuel → ∀ from_ : PyFile, from_.data.length ≠ fr.length →
      applyPatch lib (L.extension applied applied m) formats fuel from_ patch = ⟨[], .error (.builtin "SystemError")⟩ := by
  obtain ⟨p, n1, n2, score, block, hp, h1, h2, hpatch⟩ := createPatch_hdiffpatch_shape halg htype hcreate
  obtain ⟨F, hF⟩ := applyHdiffpatch_any lib (L.extension applied applied m) args.compression C to p hto
  refine ⟨F, fun fuel hf from_ hne => ?_⟩
  rw [hpatch, pyPackSize_eq h1, pyPackSize_eq h2, applyPatch]
  simp only [List.append_assoc, peek_header PATCH_TYPE_HDIFFPATCH (by decide), W.lift_bind_ok]
  rw [if_neg (by decide), if_pos trivial]
  have := hF fuel hf from_
  simp only [List.append_assoc] at this
  rw [this]
  have : (L.extension applied applied m).apply from_.data p = .error (.builtin "SystemError") := by
    show mApplyPatch L applied m from_.data p = _
    rw [mApplyPatch, hL.sizes (mCreatePatch_ok hp)]
    simp [hne]
  rw [this]

/-- C60. What the extension module returns is what the library made of this from-data and this
patch, for the sizes in the patch and a cache that the system gave, of eight kilobytes at least
and 64 megabytes at most. -/
theorem C60_applied (L : HDiffPatch) (env : HEnv) (m : Nat) (fr patch to : Bytes) (h : mApplyPatch L env m fr patch = .ok to) :
    ∃ newSize cache call, L.info patch = some (fr.length, newSize) ∧ newSize < 2 ^ 63 ∧ L.patch fr patch newSize cache = some to ∧
      8192 ≤ cache ∧ cache ≤ 2 ^ 26 ∧ cache ≤ fr.length + 2 ^ 21 ∧ env.malloc call cache = true := by
  rw [mApplyPatch] at h
  cases hi : L.info patch with
  | none => rw [hi] at h; cases h
  | some s =>
    obtain ⟨old, new⟩ := s
    rw [hi] at h
    simp only at h
    by_cases h1 : fr.length ≠ old
    · rw [if_pos h1] at h; cases h
    rw [if_neg h1] at h
    by_cases h2 : new ≥ 2 ^ 63
    · rw [if_pos h2] at h; cases h
    rw [if_neg h2] at h
    by_cases h3 : ¬ env.byteArray new = true
    · rw [if_pos h3] at h; cases h
    rw [if_neg h3, getPatchMemCache_eq] at h
    cases hc : cacheLoop env.malloc m 0 (min (2 ^ 26) (fr.length + 2 ^ 21)) with
    | error e => rw [hc] at h; cases h
    | ok cache =>
      rw [hc] at h
      simp only [bind, Except.bind] at h
      cases hp : L.patch fr patch new cache with
      | none => rw [hp] at h; cases h
      | some out =>
        rw [hp] at h
        injection h with h
        subst h
        obtain ⟨b1, b2, call, _, b3⟩ := cacheLoop_bounds hc
        have e1 := Nat.min_le_left (2 ^ 26) (fr.length + 2 ^ 21)
        have e2 := Nat.min_le_right (2 ^ 26) (fr.length + 2 ^ 21)
        refine ⟨new, cache, call, by rw [Decidable.not_not.1 h1], by omega, hp, b2 ?_, Nat.le_trans b1 e1, Nat.le_trans b1 e2, b3⟩
        rw [Nat.min_def]
        split <;> omega

/-- C60. The only exceptions are SystemError and MemoryError: a patch that the library finds to
be damaged only while it applies it ends the process. -/
theorem C60_apply_fails (L : HDiffPatch) (env : HEnv) (m : Nat) (hE : ∀ call n, n < 16384 → env.malloc call n = true) (hm : 14 ≤ m) (fr patch : Bytes) (e : PyErr)
    (h : mApplyPatch L env m fr patch = .error e) :
    (e = .builtin "SystemError" ∧ ∀ newSize, L.info patch ≠ some (fr.length, newSize)) ∨
    ∃ newSize, L.info patch = some (fr.length, newSize) ∧
      ((2 ^ 63 ≤ newSize ∧ ∃ why, e = .ub why) ∨ (e = .builtin "MemoryError" ∧ env.byteArray newSize = false) ∨
        (e = .ended "exit(1)" ∧ ∃ cache, L.patch fr patch newSize cache = none)) := by
  rw [mApplyPatch] at h
  cases hi : L.info patch with
  | none => rw [hi] at h; injection h with h; exact Or.inl ⟨h.symm, by simp⟩
  | some s =>
    obtain ⟨old, new⟩ := s
    rw [hi] at h
    simp only at h
    by_cases h1 : fr.length ≠ old
    · rw [if_pos h1] at h
      injection h with h
      exact Or.inl ⟨h.symm, fun k hk => h1 (by simp at hk; exact hk.1.symm)⟩
    rw [if_neg h1] at h
    refine Or.inr ⟨new, by rw [Decidable.not_not.1 h1], ?_⟩
    by_cases h2 : new ≥ 2 ^ 63
    · rw [if_pos h2] at h
      injection h with h
      exact Or.inl ⟨h2, _, h.symm⟩
    rw [if_neg h2] at h
    by_cases h3 : ¬ env.byteArray new = true
    · rw [if_pos h3] at h
      injection h with h
      exact Or.inr (Or.inl ⟨h.symm, by simpa using h3⟩)
    rw [if_neg h3, getPatchMemCache_eq] at h
    obtain ⟨cache, hc⟩ := cacheLoop_gets hE 13 (fuel := m) (call := 0) (size := min (2 ^ 26) (fr.length + 2 ^ 21)) (by
      have := Nat.min_le_left (2 ^ 26) (fr.length + 2 ^ 21)
      omega) (by omega)
    rw [hc] at h
    simp only [bind, Except.bind] at h
    cases hp : L.patch fr patch new cache with
    | none => rw [hp] at h; injection h with h; exact Or.inr (Or.inr ⟨h.symm, cache, hp⟩)
    | some out => rw [hp] at h; cases h

/-- C60. If the system has no memory for the cache there is no exception either: the call never
returns, however many times memory is asked for. -/
theorem C60_no_memory (L : HDiffPatch) (env : HEnv) (hE : ∀ call n, env.malloc call n = false) (hB : ∀ n, env.byteArray n = true)
    (fr patch : Bytes) (newSize : Nat) (hi : L.info patch = some (fr.length, newSize)) (hn : newSize < 2 ^ 63) (m : Nat) :
    mApplyPatch L env m fr patch = .error .timeout := by
  rw [mApplyPatch, hi]
  simp only [ne_eq, not_true, if_false]
  rw [if_neg (by omega), if_neg (by simp [hB]), getPatchMemCache_eq, cacheLoop_never hE]
  rfl

/-- C60. When the library fails to make a patch, the algorithm hdiffpatch raises RuntimeError, and
match-blocks ends the process; neither writes a patch. -/
theorem C60_create_fails (lib : Lib) (L : HDiffPatch) (made : HEnv) (n : Nat) (args : CreateArgs) (realFiles : Bool) (fr to : Bytes)
    (hm : args.useMmap = false) (why : String) :
    (args.algorithm = .hdiffpatch → args.patchType = .hdiffpatch → L.diff to fr (args.matchScore % 2 ^ 32) PATCH_TYPE_HDIFFPATCH = .error why →
      createPatch lib (L.extension made made n) realFiles args fr to = .error (.builtin "RuntimeError")) ∧
    (args.algorithm = .matchBlocks → ∀ t, args.patchType.number = .ok t → args.matchBlockSize % 2 ^ 32 ≠ 0 →
      L.diffStream to fr (args.matchBlockSize % 2 ^ 32) t = .error why →
      createPatch lib (L.extension made made n) realFiles args fr to = .error (.ended "std::terminate")) := by
  refine ⟨fun ha ht hd => ?_, fun ha t ht hb hd => ?_⟩
  · have hc : createHdiffGeneric (L.extension made made n) realFiles args.useMmap fr to args.matchScore 0 PATCH_TYPE_HDIFFPATCH = .error (.builtin "RuntimeError") := by
      rw [createHdiffGeneric, hm, if_neg (by decide)]
      show mCreatePatch L made fr to args.matchScore 0 PATCH_TYPE_HDIFFPATCH = _
      rw [mCreatePatch, if_neg (by decide), if_pos (by decide), createPatchSuffixArray, hd]
    simp only [createPatch, ha, ht, createHdiffpatch, hc, bind, Except.bind]
  · have h31 : ¬ t ≥ 2 ^ 31 := by
      cases hp : args.patchType <;> rw [hp] at ht <;> simp [PatchType.number] at ht <;> subst ht <;> decide
    have hc : createHdiffGeneric (L.extension made made n) realFiles args.useMmap fr to 0 args.matchBlockSize t = .error (.ended "std::terminate") := by
      rw [createHdiffGeneric, hm, if_neg (by decide)]
      show mCreatePatch L made fr to 0 args.matchBlockSize t = _
      rw [mCreatePatch, if_neg h31, if_neg hb, createPatchMatchBlocks, hd]
    simp only [createPatch, ha, createMatchBlocks, ht, hc, bind, Except.bind]

/-- C60. A block size is taken modulo 2^32. If nothing is left of it, match-blocks makes the patch
that the algorithm hdiffpatch makes for the match score zero. -/
theorem C60_block_size_wraps (lib : Lib) (L : HDiffPatch) (made : HEnv) (n k : Nat) (args : CreateArgs) (realFiles : Bool) (fr to : Bytes) :
    createPatch lib (L.extension made made n) realFiles { args with algorithm := .matchBlocks, patchType := .hdiffpatch, matchBlockSize := 2 ^ 32 * k } fr to =
      createPatch lib (L.extension made made n) realFiles { args with algorithm := .hdiffpatch, patchType := .hdiffpatch, matchScore := 0 } fr to := by
  have hc : ∀ (fr to : Bytes), (L.extension made made n).create fr to 0 (2 ^ 32 * k) PATCH_TYPE_HDIFFPATCH = (L.extension made made n).create fr to 0 0 PATCH_TYPE_HDIFFPATCH := by
    intro fr to
    show mCreatePatch L made fr to 0 (2 ^ 32 * k) PATCH_TYPE_HDIFFPATCH = mCreatePatch L made fr to 0 0 PATCH_TYPE_HDIFFPATCH
    simp only [mCreatePatch, Nat.mul_mod_right, Nat.zero_mod]
  have hg : createHdiffGeneric (L.extension made made n) realFiles args.useMmap fr to 0 (2 ^ 32 * k) PATCH_TYPE_HDIFFPATCH =
      createHdiffGeneric (L.extension made made n) realFiles args.useMmap fr to 0 0 PATCH_TYPE_HDIFFPATCH := by
    simp only [createHdiffGeneric, hc]
  simp only [createPatch, createMatchBlocks, createHdiffpatch, PatchType.number, bind, Except.bind, hg]

/-! ### A library and a system -/

/-- A library whose patches are the size of the from-data in unary, a zero, a sum and the to-data;
it fails for to-data that begins with 255, and needs 8192 bytes. -/
def exampleHDiffPatch : HDiffPatch where
  diff := fun to fr _ t =>
    if to.head? = some 255 then .error "255"
    else if t = PATCH_TYPE_SEQUENTIAL then .ok (encodeOps (if to = [] then [] else [⟨[], to, 0⟩]))
    else .ok (List.replicate fr.length 1 ++ 0 :: to.sum :: to)
  diffStream := fun to fr _ t =>
    if to.head? = some 255 then .error "255"
    else if t = PATCH_TYPE_SEQUENTIAL then .ok (encodeOps (if to = [] then [] else [⟨[], to, 0⟩]))
    else .ok (List.replicate fr.length 1 ++ 0 :: to.sum :: to)
  info := fun d =>
    match d.dropWhile (· = 1) with
    | _ :: _ :: to => some ((d.takeWhile (· = 1)).length, to.length)
    | _ => none
  patch := fun _ d _ cache =>
    match d.dropWhile (· = 1) with
    | _ :: sum :: to => if to.sum = sum ∧ 8192 ≤ cache then some to else none
    | _ => none

theorem exampleHDiffPatch_makes {fr to diff : Bytes} (h : exampleHDiffPatch.Makes fr to diff) :
    diff = List.replicate fr.length 1 ++ 0 :: to.sum :: to := by
  obtain ⟨n, h | h⟩ := h <;>
  · simp only [exampleHDiffPatch] at h
    split at h
    · cases h
    · injection h with h
      exact h.symm

theorem replicate_dropWhile (n : Nat) (l : Bytes) : (List.replicate n (1 : UInt8) ++ 0 :: l).dropWhile (· = 1) = 0 :: l := by
  induction n with
  | zero => rfl
  | succ n ih => simpa [List.replicate_succ] using ih

theorem replicate_takeWhile (n : Nat) (l : Bytes) : ((List.replicate n (1 : UInt8) ++ 0 :: l).takeWhile (· = 1)).length = n := by
  induction n with
  | zero => rfl
  | succ n ih => simpa [List.replicate_succ] using ih

theorem exampleHDiffPatch_correct : exampleHDiffPatch.Correct where
  sizes := by
    intro fr to diff h
    rw [exampleHDiffPatch_makes h]
    simp only [exampleHDiffPatch, replicate_dropWhile, replicate_takeWhile]
  undoes := by
    intro fr to diff cache h hc
    rw [exampleHDiffPatch_makes h]
    simp only [exampleHDiffPatch, replicate_dropWhile, true_and, hc, if_true]

example : exampleHDiffPatch.WritesRecords := by
  intro fr to n diff h
  have hd : diff = encodeOps (if to = [] then [] else [⟨[], to, 0⟩]) := by
    rcases h with h | h <;>
    · simp only [exampleHDiffPatch] at h
      split at h
      · cases h
      · rw [if_pos trivial] at h
        injection h with h
        exact h.symm
  refine ⟨_, hd, ?_⟩
  split
  · rename_i h0; exact h0
  · rename_i h0
    exact ⟨h0, by decide, by simp, by simp, by simp, [], by simp, rfl⟩

/-- A system that gives no more than twenty thousand bytes for a cache. -/
def exampleHEnv : HEnv where
  malloc := fun _ n => n < 20000
  byteArray := fun _ => true
  fseek := true
  fread := id

example : exampleHEnv.HasMemory := ⟨fun _ => rfl, fun _ n h => by simp only [exampleHEnv, decide_eq_true_eq]; omega⟩

/-- The extension module of the example. -/
def exampleExtension : HDiff := exampleHDiffPatch.extension exampleHEnv exampleHEnv 20

/-- The patch of `[1, 2]` and `[3, 4, 5]`. -/
example : createPatch exampleLib exampleExtension true { compression := .none, patchType := .hdiffpatch, algorithm := .hdiffpatch } [1, 2] [3, 4, 5] =
    .ok [0x20, 3, 7, 1, 1, 0, 12, 3, 4, 5] := by decide +kernel
example : createPatch exampleLib exampleExtension true { compression := .none, patchType := .hdiffpatch, algorithm := .matchBlocks } [1, 2] [3, 4, 5] =
    .ok [0x20, 3, 7, 1, 1, 0, 12, 3, 4, 5] := by decide +kernel

/-- It is applied, ... -/
example : applyPatch exampleLib exampleExtension (fun _ => none) 20 { data := [1, 2] } [0x20, 3, 7, 1, 1, 0, 12, 3, 4, 5] = ⟨[3, 4, 5], .ok 3⟩ := by
  decide +kernel

/-- ... not to data of another size, ... -/
example : applyPatch exampleLib exampleExtension (fun _ => none) 20 { data := [1, 2, 3] } [0x20, 3, 7, 1, 1, 0, 12, 3, 4, 5] =
    ⟨[], .error (.builtin "SystemError")⟩ := by
  decide +kernel

/-- C60. ... and with one byte of it changed, `apply_patch` of the Python package ends the
process that called it. -/
theorem C60_damaged_patch_ends_process :
    ∃ (lib : Lib) (L : HDiffPatch) (env : HEnv) (fr to patch damaged : Bytes), L.Correct ∧ env.HasMemory ∧
      createPatch lib (L.extension env env 20) true { compression := .none, patchType := .hdiffpatch, algorithm := .hdiffpatch } fr to = .ok patch ∧
      (∃ i b, damaged = patch.set i b) ∧
      applyPatch lib (L.extension env env 20) (fun _ => none) 20 { data := fr } damaged = ⟨[], .error (.ended "exit(1)")⟩ :=
  ⟨exampleLib, exampleHDiffPatch, exampleHEnv, [1, 2], [3, 4, 5], [0x20, 3, 7, 1, 1, 0, 12, 3, 4, 5], [0x20, 3, 7, 1, 1, 0, 12, 3, 4, 6],
    exampleHDiffPatch_correct, ⟨fun _ => rfl, fun _ n h => by simp only [exampleHEnv, decide_eq_true_eq]; omega⟩,
    by decide +kernel, ⟨9, 6, rfl⟩, by decide +kernel⟩

/-- The cache is halved until it is given: 67108864, ..., 32768, 16384. -/
example : getPatchMemCache exampleHEnv.malloc 13 PATCH_CACHE_SIZE_DEFAULT 100000000 = .ok 16384 := by decide +kernel

/-- To-data that the library cannot handle. -/
example : createPatch exampleLib exampleExtension true { compression := .none, patchType := .hdiffpatch, algorithm := .matchBlocks } [1, 2] [255] =
    .error (.ended "std::terminate") := by decide +kernel
example : createPatch exampleLib exampleExtension true { compression := .none, patchType := .hdiffpatch, algorithm := .hdiffpatch } [1, 2] [255] =
    .error (.builtin "RuntimeError") := by decide +kernel

end Detools
