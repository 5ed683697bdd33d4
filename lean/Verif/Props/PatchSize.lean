import Verif.Proofs.BsdiffPrefix
import Verif.Proofs.BsdiffCount
import Verif.Proofs.CrleDrive
import Verif.Props.Sequential
import Verif.Props.Search
/-
C06, C55, C56: what a patch costs.
-/
namespace Detools

/-- C06. What the compressor writes does not depend on the pieces the data came in. -/
theorem C06_crle_same_bytes (pieces pieces' : List Bytes) (h : pieces.flatten = pieces'.flatten) :
    crleCodec.comp.run pieces = crleCodec.comp.run pieces' := by
  by_cases hne : pieces.flatten = []
  · rw [crle_run_empty pieces hne, crle_run_empty pieces' (h ▸ hne)]
  · rw [crle_run_canon pieces hne, crle_run_canon pieces' (h ▸ hne), h]

-- Cut in the middle of a run, and not cut.
example : crleCodec.comp.run [[1, 2, 5, 5], [5, 5, 5, 5, 5, 9]] = crleCodec.comp.run [[1, 2, 5, 5, 5, 5, 5, 5, 5, 9]] :=
  C06_crle_same_bytes _ _ rfl

/-- C56. CRLE makes no data longer by more than two bytes and one more byte for every 128. -/
theorem C56_crle_expansion (pieces : List Bytes) :
    (crleCodec.comp.run pieces).length ≤ pieces.flatten.length + pieces.flatten.length / 128 + 2 := by
  by_cases hne : pieces.flatten = []
  · rw [crle_run_empty pieces hne]; simp
  · rw [crle_run_canon pieces hne]
    exact crleCanon_length _ _ (Nat.lt_succ_self _)

-- The bound is met by 128 bytes without a run.
example : (crleCodec.comp.run [(List.range 128).map UInt8.ofNat]).length = 128 + 1 + 2 := by decide +kernel

/-- C55. If the to-data is the from-data, or the beginning of it, the patch is one record:
as many zero bytes of diff as there is to-data, and no extra bytes. -/
theorem C55_one_record (sa : List Nat) (fr to : Bytes) (hlen : sa.length = fr.length + 1) (hin : ∀ p ∈ sa, p ≤ fr.length)
    (hsz : fr.length + to.length < 2 ^ 31) (hne : to ≠ []) (hp : to <+: fr) :
    ∃ adjustment : Int, -(fr.length : Int) ≤ adjustment ∧ adjustment ≤ fr.length ∧
      bsdiffCreatePatch sa fr to (to.length + 1) = some (Op.chunks ⟨List.replicate to.length 0, [], adjustment⟩) := by
  obtain ⟨pos, h1, h2⟩ := createOps_prefix sa fr to (to.length + 1) hlen hin (by omega) hp hne hsz
  have := hp.length_le
  refine ⟨_, ?_, ?_, by rw [bsdiffCreatePatch, h2]; rfl⟩ <;> omega

theorem createChunks_prefix (lib : Lib) (hsa : SuffixArrayInRange lib.suffixArray) (fr to : Bytes)
    (hsz : fr.length + to.length < 2 ^ 31) (hne : to ≠ []) (hp : to <+: fr) :
    ∃ adjustment : Int, adjustment.natAbs < 2 ^ 31 ∧
      createChunks lib fr to = .ok (Op.chunks ⟨List.replicate to.length 0, [], adjustment⟩) := by
  obtain ⟨a, h1, h2, h3⟩ := C55_one_record (lib.suffixArray fr) fr to (hsa fr).1 (hsa fr).2 hsz hne hp
  exact ⟨a, by omega, by rw [createChunks, h3]; rfl⟩

theorem createSequential_none (lib : Lib) (c : Compression) (fr to : Bytes) (chunks : List Bytes) (hne : to ≠ [])
    (hto : to.length < 2 ^ 62) (h : createChunks lib fr to = .ok chunks) :
    createSequential lib c none fr to = .ok (packHeader PATCH_TYPE_SEQUENTIAL c.toNumber ++ packSize to.length ++
      (lib.codecOf c).comp.run (packSize 0 :: chunks)) := by
  have h0 : to.length ≠ 0 := by have := List.length_pos_iff.2 hne; omega
  have e0 : pyPackSize 0 = .ok (packSize 0) := pyPackSize_nat 0 (by omega)
  simp only [createSequential, createSequentialData, pyPackSize_nat _ hto, if_neg h0, e0, h, bind, Except.bind, pure, Except.pure]

/-- C55. With CRLE such a patch is at most 28 bytes, whatever the size of the data. -/
theorem C55_crle_patch_at_most_28_bytes (lib : Lib) (hsa : SuffixArrayInRange lib.suffixArray) (fr to : Bytes)
    (hsz : fr.length + to.length < 2 ^ 31) (hp : to <+: fr) :
    ∃ patch, createSequential lib .crle none fr to = .ok patch ∧ patch.length ≤ 28 := by
  by_cases hne : to = []
  · subst hne
    exact ⟨packHeader PATCH_TYPE_SEQUENTIAL Compression.crle.toNumber ++ packSize 0, rfl, by decide⟩
  · obtain ⟨a, ha, hc⟩ := createChunks_prefix lib hsa fr to hsz hne hp
    refine ⟨_, createSequential_none lib .crle fr to _ hne (by omega) hc, ?_⟩
    have hn : (packSize to.length).length ≤ 5 := packSize_length 4 _ (by omega)
    have hab : (packSize a).length ≤ 5 := packSize_length 4 _ (by omega)
    have hpos := List.length_pos_iff.2 hne
    obtain ⟨n, hnn⟩ : ∃ n, n = to.length := ⟨_, rfl⟩
    have hflat : (packSize 0 :: Op.chunks ⟨List.replicate to.length 0, [], a⟩).flatten =
        (0 :: packSize to.length) ++ (List.replicate (to.length + 1) 0 ++ packSize a) := by
      have h0 : packSize 0 = [0] := by decide
      simp [Op.chunks, h0, List.replicate_succ']
    have hrun : ((lib.codecOf .crle).comp.run (packSize 0 :: Op.chunks ⟨List.replicate to.length 0, [], a⟩)).length ≤ 22 := by
      show (crleCodec.comp.run _).length ≤ 22
      rw [crle_run_canon _ (by rw [hflat]; simp), hflat]
      by_cases h6 : 6 ≤ to.length + 1
      · exact crleCanon_mid _ _ 0 _ h6 (noRun_sizes _ hpos (by omega)) (by simp only [List.length_cons]; omega) hab (by omega)
      · have := crleCanon_length _ ((0 :: packSize to.length) ++ (List.replicate (to.length + 1) 0 ++ packSize a)) (Nat.lt_succ_self _)
        have h1 : (packSize to.length).length ≤ 1 := packSize_length 0 _ (by omega)
        simp only [List.length_append, List.length_cons, List.length_replicate] at this
        omega
    simp only [List.length_append, packHeader, List.length_cons, List.length_nil]
    omega

/-- C55. Without compression it is the to-size and at most 18 bytes. -/
theorem C55_none_patch (lib : Lib) (hsa : SuffixArrayInRange lib.suffixArray) (fr to : Bytes)
    (hsz : fr.length + to.length < 2 ^ 31) (hp : to <+: fr) :
    ∃ patch, createSequential lib .none none fr to = .ok patch ∧ patch.length ≤ to.length + 18 := by
  by_cases hne : to = []
  · subst hne
    exact ⟨packHeader PATCH_TYPE_SEQUENTIAL Compression.none.toNumber ++ packSize 0, rfl, by decide⟩
  · obtain ⟨a, ha, hc⟩ := createChunks_prefix lib hsa fr to hsz hne hp
    refine ⟨_, createSequential_none lib .none fr to _ hne (by omega) hc, ?_⟩
    have hn : (packSize to.length).length ≤ 5 := packSize_length 4 _ (by omega)
    have hab : (packSize a).length ≤ 5 := packSize_length 4 _ (by omega)
    have h0 : packSize 0 = [0] := by decide
    show (_ ++ noneCodec.comp.run _).length ≤ _
    rw [none_run]
    simp [Op.chunks, h0, packHeader]
    omega

-- Twenty equal bytes, and data cut off.
example : createSequential exampleLib .crle none (List.replicate 20 7) (List.replicate 20 7) =
    .ok [2, 20, 0, 2, 0, 20, 1, 21, 0, 0, 1, 84] := by decide +kernel
example : ([1, 2, 3] : Bytes) <+: [1, 2, 3, 4, 5] := by decide

/-- The records of a patch, with what they take. -/
theorem createChunks_size (lib : Lib) (fr to : Bytes) (hsa : IsSuffixArray (lib.suffixArray fr) fr)
    (hsz : fr.length + to.length < 2 ^ 31) (hne : to ≠ []) :
    ∃ ops : List Op, createChunks lib fr to = .ok (ops.flatMap Op.chunks) ∧ ops.length ≤ to.length / 9 + 1 ∧
      (packSize 0 :: ops.flatMap Op.chunks).flatten.length ≤ to.length + 15 * (to.length / 9) + 16 := by
  obtain ⟨ops, h1, h2, h3⟩ := createOps_some (lib.suffixArray fr) fr to (to.length + 1) hsa.length
    (fun p hp => (hsa.all p).1 hp) (by omega) hsz
  have hcount := createOps_count (lib.suffixArray fr) fr to hsa.length (fun p hp => (hsa.all p).1 hp)
    (findsBytes_of hsa (suffix_end hsa)) (to.length + 1) (by omega) hsz ops hne h1
  have h0 : packSize 0 = [0] := by decide
  have hbody : ∀ ops : List Op, (∀ op ∈ ops, op.diff.length ≤ to.length ∧ op.extra.length ≤ to.length ∧
      -(fr.length : Int) ≤ op.adjustment ∧ op.adjustment ≤ fr.length) →
      (ops.flatMap Op.chunks).flatten.length ≤ (ops.map (fun op => op.diff.length + op.extra.length)).sum + 15 * ops.length := by
    intro ops
    induction ops with
    | nil => intro _; simp
    | cons op ops ih =>
      intro h
      have := ih (fun o ho => h o (List.mem_cons_of_mem _ ho))
      obtain ⟨k1, k2, k3, k4⟩ := h op (List.mem_cons_self ..)
      have e1 : (packSize op.diff.length).length ≤ 5 := packSize_length 4 _ (by omega)
      have e2 : (packSize op.extra.length).length ≤ 5 := packSize_length 4 _ (by omega)
      have e3 : (packSize op.adjustment).length ≤ 5 := packSize_length 4 _ (by omega)
      simp only [List.flatMap_cons, List.flatten_append, List.length_append, List.map_cons, List.sum_cons, List.length_cons]
      simp only [Op.chunks, List.flatten_cons, List.flatten_nil, List.length_append, List.length_nil]
      omega
  have hs := hbody ops h3
  rw [rebuilds_sum ops 0 to h2] at hs
  refine ⟨ops, by simp [createChunks, bsdiffCreatePatch, h1, liftUb], hcount, ?_⟩
  simp only [List.flatten_cons, h0, List.length_append, List.length_cons, List.length_nil]
  omega

/-- C56. The number of records is at most one for every nine bytes of to-data, and one more. -/
theorem C56_number_of_records (sa : List Nat) (fr to : Bytes) (hsa : IsSuffixArray sa fr)
    (hsz : fr.length + to.length < 2 ^ 31) (hne : to ≠ []) :
    ∃ ops : List Op, bsdiffCreatePatch sa fr to (to.length + 1) = some (ops.flatMap Op.chunks) ∧ Rebuilds fr 0 ops to ∧
      ops.length ≤ to.length / 9 + 1 := by
  obtain ⟨ops, h1, h2, _⟩ := createOps_some sa fr to (to.length + 1) hsa.length (fun p hp => (hsa.all p).1 hp) (by omega) hsz
  exact ⟨ops, by simp [bsdiffCreatePatch, h1], h2, createOps_count sa fr to hsa.length (fun p hp => (hsa.all p).1 hp)
    (findsBytes_of hsa (suffix_end hsa)) (to.length + 1) (by omega) hsz ops hne h1⟩

/-- C56. A patch without compression is never longer than the to-data, 22 bytes, and 15
bytes for every nine bytes of to-data. -/
theorem C56_patch_size (lib : Lib) (fr to : Bytes) (hsa : IsSuffixArray (lib.suffixArray fr) fr)
    (hsz : fr.length + to.length < 2 ^ 31) :
    ∃ patch, createSequential lib .none none fr to = .ok patch ∧
      patch.length ≤ to.length + 15 * (to.length / 9) + 22 := by
  by_cases hne : to = []
  · subst hne
    exact ⟨packHeader PATCH_TYPE_SEQUENTIAL Compression.none.toNumber ++ packSize 0, rfl, by decide⟩
  · obtain ⟨ops, hc, _, hb⟩ := createChunks_size lib fr to hsa hsz hne
    refine ⟨_, createSequential_none lib .none fr to _ hne (by omega) hc, ?_⟩
    have hn : (packSize to.length).length ≤ 5 := packSize_length 4 _ (by omega)
    show (_ ++ noneCodec.comp.run _).length ≤ _
    rw [none_run]
    simp only [List.length_append, packHeader, List.length_cons, List.length_nil] at hb ⊢
    omega

/-- C56. CRLE adds at most one byte for every 128 of the uncompressed patch, and two. -/
theorem C56_crle_patch_size (lib : Lib) (fr to : Bytes) (hsa : IsSuffixArray (lib.suffixArray fr) fr)
    (hsz : fr.length + to.length < 2 ^ 31) :
    ∃ patch, createSequential lib .crle none fr to = .ok patch ∧
      patch.length ≤ to.length + 15 * (to.length / 9) + 24 + (to.length + 15 * (to.length / 9) + 16) / 128 := by
  by_cases hne : to = []
  · subst hne
    exact ⟨packHeader PATCH_TYPE_SEQUENTIAL Compression.crle.toNumber ++ packSize 0, rfl, by decide⟩
  · obtain ⟨ops, hc, _, hb⟩ := createChunks_size lib fr to hsa hsz hne
    refine ⟨_, createSequential_none lib .crle fr to _ hne (by omega) hc, ?_⟩
    have hn : (packSize to.length).length ≤ 5 := packSize_length 4 _ (by omega)
    have hx := C56_crle_expansion (packSize 0 :: ops.flatMap Op.chunks)
    show (_ ++ crleCodec.comp.run _).length ≤ _
    simp only [List.length_append, packHeader, List.length_cons, List.length_nil] at hx hb ⊢
    omega

-- The from-data `abca` and its suffix array.
example : ∃ lib : Lib, IsSuffixArray (lib.suffixArray [97, 98, 99, 97]) [97, 98, 99, 97] :=
  ⟨{ codec := fun _ => noneCodec, suffixArray := fun _ => [4, 3, 0, 1, 2] }, suffixArray_abca⟩

end Detools
