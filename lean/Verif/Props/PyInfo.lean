import Verif.Proofs.PyInfoExact
import Verif.Props.PyFormat
import Verif.Props.PyContainers
/-
C25: patch_info agrees with creation and application.
-/
namespace Detools

/-- The diff and extra sizes of the records making `to` add up to its size. -/
theorem describeOps_sum (fr to : Bytes) : ∀ (ops : List Op) (pos : Int), Rebuilds fr pos ops to →
    (describeOps to.length ops).diffSizes.sum + (describeOps to.length ops).extraSizes.sum = to.length := by
  intro ops
  simp only [describeOps]
  induction ops generalizing to with
  | nil => intro pos h; simp only [Rebuilds] at h; subst h; rfl
  | cons op ops ih =>
    rintro pos ⟨_, h1, h2, _, _, rest, hto, hR⟩
    have := ih rest _ hR
    have hz : (List.zipWith (· + ·) op.diff (fr.drop pos.toNat)).length = op.diff.length := by simp; omega
    rw [hto]
    simp only [List.map_cons, List.sum_cons, List.length_append, hz]
    omega

/-- C25. patch_info of a created sequential patch: its size, its compression, no data
format, the size of the to-data, and exactly the sizes and adjustments of the records
created, which add up to the size of the to-data. -/
theorem C25_info_created (lib : Lib) (hsa : SuffixArrayInRange lib.suffixArray) (dfInfo : Int → Bytes → Except PyErr Unit)
    (knows : Int → Bool) (c : Compression) (L : Lossless (lib.codecOf c)) (fr to : Bytes) (hto : fr.length + to.length < 2 ^ 31) :
    ∃ patch ops, createSequential lib c none fr to = .ok patch ∧
      createChunks lib fr to = .ok (ops.flatMap Op.chunks) ∧ Rebuilds fr 0 ops to ∧
      (describeOps to.length ops).diffSizes.sum + (describeOps to.length ops).extraSizes.sum = to.length ∧
      ∃ F, ∀ fuel, F ≤ fuel →
        patchInfo lib dfInfo knows fuel patch = .ok (.sequential ⟨patch.length, c, 0, none, describeOps to.length ops⟩) := by
  obtain ⟨ops, h1, h2, h3⟩ := createChunks_ok lib hsa fr to hto
  have e0 : pyPackSize 0 = .ok (packSize 0) := pyPackSize_nat 0 (by decide)
  have hsum := describeOps_sum fr to ops 0 h2
  by_cases h0 : to = []
  · subst h0
    have hops : ops = [] := by
      cases ops with
      | nil => rfl
      | cons op ops => exact absurd rfl h2.1
    subst hops
    refine ⟨packHeader PATCH_TYPE_SEQUENTIAL c.toNumber ++ packSize (0 : Nat) ++ [], [], ?_, h1, h2, hsum, 0, fun fuel _ => ?_⟩
    · simp [createSequential, createSequentialData, pyPackSize, bind, Except.bind, pure, Except.pure]
    · unfold patchInfo
      rw [List.append_assoc, peek_header _ (by decide), ← List.append_assoc]
      simp only [bind, Except.bind, if_true, infoSequential, readHeaderSequential_ok]
      rfl
  · have hl : to.length ≠ 0 := by simpa using h0
    obtain ⟨body, hb⟩ : ∃ body, body = (lib.codecOf c).comp.run (packSize 0 :: ops.flatMap Op.chunks) := ⟨_, rfl⟩
    have hO := L.init (packSize 0 :: ops.flatMap Op.chunks) (by simp [packSize_ne_nil])
    rw [← hb, List.flatten_cons] at hO
    have hrec := (Rebuilds.recs fr true ops 0 to [] h2).1
    rw [List.append_nil] at hrec
    obtain ⟨F, hF⟩ := infoSequential_recs lib dfInfo c L.toDelivers (packHeader PATCH_TYPE_SEQUENTIAL c.toNumber ++ packSize to.length ++ body)
      body _ (encodeOps ops) to.length 0 _ _ (readHeaderSequential_ok c to.length body) (by omega) hO
      (unpackSizeWithLength_packSize 0 _) (by omega) hrec
      (by intro x hx; obtain ⟨op, _, rfl⟩ := List.mem_map.1 hx; constructor <;> simp [Op.toRec])
    refine ⟨packHeader PATCH_TYPE_SEQUENTIAL c.toNumber ++ packSize to.length ++ body, ops, ?_, h1, h2, hsum, F, fun fuel hf => ?_⟩
    · simp only [createSequential, pyPackSize_nat to.length (by omega), createSequentialData, hl, if_false]
      simp [e0, h1, bind, Except.bind, pure, Except.pure, hb]
    · have := hF fuel hf
      unfold patchInfo
      rw [List.append_assoc, peek_header _ (by decide), ← List.append_assoc]
      simp only [bind, Except.bind, if_true, this, Except.map, describe_ops]

/-- C25. The same with a data format: the number of the data format, the size of its
patch, and the records made of the encoded data. -/
theorem C25_info_created_data_format (lib : Lib) (hsa : SuffixArrayInRange lib.suffixArray) (dfInfo : Int → Bytes → Except PyErr Unit)
    (knows : Int → Bool) (c : Compression) (L : Lossless (lib.codecOf c)) (f : DataFormat) (fr to fr' to' dfpatch : Bytes)
    (hto : fr.length + to.length < 2 ^ 31) (hne : to ≠ []) (hnum : f.number < 2 ^ 62)
    (henc : f.encode fr to = .ok (fr', to', dfpatch)) (hflen : fr'.length = fr.length) (hlen : to'.length = to.length) (hp : dfpatch ≠ []) (hpl : dfpatch.length < 2 ^ 62)
    (hinfo : dfInfo f.number dfpatch = .ok ()) :
    ∃ patch ops, createSequential lib c (some f) fr to = .ok patch ∧
      createChunks lib fr' to' = .ok (ops.flatMap Op.chunks) ∧ Rebuilds fr' 0 ops to' ∧
      ∃ F, ∀ fuel, F ≤ fuel →
        patchInfo lib dfInfo knows fuel patch =
          .ok (.sequential ⟨patch.length, c, dfpatch.length, some f.number, describeOps to.length ops⟩) := by
  obtain ⟨ops, h1, h2, h3⟩ := createChunks_ok lib hsa fr' to' (by omega)
  have hl : to.length ≠ 0 := by simpa using hne
  obtain ⟨hd, hhd⟩ : ∃ hd, hd = packSize dfpatch.length ++ packSize f.number ++ dfpatch := ⟨_, rfl⟩
  obtain ⟨body, hb⟩ : ∃ body, body = (lib.codecOf c).comp.run (hd :: ops.flatMap Op.chunks) := ⟨_, rfl⟩
  have hO := L.init (hd :: ops.flatMap Op.chunks) (by rw [hhd]; simp [packSize_ne_nil])
  rw [← hb, List.flatten_cons] at hO
  have hrec := (Rebuilds.recs fr' true ops 0 to' [] h2).1
  rw [List.append_nil, hlen] at hrec
  obtain ⟨F, hF⟩ := infoSequential_df lib dfInfo c L.toDelivers (packHeader PATCH_TYPE_SEQUENTIAL c.toNumber ++ packSize to.length ++ body)
    body _ dfpatch (encodeOps ops) to.length f.number _ (readHeaderSequential_ok c to.length body) (by omega) hO
    (by rw [hhd]; simp [encodeOps]) hp hinfo hrec
    (by intro x hx; obtain ⟨op, _, rfl⟩ := List.mem_map.1 hx; constructor <;> simp [Op.toRec])
  refine ⟨packHeader PATCH_TYPE_SEQUENTIAL c.toNumber ++ packSize to.length ++ body, ops, ?_, h1, h2, F, fun fuel hf => ?_⟩
  · simp only [createSequential, pyPackSize_nat to.length (by omega), createSequentialData, hl, if_false, henc]
    simp [pyPackSize_nat _ hpl, pyPackSize_nat _ hnum, h1, bind, Except.bind, pure, Except.pure, hb, hhd]
  · have := hF fuel hf
    unfold patchInfo
    rw [List.append_assoc, peek_header _ (by decide), ← List.append_assoc]
    simp only [bind, Except.bind, if_true, this, Except.map, describe_ops]

/-- C25. For any sequential patch the format gives a meaning, not compressed or CRLE
compressed, with no negative sizes: patch_info reports its records, and the size that
`apply_patch` returns. -/
theorem C25_info_agrees (lib : Lib) (formats : Int → Option DataFormat) (dfInfo : Int → Bytes → Except PyErr Unit) (knows : Int → Bool)
    (clamp : Bool) (fr patch rest body b out : Bytes) (c : Compression) (toSize d : Int) (n : Nat) (recs : List Rec)
    (hh : Header patch c.toNumber toSize rest) (h0 : toSize ≠ 0) (hpay : Payload c.toNumber rest body)
    (hd : unpackSizeWithLength body = .ok (d, n, b)) (hd0 : d ≤ 0) (hR : Recs toSize b recs [])
    (hout : rebuild clamp fr 0 recs = some out)
    (hn : ∀ x ∈ recs, 0 ≤ x.diffSize ∧ 0 ≤ x.extraSize) :
    ∃ F, ∀ fuel, F ≤ fuel →
      applySequential lib formats fuel { data := fr, pos := 0, clampSeek := clamp } patch = ⟨out, .ok toSize⟩ ∧
      patchInfo lib dfInfo knows fuel patch = .ok (.sequential ⟨patch.length, c, d, none, describe toSize recs⟩) := by
  have hplain : Plain patch := by
    intro c' s' r' hh'
    have : c' = c.toNumber ∧ s' = toSize ∧ r' = rest := by
      obtain ⟨b', t', k', g1, _, g3, _, g5⟩ := hh
      obtain ⟨b'', t'', k'', q1, _, q3, _, q5⟩ := hh'
      rw [g1] at q1
      cases q1
      rw [g5] at q5
      cases q5
      exact ⟨q3.symm.trans g3, rfl, rfl⟩
    obtain ⟨rfl, rfl, rfl⟩ := this
    exact .inr ⟨body, hpay, fun d' len b' e => by rw [hd] at e; cases e; exact hd0⟩
  obtain ⟨F1, hF1⟩ := (C39_apply_accepts_exactly lib formats clamp fr patch hplain).1 toSize out
    ⟨c.toNumber, rest, hh, .inr ⟨h0, body, hpay, d, n, b, recs, hd, hd0, hR, hout⟩⟩
  have hhr : readHeaderSequential patch = .ok (c, toSize, rest) := (readHeaderSequential_iff _ _ _ _).2 hh
  have key : ∃ F, ∀ fuel, F ≤ fuel → infoSequential lib dfInfo fuel patch = .ok ⟨patch.length, c, d, none, describe toSize recs⟩ := by
    rcases hpay with ⟨hc, rfl⟩ | ⟨hc, hdec⟩
    · cases c <;> first | cases hc | skip
      exact infoSequential_recs lib dfInfo .none noneLossless.toDelivers patch body body b toSize d n recs hhr h0 ⟨rfl, rfl⟩ hd hd0 hR hn
    · cases c <;> first | cases hc | skip
      refine infoSequential_recs lib dfInfo .crle crleLossless.toDelivers patch rest body b toSize d n recs hhr h0 ⟨rfl, body, rfl, hdec, 0, ?_⟩ hd hd0 hR hn
      simp [Lib.codecOf, crleCodec, crleSegment]
  obtain ⟨F2, hF2⟩ := key
  refine ⟨max F1 F2, fun fuel hf => ⟨hF1 fuel (by omega), ?_⟩⟩
  have hpk : peekHeaderType patch = .ok PATCH_TYPE_SEQUENTIAL := by
    obtain ⟨b', t', k', g1, g2, _, _, _⟩ := hh
    subst g1
    have e2 : ∀ n : Nat, n &&& 7 = n % 8 := fun n => Nat.and_two_pow_sub_one_eq_mod n 3
    simp only [peekHeaderType, unpackHeader, e2, Nat.shiftRight_eq_div_pow]
    exact congrArg Except.ok g2
  simp only [patchInfo, hpk, bind, Except.bind, if_true, hF2 fuel (by omega), Except.map]

/-- C25. `patch_info` accepts exactly the sequential patches whose header and records it
describes, and says exactly that of them; of every other it raises an exception. -/
theorem C25_info_exactly (lib : Lib) (dfInfo : Int → Bytes → Except PyErr Unit) (knows : Int → Bool) (patch : Bytes)
    (hseq : ∃ b t, patch = b :: t ∧ b.toNat / 16 % 8 = 0) (hp : Plain patch) :
    (∀ info, InfoMeans patch info → ∃ F, ∀ fuel, F ≤ fuel → patchInfo lib dfInfo knows fuel patch = .ok (.sequential info)) ∧
    ((¬ ∃ info, InfoMeans patch info) → ∃ F e, e ≠ .timeout ∧ ∀ fuel, F ≤ fuel → patchInfo lib dfInfo knows fuel patch = .error e) := by
  obtain ⟨b0, t0, rfl, hb0⟩ := hseq
  have hpk : peekHeaderType (b0 :: t0) = .ok PATCH_TYPE_SEQUENTIAL := by
    have e2 : ∀ n : Nat, n &&& 7 = n % 8 := fun n => Nat.and_two_pow_sub_one_eq_mod n 3
    simp only [peekHeaderType, unpackHeader, e2, Nat.shiftRight_eq_div_pow]
    exact congrArg Except.ok hb0
  have hpi : ∀ fuel, patchInfo lib dfInfo knows fuel (b0 :: t0) = (infoSequential lib dfInfo fuel (b0 :: t0)).map .sequential := by
    intro fuel
    simp only [patchInfo, hpk, bind, Except.bind, if_true]
  simp only [hpi]
  have howes : ∀ (c : Compression) (rest body : Bytes), Payload c.toNumber rest body →
      ∃ L : Delivers (lib.codecOf c).decomp, L.owes ((lib.codecOf c).initDecomp rest.length) rest body := by
    intro c rest body hpay
    rcases hpay with ⟨hc, rfl⟩ | ⟨hc, hdec⟩
    · cases c <;> first | cases hc | skip
      exact ⟨noneLossless.toDelivers, rfl, rfl⟩
    · cases c <;> first | cases hc | skip
      refine ⟨crleLossless.toDelivers, rfl, body, rfl, hdec, 0, ?_⟩
      simp [Lib.codecOf, crleCodec, crleSegment]
  cases hr : readHeaderSequential (b0 :: t0) with
  | error e =>
    refine ⟨?_, fun _ => ⟨0, e, ?_, fun fuel _ => by simp only [infoSequential, hr, bind, Except.bind, Except.map]⟩⟩
    · rintro info ⟨c, toSize, rest, hh, _, hc, _⟩
      rw [← hc, ← readHeaderSequential_iff, hr] at hh
      cases hh
    · exact readHeaderSequential_not_timeout hr
  | ok v =>
    obtain ⟨c, toSize, rest⟩ := v
    have hh := (readHeaderSequential_iff _ _ _ _).1 hr
    have huniq : ∀ c' s' r', Header (b0 :: t0) c' s' r' → c' = c.toNumber ∧ s' = toSize ∧ r' = rest := by
      rintro c' s' r' ⟨b, t, k, h1, _, h3, _, h5⟩
      obtain ⟨b', t', k', g1, _, g3, _, g5⟩ := hh
      rw [h1] at g1
      cases g1
      rw [h5] at g5
      cases g5
      exact ⟨h3.symm.trans g3, rfl, rfl⟩
    have hinj : ∀ c' : Compression, c'.toNumber = c.toNumber → c' = c := by
      intro c' h; cases c' <;> cases c <;> first | rfl | cases h
    by_cases h0 : toSize = 0
    · have hrun : ∀ fuel, infoSequential lib dfInfo fuel (b0 :: t0) = .ok ⟨(b0 :: t0).length, c, 0, none, describe 0 []⟩ := by
        intro fuel
        simp only [infoSequential, hr, bind, Except.bind, if_pos h0]
        rfl
      constructor
      · rintro ⟨ps, cc, ds, df, rs⟩ ⟨c', toSize', rest', h1, h2, h3, h4, h5⟩
        obtain ⟨rfl, rfl, rfl⟩ := huniq _ _ _ h1
        simp only at h2 h3 h4 h5
        obtain rfl := hinj _ h3
        rcases h5 with ⟨_, rfl, rfl⟩ | ⟨h, _⟩
        · exact ⟨0, fun fuel _ => by rw [hrun, h2, h4]; rfl⟩
        · exact absurd h0 h
      · intro hno
        exact absurd ⟨⟨(b0 :: t0).length, c, 0, none, describe 0 []⟩, c.toNumber, toSize, rest, hh, rfl, rfl, rfl, .inl ⟨h0, rfl, rfl⟩⟩ hno
    · rcases hp _ _ _ hh with h | ⟨body, hpay, hdf⟩
      · exact absurd h h0
      · constructor
        · rintro ⟨ps, cc, ds, df, rs⟩ ⟨c', toSize', rest', h1, h2, h3, h4, h5⟩
          obtain ⟨rfl, rfl, rfl⟩ := huniq _ _ _ h1
          simp only at h2 h3 h4 h5
          obtain rfl := hinj _ h3
          rcases h5 with ⟨h, _⟩ | ⟨_, body', len, b, recs, hpay', hd, hd0, hR, rfl⟩
          · exact absurd h h0
          · obtain ⟨L, hO⟩ := howes _ _ _ hpay'
            rcases infoSequential_exact lib dfInfo _ L _ _ body' _ hr h0 hO (fun d' len' b' h => by rw [hd] at h; cases h; exact hd0) with
              ⟨d', len', b', recs', g1, g2, F, hF⟩ | ⟨hno, _⟩
            · rw [hd] at g1
              cases g1
              obtain ⟨rfl, _⟩ := hR.unique g2
              exact ⟨F, fun fuel hf => by rw [hF fuel hf, h2, h4]; rfl⟩
            · exact absurd hR (hno _ _ _ _ hd)
        · intro hno
          obtain ⟨L, hO⟩ := howes _ _ _ hpay
          rcases infoSequential_exact lib dfInfo _ L _ _ body _ hr h0 hO hdf with ⟨d, len, b, recs, g1, g2, _⟩ | ⟨_, F, e, he, hF⟩
          · exact absurd ⟨⟨(b0 :: t0).length, c, d, none, describe toSize recs⟩, c.toNumber, toSize, rest, hh, rfl, rfl, rfl,
              .inr ⟨h0, body, len, b, recs, hpay, g1, hdf _ _ _ g1, g2, rfl⟩⟩ hno
          · exact ⟨F, e, he, fun fuel hf => by have := hF fuel hf; simp only at this; rw [this]; rfl⟩

-- The patch of C39's example, and the same with a byte after its end.
example : patchInfo exampleLib (fun _ _ => .ok ()) (fun _ => true) 20 [0, 4, 0, 2, 1, 1, 2, 9, 9, 0] =
    .ok (.sequential ⟨10, .none, 0, none, ⟨4, [2], [2], [0], 3⟩⟩) ∧
    patchInfo exampleLib (fun _ _ => .ok ()) (fun _ => true) 20 [0, 4, 0, 2, 1, 1, 2, 9, 9, 0, 0] = .error (.error "End of patch not found.") := by
  decide +kernel

/-- C25. With negative sizes the two disagree: apply_patch counts a negative size as
nothing, patch_info subtracts it. This patch is accepted by one and not the other. -/
theorem C25_negative_sizes_disagree :
    ∃ patch, (∃ out, applySequential exampleLib (fun _ => none) 20 { data := [] } patch = ⟨out, .ok 2⟩) ∧
      patchInfo exampleLib (fun _ _ => .ok ()) (fun _ => true) 20 patch = .error (.error "Early end of patch data.") :=
  ⟨[0, 2, 0, 0x41, 2, 7, 8, 0], ⟨[7, 8], by decide +kernel⟩, by decide +kernel⟩

/-- C25. patch_info of a created in-place patch: the sizes in its header, and for each
segment the sizes of the records that rebuild it. -/
theorem C25_info_in_place (lib : Lib) (hsa : SuffixArrayInRange lib.suffixArray) (dfInfo : Int → Bytes → Except PyErr Unit)
    (knows : Int → Bool) (c : Compression) (L : Lossless (lib.codecOf c))
    (memory seg : Nat) (minShift : Option Nat) (fr to : Bytes) (hseg : 0 < seg) (hmem : seg ∣ memory)
    (hmin : seg ∣ minShift.getD (2 * seg)) (h1 : memory < 2 ^ 62) (h2 : minShift.getD (2 * seg) < 2 ^ 62)
    (h3 : fr.length + to.length < 2 ^ 31) (h5 : seg < 2 ^ 62) :
    ∃ (patch : Bytes) (shift : Nat) (opss : List (List Op)), createInPlace lib c memory seg (minShift.map Int.ofNat) none fr to = .ok patch ∧
      shift = max (minShift.getD (2 * seg)) (memory - (fr.length + seg - 1) / seg * seg) ∧
      opss.length = (to.length + seg - 1) / seg ∧
      SegOps (sliceTo fr ((memory : Int) - shift)) to seg shift 0 opss ∧
      ∃ F, ∀ fuel, F ≤ fuel → patchInfo lib dfInfo knows fuel patch =
        .ok (.inPlace ⟨patch.length, ⟨c, memory, seg, shift, fr.length, to.length⟩, describeSegments seg to.length 0 opss⟩) := by
  obtain ⟨patch, hc, ⟨opss, hpatch, g2, g3, g4⟩⟩ := createInPlace_ok lib hsa c memory seg minShift fr to hseg hmem hmin h1 h2 h3 h5
  refine ⟨patch, shiftOf memory seg (minShift.getD (2 * seg)) fr.length, opss, hc, shiftOf_eq hseg hmem, g2, g3, ?_⟩
  have hpk : peekHeaderType patch = .ok PATCH_TYPE_IN_PLACE := by
    rw [hpatch]
    simp only [List.append_assoc]
    exact peek_header _ (by decide) c _
  have hh : readHeaderInPlace patch = .ok (⟨c, memory, seg, (shiftOf memory seg (minShift.getD (2 * seg)) fr.length : Nat), fr.length, to.length⟩,
      if to.length = 0 then [] else (lib.codecOf c).comp.run [encodeSegments opss]) := by
    rw [hpatch]
    exact readHeaderInPlace_ok c _ _ _ _ _ _
  by_cases h0 : to.length = 0
  · have ho : opss = [] := by
      apply List.eq_nil_of_length_eq_zero
      rw [g2, h0]
      exact Nat.div_eq_of_lt (by omega)
    subst ho
    refine ⟨0, fun fuel _ => ?_⟩
    have hne : ¬ ((to.length : Int) > 0) := by omega
    simp only [patchInfo, hpk, bind, Except.bind]
    rw [if_neg (by decide), if_pos trivial]
    simp only [infoInPlace, hh, bind, Except.bind, hne, if_false, Except.map, pure, Except.pure, describeSegments]
  · rw [if_neg h0] at hh
    obtain ⟨k1, _, _⟩ := segments_count to.length seg hseg (by omega)
    have hO := L.init [encodeSegments opss] (by
      cases opss with
      | nil => simp at g2; omega
      | cons ops opss => simp [encodeSegments, packSize_ne_nil])
    rw [show [encodeSegments opss].flatten = encodeSegments opss ++ [] by simp] at hO
    obtain ⟨F, r, e1, _⟩ := infoSegments_ok L.toDelivers knows _ to seg _ opss 0
      { st := (lib.codecOf c).initDecomp ((lib.codecOf c).comp.run [encodeSegments opss]).length, file := (lib.codecOf c).comp.run [encodeSegments opss] }
      [] g3 hO
    have hrl : rangeLength to.length seg = opss.length := by
      unfold rangeLength
      rw [if_neg (by omega), divCeil_nat _ _ hseg, Int.toNat_natCast, g2]
    refine ⟨F, fun fuel hf => ?_⟩
    have hpos : ((to.length : Int) > 0) := by omega
    have hs0 : ¬ ((seg : Int) = 0) := by omega
    simp only [patchInfo, hpk, bind, Except.bind]
    rw [if_neg (by decide), if_pos trivial]
    simp only [infoInPlace, hh, bind, Except.bind, hpos, if_true, hs0, if_false, hrl, e1 fuel hf, Except.map, pure, Except.pure]

/-- C25. patch_info of an hdiffpatch patch reports the compression and the size of the
to-data. -/
theorem C25_info_hdiffpatch (lib : Lib) (h : HDiff) (dfInfo : Int → Bytes → Except PyErr Unit) (knows : Int → Bool) (fuel : Nat)
    (realFiles : Bool) (c : Compression) (mmap : Bool) (score : Nat) (fr to patch : Bytes)
    (hcreate : createHdiffpatch lib h realFiles mmap c score fr to = .ok patch) :
    patchInfo lib dfInfo knows fuel patch = .ok (.hdiffpatch patch.length c to.length) := by
  simp only [createHdiffpatch, bind, Except.bind, pure, Except.pure] at hcreate
  split at hcreate
  · cases hcreate
  · split at hcreate
    · cases hcreate
    · split at hcreate
      · cases hcreate
      · rename_i e1 _ _ e2
        simp only [Except.ok.injEq] at hcreate
        rw [pyPackSize_eq e1, pyPackSize_eq e2] at hcreate
        rw [← hcreate]
        unfold patchInfo
        simp only [List.append_assoc, peek_header PATCH_TYPE_HDIFFPATCH (by decide), bind, Except.bind]
        rw [if_neg (by decide), if_neg (by decide), if_pos trivial]
        simp only [← List.append_assoc, readHeaderHdiffpatch_ok]
        rfl

/-- C26. patch_info raises on an empty patch and on a patch of an unknown type. -/
theorem C26_info_rejects (lib : Lib) (dfInfo : Int → Bytes → Except PyErr Unit) (knows : Int → Bool) (fuel : Nat) (patch : Bytes)
    (hbad : patch = [] ∨ ∃ b rest, patch = b :: rest ∧ 2 < (unpackHeader b).1) :
    ∃ m, patchInfo lib dfInfo knows fuel patch = .error (.error m) := by
  rcases hbad with rfl | ⟨b, rest, rfl, hb⟩
  · exact ⟨_, rfl⟩
  · simp only [patchInfo, peekHeaderType, bind, Except.bind]
    rw [if_neg (by simp only [PATCH_TYPE_SEQUENTIAL]; omega), if_neg (by simp only [PATCH_TYPE_IN_PLACE]; omega),
      if_neg (by simp only [PATCH_TYPE_HDIFFPATCH]; omega)]
    exact ⟨_, rfl⟩

example : patchInfo exampleLib (fun _ _ => .ok ()) (fun _ => true) 40 [0, 7, 0, 3, 0, 0, 0, 4, 9, 4, 5, 6, 2] =
    .ok (.sequential ⟨13, .none, 0, none, ⟨7, [3], [4], [2], 3⟩⟩) := by decide +kernel
example : patchInfo exampleLib (fun _ _ => .ok ()) (fun _ => true) 40 exampleInPlacePatch =
    .ok (.inPlace ⟨exampleInPlacePatch.length, ⟨.none, 12, 2, 6, 5, 7⟩,
      [(0, none, ⟨2, [2], [0], [-2], 3⟩), (0, none, ⟨2, [0], [2], [5], 3⟩), (0, none, ⟨2, [0], [2], [4], 3⟩), (0, none, ⟨1, [0], [1], [3], 3⟩)]⟩) := by decide +kernel

end Detools
