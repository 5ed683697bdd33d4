import Verif.Proofs.PyTrunc
import Verif.Props.Sequential
/-
C16, C17 (Python), C39: which patches `apply_patch` accepts.

The format is specified in Spec/Records.lean (`PatchMeans`) and Spec/Crle.lean without
reference to how patches are applied.
-/
namespace Detools

/-- The patches the theorem below is about: sequential, not compressed or CRLE
compressed (a complete stream without empty segments), and without data format
section. -/
def Plain (patch : Bytes) : Prop :=
  ∀ c toSize rest, Header patch c toSize rest → toSize = 0 ∨
    ∃ body, Payload c rest body ∧ ∀ d len b, unpackSizeWithLength body = .ok (d, len, b) → d ≤ 0

/-- C39. `apply_patch` accepts exactly the patches the format gives a meaning, and
then writes exactly the to-data the format says and returns the size in the header.
Every other patch makes it raise an exception; the loops always finish. -/
theorem C39_apply_accepts_exactly (lib : Lib) (formats : Int → Option DataFormat) (clamp : Bool) (fr patch : Bytes)
    (hp : Plain patch) :
    (∀ toSize out, PatchMeans clamp fr patch toSize out → ∃ F, ∀ fuel, F ≤ fuel →
      applySequential lib formats fuel { data := fr, pos := 0, clampSeek := clamp } patch = ⟨out, .ok toSize⟩) ∧
    ((¬ ∃ toSize out, PatchMeans clamp fr patch toSize out) → ∃ F out e, e ≠ .timeout ∧ ∀ fuel, F ≤ fuel →
      applySequential lib formats fuel { data := fr, pos := 0, clampSeek := clamp } patch = ⟨out, .error e⟩) := by
  cases hr : readHeaderSequential patch with
  | error e =>
    refine ⟨?_, fun _ => applySequential_fails_header lib formats _ hr⟩
    rintro toSize out ⟨c, rest, hh, _⟩
    exfalso
    obtain ⟨c', hc'⟩ : ∃ c' : Compression, c'.toNumber = c := by
      obtain ⟨_, _, _, _, _, _, hle, _⟩ := hh
      match c, hle with
      | 0, _ => exact ⟨.none, rfl⟩
      | 1, _ => exact ⟨.lzma, rfl⟩
      | 2, _ => exact ⟨.crle, rfl⟩
      | 3, _ => exact ⟨.bz2, rfl⟩
      | 4, _ => exact ⟨.heatshrink, rfl⟩
      | 5, _ => exact ⟨.zstd, rfl⟩
      | 6, _ => exact ⟨.lz4, rfl⟩
      | n + 7, h => omega
    rw [← hc', ← readHeaderSequential_iff, hr] at hh
    cases hh
  | ok v =>
    obtain ⟨c, toSize, rest⟩ := v
    have hh := (readHeaderSequential_iff _ _ _ _).1 hr
    have huniq : ∀ c' s' r', Header patch c' s' r' → c' = c.toNumber ∧ s' = toSize ∧ r' = rest := by
      rintro c' s' r' ⟨b, t, k, h1, _, h3, _, h5⟩
      obtain ⟨b', t', k', g1, _, g3, _, g5⟩ := hh
      rw [h1] at g1
      cases g1
      rw [h5] at g5
      cases g5
      exact ⟨h3.symm.trans g3, rfl, rfl⟩
    have hrun : ∀ fuel, applySequential lib formats fuel { data := fr, pos := 0, clampSeek := clamp } patch =
        if toSize = 0 then ⟨[], .ok toSize⟩
        else applySequentialBody (lib.codecOf c) formats fuel { data := fr, pos := 0, clampSeek := clamp } rest toSize := by
      intro fuel
      rw [applySequential, hr]
      simp only [W.lift_bind_ok]
      split <;> rfl
    by_cases h0 : toSize = 0
    · constructor
      · rintro s out ⟨c', rest', h1, h2⟩
        obtain ⟨rfl, rfl, rfl⟩ := huniq _ _ _ h1
        rcases h2 with ⟨_, rfl⟩ | ⟨h, _⟩
        · exact ⟨0, fun fuel _ => by rw [hrun, if_pos h0]⟩
        · exact absurd h0 h
      · intro hno
        exact absurd ⟨toSize, [], c.toNumber, rest, hh, .inl ⟨h0, rfl⟩⟩ hno
    · rcases hp _ _ _ hh with h | ⟨body, hpay, hdf⟩
      · exact absurd h h0
      · have main : (∀ out, BodyMeans clamp fr toSize body out → ∃ F, ∀ fuel, F ≤ fuel →
            applySequentialBody (lib.codecOf c) formats fuel { data := fr, pos := 0, clampSeek := clamp } rest toSize = ⟨out, .ok toSize⟩) ∧
            ((¬ ∃ out, BodyMeans clamp fr toSize body out) →
            FailsW fun fuel => applySequentialBody (lib.codecOf c) formats fuel { data := fr, pos := 0, clampSeek := clamp } rest toSize) := by
          rcases hpay with ⟨hc, rfl⟩ | ⟨hc, hdec⟩
          · cases c <;> first | cases hc | skip
            exact body_owes noneCodec noneLossless.toDelivers formats clamp fr body toSize body ⟨rfl, rfl⟩ hdf
          · cases c <;> first | cases hc | skip
            refine body_owes crleCodec crleLossless.toDelivers formats clamp fr rest toSize body ⟨rfl, body, rfl, hdec, 0, ?_⟩ hdf
            simp [crleCodec, crleSegment]
        have huniqP : ∀ body', Payload c.toNumber rest body' → ∀ out, BodyMeans clamp fr toSize body' out →
            ∃ F, ∀ fuel, F ≤ fuel →
            applySequentialBody (lib.codecOf c) formats fuel { data := fr, pos := 0, clampSeek := clamp } rest toSize = ⟨out, .ok toSize⟩ := by
          intro body' hpay' out hb
          have hdf' : ∀ d len b, unpackSizeWithLength body' = .ok (d, len, b) → d ≤ 0 := by
            intro d len b h
            obtain ⟨d', _, _, _, h1, h2, _⟩ := hb
            rw [h1] at h
            cases h
            exact h2
          rcases hpay' with ⟨hc, rfl⟩ | ⟨hc, hdec⟩
          · cases c <;> first | cases hc | skip
            exact (body_owes noneCodec noneLossless.toDelivers formats clamp fr body' toSize body' ⟨rfl, rfl⟩ hdf').1 out hb
          · cases c <;> first | cases hc | skip
            refine (body_owes crleCodec crleLossless.toDelivers formats clamp fr rest toSize body' ⟨rfl, body', rfl, hdec, 0, ?_⟩ hdf').1 out hb
            simp [crleCodec, crleSegment]
        constructor
        · rintro s out ⟨c', rest', h1, h2⟩
          obtain ⟨rfl, rfl, rfl⟩ := huniq _ _ _ h1
          rcases h2 with ⟨h, _⟩ | ⟨_, body', hpay', hb⟩
          · exact absurd h h0
          · obtain ⟨F, hF⟩ := huniqP body' hpay' out hb
            exact ⟨F, fun fuel hf => by rw [hrun, if_neg h0, hF fuel hf]⟩
        · intro hno
          obtain ⟨F, o, e, he, hF⟩ := main.2 (fun ⟨out, hb⟩ => hno ⟨toSize, out, c.toNumber, rest, hh, .inr ⟨h0, body, hpay, hb⟩⟩)
          exact ⟨F, o, e, he, fun fuel hf => by rw [hrun, if_neg h0]; exact hF fuel hf⟩

-- The patch [0, 4, 0, 2, 1, 1, 2, 9, 9, 0] is plain and means [2, 3, 9, 9] on [1, 2, 3].
example : Plain [0, 4, 0, 2, 1, 1, 2, 9, 9, 0] ∧
    PatchMeans false [1, 2, 3] [0, 4, 0, 2, 1, 1, 2, 9, 9, 0] 4 [2, 3, 9, 9] := by
  constructor
  · rintro c toSize rest ⟨b, t, len, h1, h2, h3, h4, h5⟩
    cases h1
    simp only [show (0 : UInt8).toNat % 16 = 0 from rfl] at h3
    have : unpackSizeWithLength [4, 0, 2, 1, 1, 2, 9, 9, 0] = .ok (4, 1, [0, 2, 1, 1, 2, 9, 9, 0]) := by decide
    rw [this] at h5
    cases h5
    refine .inr ⟨_, .inl ⟨h3.symm, rfl⟩, fun d len b h => ?_⟩
    have h0 : unpackSizeWithLength [0, 2, 1, 1, 2, 9, 9, 0] = .ok (0, 1, [2, 1, 1, 2, 9, 9, 0]) := by decide
    rw [h0] at h
    cases h
    decide
  · refine ⟨0, [0, 2, 1, 1, 2, 9, 9, 0], ⟨0, _, 1, rfl, by decide, by decide, by decide, by decide⟩, .inr ⟨by decide, _, .inl ⟨rfl, rfl⟩, ?_⟩⟩
    refine ⟨0, 1, [2, 1, 1, 2, 9, 9, 0], [⟨2, [1, 1], 2, [9, 9], 0, 1, 1, 1⟩], by decide, by decide, ?_, by decide⟩
    exact .record (b1 := [2, 9, 9, 0]) (b2 := [0]) (b3 := []) (by decide) (by decide) (by decide) (by decide) (by decide) (by decide)
      (by decide) (by decide) (.done (by decide))

/-- C16, Python. Every strict prefix of a created patch (compression none or CRLE)
makes `apply_patch` raise, whatever the from-data; the loops finish. -/
theorem C16_python_truncated (lib : Lib) (hsa : SuffixArrayInRange lib.suffixArray)
    (formats : Int → Option DataFormat) (c : Compression) (hc : c = .none ∨ c = .crle)
    (fr to patch p z : Bytes) (hto : fr.length + to.length < 2 ^ 31)
    (hcreate : createSequential lib c none fr to = .ok patch) (hcut : patch = p ++ z) (hz : z ≠ [])
    (fr' : Bytes) (clamp : Bool) :
    ∃ F out e, e ≠ .timeout ∧ ∀ fuel, F ≤ fuel →
      applySequential lib formats fuel { data := fr', pos := 0, clampSeek := clamp } p = ⟨out, .error e⟩ := by
  obtain ⟨ops, hops, _, hshape⟩ := created_shape lib hsa c fr to hto
  rw [hcreate] at hshape
  simp only [Except.ok.injEq] at hshape
  rw [hcut] at hshape
  rcases prefix_cases hshape.symm hz with ⟨z', hz', h⟩ | ⟨p', rfl, hb⟩
  · obtain ⟨e, he⟩ := header_cut c _ _ _ h hz'
    exact applySequential_fails_header lib formats _ he
  · have hne : to ≠ [] := by
      intro h
      rw [if_pos h] at hb
      have : z = [] := by simp at hb; exact hb.2
      exact hz this
    rw [if_neg hne] at hb
    have hlen : to.length ≠ 0 := by simpa using hne
    have hflat : (packSize 0 :: ops.flatMap Op.chunks).flatten = packSize 0 ++ encodeOps ops := flatten_cons_chunks _ _
    have hpne : (packSize 0 :: ops.flatMap Op.chunks).flatten ≠ [] := by
      rw [hflat]; simp [packSize_ne_nil]
    have goal : FailsW fun fuel => applySequentialBody (lib.codecOf c) formats fuel { data := fr', pos := 0, clampSeek := clamp } p' to.length := by
      rcases hc with rfl | rfl
      · have hO := noneLossless.init (packSize 0 :: ops.flatMap Op.chunks) hpne
        have hrun : noneCodec.comp.run (packSize 0 :: ops.flatMap Op.chunks) = (packSize 0 :: ops.flatMap Op.chunks).flatten := hO.1
        simp only [Lib.codecOf] at hb ⊢
        rw [hrun, hflat] at hb
        exact body_cut_fails noneCodec noneLossless.toDelivers.supply formats _ rfl p' fr to ops hops p' z hb hz ⟨rfl, rfl⟩
      · have hdec := crle_go_dec (packSize 0 :: ops.flatMap Op.chunks) {} (.inr (by simpa using hpne))
        obtain ⟨o, lost, h1, h2, h3⟩ := hdec.cut p' z hb hz
        rw [show ({} : CrleC).data = [] from rfl, List.nil_append, hflat] at h1
        exact body_cut_fails crleCodec crleStreamSupply formats _ rfl p' fr to ops hops o lost h1 h2
          ⟨rfl, o, rfl, h3, 0, by simp [crleCodec, crleSegment]⟩
    obtain ⟨F, o, e, he, hF⟩ := goal
    refine ⟨F, o, e, he, fun fuel hf => ?_⟩
    rw [applySequential_created lib formats fuel _ c to.length hlen p']
    exact hF fuel hf

/-- C16, Python, other compressions: with a codec that detects incomplete streams, and
with or without data format, no strict prefix of a created patch with non-empty
to-data is ever accepted. -/
theorem C16_python_truncated_codec (lib : Lib) (formats : Int → Option DataFormat) (c : Compression)
    (hc : DetectsTruncation (lib.codecOf c)) (fmt : Option DataFormat)
    (fr to patch p z : Bytes) (hto : fr.length + to.length < 2 ^ 31) (hne : to ≠ [])
    (hcreate : createSequential lib c fmt fr to = .ok patch) (hcut : patch = p ++ z) (hz : z ≠ [])
    (from_ : PyFile) (fuel : Nat) (n : Int) :
    (applySequential lib formats fuel from_ p).res ≠ .ok n := by
  have hlen : to.length ≠ 0 := by simpa using hne
  have hshape : ∃ chunks, chunks.flatten ≠ [] ∧ patch = packHeader PATCH_TYPE_SEQUENTIAL c.toNumber ++ packSize (to.length : Nat) ++
      (lib.codecOf c).comp.run chunks := by
    have hpk : ∀ (w : Int) (x : Bytes), pyPackSize w = .ok x → x ≠ [] := by
      intro w x h
      unfold pyPackSize at h
      split at h
      · cases h
      · split at h
        · cases h
        · cases h; exact packSize_ne_nil w
    have fin : ∀ (fr1 to1 x : Bytes), x ≠ [] → (match createChunks lib fr1 to1 with
          | .error e => .error e
          | .ok ch => .ok (packHeader PATCH_TYPE_SEQUENTIAL c.toNumber ++ packSize (to.length : Nat) ++ (lib.codecOf c).comp.run (x :: ch)) : Except PyErr Bytes) = .ok patch →
        ∃ chunks, chunks.flatten ≠ [] ∧ patch = packHeader PATCH_TYPE_SEQUENTIAL c.toNumber ++ packSize (to.length : Nat) ++ (lib.codecOf c).comp.run chunks := by
      intro fr1 to1 x hx h
      cases hch : createChunks lib fr1 to1 with
      | error e => rw [hch] at h; simp at h
      | ok ch =>
        rw [hch] at h
        simp only [Except.ok.injEq] at h
        exact ⟨x :: ch, by simp [hx], h.symm⟩
    simp only [createSequential, pyPackSize_nat to.length (by omega), createSequentialData, hlen, if_false, bind, Except.bind, pure, Except.pure] at hcreate
    cases fmt with
    | none =>
      simp only at hcreate
      cases h0 : pyPackSize 0 with
      | error e => rw [h0] at hcreate; simp at hcreate
      | ok x =>
        rw [h0] at hcreate
        refine fin fr to x (hpk _ _ h0) ?_
        rw [← hcreate]
        simp only
        cases createChunks lib fr to <;> rfl
    | some f =>
      simp only at hcreate
      cases he : f.encode fr to with
      | error e => rw [he] at hcreate; simp at hcreate
      | ok v =>
        rw [he] at hcreate
        simp only at hcreate
        cases ha : pyPackSize v.2.2.length with
        | error e => rw [ha] at hcreate; simp at hcreate
        | ok a =>
          rw [ha] at hcreate
          simp only at hcreate
          cases hb : pyPackSize f.number with
          | error e => rw [hb] at hcreate; simp at hcreate
          | ok b =>
            rw [hb] at hcreate
            refine fin v.1 v.2.1 (a ++ b ++ v.2.2) (by simp [hpk _ _ ha]) ?_
            rw [← hcreate]
            simp only
            cases createChunks lib v.1 v.2.1 <;> rfl
  obtain ⟨chunks, hcne, hpatch⟩ := hshape
  rw [hcut] at hpatch
  rcases prefix_cases hpatch.symm hz with ⟨z', hz', h⟩ | ⟨p', rfl, hb⟩
  · obtain ⟨e, he⟩ := header_cut c _ _ _ h hz'
    simp [applySequential, he, W.lift, bind, W.bind]
  · obtain ⟨inc, hinc⟩ := hc
    rw [applySequential_created lib formats fuel _ c to.length hlen p']
    exact body_incomplete _ inc formats fuel from_ p' _ n (hinc chunks p' z hcne hb hz)

-- A created patch, a cut, and the error.
example : (applySequential exampleLib (fun _ => none) 100 { data := [1, 2, 3, 4, 5], pos := 0, clampSeek := true }
    [0, 7, 0, 3, 0, 0, 0, 4, 9, 4, 5]).res = .error (.error "Early end of patch data.") := by decide +kernel

/-- C17, Python, no compression: appending anything to a created patch with non-empty
to-data makes `apply_patch` raise. -/
theorem C17_python_trailing_none (lib : Lib) (hsa : SuffixArrayInRange lib.suffixArray)
    (formats : Int → Option DataFormat) (fr to patch z : Bytes) (hto : fr.length + to.length < 2 ^ 31) (hne : to ≠ [])
    (hcreate : createSequential lib .none none fr to = .ok patch) (hz : z ≠ []) (fr' : Bytes) (clamp : Bool) :
    ∃ F out e, e ≠ .timeout ∧ ∀ fuel, F ≤ fuel →
      applySequential lib formats fuel { data := fr', pos := 0, clampSeek := clamp } (patch ++ z) = ⟨out, .error e⟩ := by
  obtain ⟨ops, hops, _, hshape⟩ := created_shape lib hsa .none fr to hto
  rw [hcreate, if_neg hne] at hshape
  simp only [Except.ok.injEq, Lib.codecOf] at hshape
  have hlen : to.length ≠ 0 := by simpa using hne
  have hflat : (packSize 0 :: ops.flatMap Op.chunks).flatten = packSize 0 ++ encodeOps ops := flatten_cons_chunks _ _
  have hO := noneLossless.init (packSize 0 :: ops.flatMap Op.chunks) (by rw [hflat]; simp [packSize_ne_nil])
  have hrun : noneCodec.comp.run (packSize 0 :: ops.flatMap Op.chunks) = packSize 0 ++ encodeOps ops := hO.1.trans hflat
  rw [hrun] at hshape
  obtain ⟨F, o, e, he, hF⟩ := body_more_fails noneCodec noneLossless.toDelivers.supply formats
    { data := fr', pos := 0, clampSeek := clamp } rfl (packSize 0 ++ encodeOps ops ++ z) fr to ops hops z hz ⟨rfl, rfl⟩
  refine ⟨F, o, e, he, fun fuel hf => ?_⟩
  rw [hshape, List.append_assoc _ _ z, applySequential_created lib formats fuel _ .none to.length hlen]
  exact hF fuel hf

/-- C17, Python, CRLE: trailing bytes that decode to anything at all are rejected.
Missing: trailing bytes that are malformed, and those that decode to nothing, which
are accepted (`C17_python_crle_trailing_accepted`). -/
theorem C17_python_trailing_crle_partial (lib : Lib) (hsa : SuffixArrayInRange lib.suffixArray)
    (formats : Int → Option DataFormat) (fr to patch z zout : Bytes) (hto : fr.length + to.length < 2 ^ 31) (hne : to ≠ [])
    (hcreate : createSequential lib .crle none fr to = .ok patch) (hz : CrleDec 0 z zout) (hz0 : z ≠ []) (fr' : Bytes) (clamp : Bool) :
    ∃ F out e, e ≠ .timeout ∧ ∀ fuel, F ≤ fuel →
      applySequential lib formats fuel { data := fr', pos := 0, clampSeek := clamp } (patch ++ z) = ⟨out, .error e⟩ := by
  obtain ⟨ops, hops, _, hshape⟩ := created_shape lib hsa .crle fr to hto
  rw [hcreate, if_neg hne] at hshape
  simp only [Except.ok.injEq, Lib.codecOf] at hshape
  have hlen : to.length ≠ 0 := by simpa using hne
  have hflat : (packSize 0 :: ops.flatMap Op.chunks).flatten = packSize 0 ++ encodeOps ops := flatten_cons_chunks _ _
  have hdec := crle_go_dec (packSize 0 :: ops.flatMap Op.chunks) {} (.inr (by rw [hflat]; simp [packSize_ne_nil]))
  rw [show ({} : CrleC).data = [] from rfl, List.nil_append, hflat] at hdec
  have hcat : ∀ {k a o}, CrleDec k a o → CrleDec k (a ++ z) (o ++ zout) := by
    intro k a o h
    induction h with
    | done => exact hz
    | lit _ ih => exact .lit ih
    | scattered h1 h2 _ ih => exact .scattered (crleUnpackSize_append _ _ _ _ _ z h1) h2 ih
    | repeated h1 h2 _ ih => rw [List.append_assoc]; exact .repeated (crleUnpackSize_append _ _ _ _ _ z h1) h2 ih
  obtain ⟨F, o, e, he, hF⟩ := body_more_fails crleCodec crleStreamSupply formats
    { data := fr', pos := 0, clampSeek := clamp } rfl (crleCodec.comp.run (packSize 0 :: ops.flatMap Op.chunks) ++ z) fr to ops hops zout
      (fun h => hz0 (hz.nil_iff.1 h)) ⟨rfl, _, rfl, (hcat hdec).stream, 0, by simp [crleCodec, crleSegment]⟩
  refine ⟨F, o, e, he, fun fuel hf => ?_⟩
  rw [hshape, List.append_assoc _ _ z, applySequential_created lib formats fuel _ .crle to.length hlen]
  exact hF fuel hf

/-- C17 is false for CRLE: a created patch followed by an empty segment is accepted. -/
theorem C17_python_crle_trailing_accepted :
    createSequential exampleLib .crle none [1, 2] [1, 2, 3] = .ok [2, 3, 0, 7, 0, 2, 0, 0, 1, 3, 0] ∧
    applySequential exampleLib (fun _ => none) 100 { data := [1, 2], pos := 0, clampSeek := true }
      ([2, 3, 0, 7, 0, 2, 0, 0, 1, 3, 0] ++ [0, 0]) = ⟨[1, 2, 3], .ok 3⟩ := by
  constructor <;> decide +kernel

end Detools
