import Verif.Proofs.PyTerm
/-
C01, C02, C03, C07, C26 (Python), C36: sequential patches in Python.

`createSequential` returns the whole patch file, `applySequential` what has been
written to the to-file together with the returned value or exception. Loops of the
model take fuel; `∃ F, ∀ fuel ≥ F` says the loops finish with that result.
-/
namespace Detools

theorem rebuilds_sum {fr : Bytes} : ∀ (ops : List Op) (pos : Int) (to : Bytes), Rebuilds fr pos ops to →
    (ops.map (fun op => op.diff.length + op.extra.length)).sum = to.length := by
  intro ops
  induction ops with
  | nil => intro pos to h; simp [Rebuilds] at h; simp [h]
  | cons op ops ih =>
    intro pos to h
    obtain ⟨_, a1, a2, _, _, rest, hr, h'⟩ := h
    have := ih _ _ h'
    simp only [List.map_cons, List.sum_cons, this, hr, List.length_append, List.length_zipWith, List.length_drop]
    omega

/-- C07. Creating a patch reads neither buffer out of bounds, computes no `int32_t`
outside its range and terminates, for any suffix array with in-range entries and
data of less than 2 GiB together; the patch is a list of records that rebuilds
`to` exactly, all from-positions in range, sizes summing to the to size. -/
theorem C07_create_safe_and_well_formed (sa : List Nat) (fr to : Bytes)
    (hlen : sa.length = fr.length + 1) (hin : ∀ p ∈ sa, p ≤ fr.length)
    (hsz : fr.length + to.length < 2 ^ 31) :
    ∃ ops, bsdiffCreatePatch sa fr to (to.length + 1) = some (ops.flatMap Op.chunks) ∧
      Rebuilds fr 0 ops to ∧
      (ops.map (fun op => op.diff.length + op.extra.length)).sum = to.length := by
  obtain ⟨ops, h1, h2, _⟩ := createOps_some sa fr to (to.length + 1) hlen hin (by omega) hsz
  refine ⟨ops, by simp [bsdiffCreatePatch, h1], h2, ?_⟩
  exact rebuilds_sum ops 0 to h2

-- A from-cursor adjustment, a diff and an extra part.
example : createOps [5, 0, 1, 2, 3, 4] [1, 2, 3, 4, 5] [1, 2, 3, 9, 4, 5, 6] 8 =
    some [⟨[0, 0, 0], [9, 4, 5, 6], 1⟩] := by decide

/-- C07, the limit is real: to-data, or from-data, of 2 GiB or more does not fit the
`int32_t` sizes of the algorithm, which does not check. -/
theorem C07_create_too_large (sa : List Nat) (fr to : Bytes) (debuf : Nat) (hne : to ≠ [])
    (h : 2 ^ 31 ≤ fr.length ∨ 2 ^ 31 ≤ to.length) : bsdiffCreatePatch sa fr to debuf = none := by
  have hpos : 0 < to.length := List.length_pos_iff.2 hne
  have h32 : int32s [(fr.length : Int), to.length, to.length - 0] = none := by
    unfold int32s
    rw [if_neg]
    intro hall
    have h1 := hall fr.length (by simp)
    have h2 := hall to.length (by simp)
    omega
  have h0 : int32s [(0 : Int)] = some () := by decide
  have hscan : ∀ fuel, scanLoop sa fr to 0 fuel 0 { scan := 0, len := 0, pos := 0, score := 0 } = none := by
    intro fuel
    cases fuel with
    | zero => exact if_pos (by show (0 : Int) < to.length; omega)
    | succ fuel =>
      refine (if_pos (by show (0 : Int) < to.length; omega)).trans ?_
      show (int32s [(fr.length : Int), to.length, to.length - 0]).bind _ = none
      rw [h32]; rfl
  unfold bsdiffCreatePatch createOps createLoop
  rw [if_pos (by show (0 : Int) < to.length; omega)]
  show Option.map _ ((int32s [(0 : Int)]).bind fun _ => (scanLoop sa fr to 0 to.length 0 { scan := 0, len := 0, pos := 0, score := 0 }).bind _) = none
  rw [h0, Option.bind_some, hscan]; rfl

/-- C03. For every compression whose codec is lossless under streaming use, and every
data format lossless on this data (or none), creating and applying a sequential patch
reproduces the to-data and returns its length. -/
theorem C03_sequential_roundtrip (lib : Lib) (hsa : SuffixArrayInRange lib.suffixArray)
    (formats : Int → Option DataFormat) (c : Compression) (L : Lossless (lib.codecOf c))
    (fmt : Option DataFormat) (fr to : Bytes) (clamp : Bool) (hto : fr.length + to.length < 2 ^ 31)
    (hfmt : ∀ f, fmt = some f → f.number < 2 ^ 62 ∧ ReadsFormat formats f ∧ f.LosslessOn fr to) :
    ∃ patch, createSequential lib c fmt fr to = .ok patch ∧
      ∃ F, ∀ fuel, F ≤ fuel →
        applySequential lib formats fuel { data := fr, pos := 0, clampSeek := clamp } patch = ⟨to, .ok to.length⟩ :=
  sequential_roundtrip lib hsa formats c L fmt fr to clamp hto hfmt

/-- C01. Without compression. -/
theorem C01_sequential_roundtrip_none (lib : Lib) (hsa : SuffixArrayInRange lib.suffixArray)
    (formats : Int → Option DataFormat) (fr to : Bytes) (clamp : Bool) (hto : fr.length + to.length < 2 ^ 31) :
    ∃ patch, createSequential lib .none none fr to = .ok patch ∧
      ∃ F, ∀ fuel, F ≤ fuel →
        applySequential lib formats fuel { data := fr, pos := 0, clampSeek := clamp } patch = ⟨to, .ok to.length⟩ :=
  sequential_roundtrip lib hsa formats .none noneLossless none fr to clamp hto (by simp)

/-- C02. With CRLE. -/
theorem C02_sequential_roundtrip_crle (lib : Lib) (hsa : SuffixArrayInRange lib.suffixArray)
    (formats : Int → Option DataFormat) (fr to : Bytes) (clamp : Bool) (hto : fr.length + to.length < 2 ^ 31) :
    ∃ patch, createSequential lib .crle none fr to = .ok patch ∧
      ∃ F, ∀ fuel, F ≤ fuel →
        applySequential lib formats fuel { data := fr, pos := 0, clampSeek := clamp } patch = ⟨to, .ok to.length⟩ :=
  sequential_roundtrip lib hsa formats .crle crleLossless none fr to clamp hto (by simp)

/-- A library whose suffix array is the unsorted list of positions, and whose foreign
codecs are all `none`: the hypotheses above can be met. -/
def exampleLib : Lib where
  codec := fun _ => noneCodec
  suffixArray := fun fr => List.range (fr.length + 1)

theorem exampleLib_inRange : SuffixArrayInRange exampleLib.suffixArray := by
  intro fr
  refine ⟨by simp [exampleLib], ?_⟩
  intro p hp
  simp [exampleLib] at hp
  omega

example : createSequential exampleLib .none none [1, 2, 3, 4, 5] [1, 2, 3, 9, 4, 5, 6] =
    .ok [0, 7, 0, 3, 0, 0, 0, 4, 9, 4, 5, 6, 2] := by decide +kernel

example : applySequential exampleLib (fun _ => none) 40 { data := [1, 2, 3, 4, 5] }
    [0, 7, 0, 3, 0, 0, 0, 4, 9, 4, 5, 6, 2] = ⟨[1, 2, 3, 9, 4, 5, 6], .ok 7⟩ := by decide +kernel

/-- C26 (Python). The header byte of every patch type and compression decodes to the
same patch type and compression. -/
theorem C26_header_roundtrip (t : Nat) (ht : t < 8) (c : Compression) :
    ∃ b, packHeader t c.toNumber = [b] ∧ unpackHeader b = (t, c.toNumber) ∧
      convertCompression (unpackHeader b).2 = .ok c := by
  obtain ⟨b, h1, h2, _⟩ := unpackHeader_packHeader t c.toNumber ht c.toNumber_lt
  exact ⟨b, h1, h2, by rw [h2]; exact convertCompression_toNumber c⟩

/-- C26 (Python). `apply_patch_sequential` raises, having written nothing, on an empty
patch, on a patch of another type, and on an unknown compression. -/
theorem C26_sequential_rejects (lib : Lib) (formats : Int → Option DataFormat) (fuel : Nat) (from_ : PyFile)
    (patch : Bytes)
    (h : patch = [] ∨ ∃ b rest, patch = b :: rest ∧
      ((unpackHeader b).1 ≠ 0 ∨ 6 < (unpackHeader b).2)) :
    ∃ m, applySequential lib formats fuel from_ patch = ⟨[], .error (.error m)⟩ := by
  rcases h with rfl | ⟨b, rest, rfl, h⟩
  · exact ⟨_, rfl⟩
  · simp only [applySequential, readHeaderSequential]
    by_cases h1 : (unpackHeader b).1 ≠ PATCH_TYPE_SEQUENTIAL
    · simp only [h1, ne_eq, not_false_eq_true, if_true, W.lift_bind_error]
      exact ⟨_, rfl⟩
    · have h2 : 6 < (unpackHeader b).2 := by
        rcases h with h | h
        · exact absurd h (by simpa [PATCH_TYPE_SEQUENTIAL] using h1)
        · exact h
      have h3 : convertCompression (unpackHeader b).2 = .error (.error "Expected compression ...") := by
        unfold convertCompression
        split <;> simp_all
      simp only [h1, if_false, h3, bind, Except.bind, W.bind, W.lift]
      exact ⟨_, rfl⟩

example : (unpackHeader 0x17).1 ≠ 0 ∧ 6 < (unpackHeader 0x07).2 := by decide

/-- C36. Whatever the patch and the from-data: at most to-size bytes are written, and if
`apply_patch` returns, it returns the to-size of the header and has written exactly that
many bytes (none for a negative to-size). Assumes only that the decompressor never
returns more than it was asked for. -/
theorem C36_writes_exactly_to_size (lib : Lib) (formats : Int → Option DataFormat) (fuel : Nat) (from_ : PyFile)
    (patch : Bytes) (c : Compression) (toSize : Int) (rest : Bytes)
    (hdr : readHeaderSequential patch = .ok (c, toSize, rest)) (hD : (lib.codecOf c).decomp.Bounded) :
    (applySequential lib formats fuel from_ patch).out.length ≤ toSize.toNat ∧
    ∀ n, (applySequential lib formats fuel from_ patch).res = .ok n →
      n = toSize ∧ (applySequential lib formats fuel from_ patch).out.length = toSize.toNat := by
  simp only [applySequential, hdr, W.lift_bind_ok]
  split
  · rename_i h; subst h; simp [W.pure_eq]
  · simp only [applySequentialBody]
    rcases W.lift_bind_cases (createDataFormatReaders formats fuel
      { st := (lib.codecOf c).initDecomp rest.length, file := rest } from_ toSize) (fun s => do
        let s ← applyLoop fuel 0 toSize s
        if (lib.codecOf c).decomp.eof s.reader.st then return toSize
        else W.lift (.error (.error "End of patch not found."))) with ⟨x, _, h⟩ | ⟨s, _, h⟩
    · rw [h]; simp
    · rw [h]; clear h
      by_cases hneg : toSize < 0
      · have : applyLoop fuel 0 toSize s = W.pure s := by
          cases fuel <;> simp [applyLoop] <;> omega
        rw [this]
        simp only [W.pure_bind]
        split
        · simp [W.pure_eq]; omega
        · simp [W.lift]
      · obtain ⟨h1, h2⟩ := applyLoop_length hD fuel 0 toSize s (by omega)
        cases hl : applyLoop fuel 0 toSize s with
        | mk o res =>
        rw [hl] at h1 h2
        cases res with
        | error e => simp at h1 ⊢; omega
        | ok s' =>
          have h2 := h2 s' rfl
          simp only [W.mk_bind_ok] at h2 ⊢
          split
          · simp [W.pure_eq]; omega
          · simp [W.lift]; omega

/-- C36. If the header cannot be read nothing is written. -/
theorem C36_bad_header (lib : Lib) (formats : Int → Option DataFormat) (fuel : Nat) (from_ : PyFile)
    (patch : Bytes) (e : PyErr) (hdr : readHeaderSequential patch = .error e) :
    applySequential lib formats fuel from_ patch = ⟨[], .error e⟩ := by
  simp only [applySequential, hdr, W.lift_bind_error]

/-- C36. Both codecs of detools meet the assumption of `C36_writes_exactly_to_size`. -/
theorem C36_bounded (lib : Lib) : (lib.codecOf .none).decomp.Bounded ∧ (lib.codecOf .crle).decomp.Bounded :=
  ⟨noneBounded, crleBounded⟩

/-- C36. Application terminates on every patch, valid or not: from some fuel on the
outcome is fixed and is not the model's timeout. -/
theorem C36_terminates (lib : Lib) (formats : Int → Option DataFormat) (hF : FormatsTotal formats) (from_ : PyFile)
    (patch : Bytes) (hc : ∀ c toSize rest, readHeaderSequential patch = .ok (c, toSize, rest) →
      c = .none ∨ c = .crle) :
    ∃ v F, v.res ≠ .error .timeout ∧ ∀ fuel, F ≤ fuel → applySequential lib formats fuel from_ patch = v := by
  cases hdr : readHeaderSequential patch with
  | error e =>
    refine ⟨⟨[], .error e⟩, 0, ?_, fun fuel _ => C36_bad_header lib formats fuel from_ patch e hdr⟩
    intro h
    simp at h
    subst h
    unfold readHeaderSequential at hdr
    split at hdr
    · simp at hdr
    · rename_i b rest
      simp only [bind, Except.bind] at hdr
      split at hdr
      · simp at hdr
      · split at hdr
        · rename_i h'
          simp at hdr; subst hdr
          unfold convertCompression at h'
          split at h' <;> simp at h'
        · split at hdr
          · rename_i h'
            simp at hdr; subst hdr
            have key : ∀ (l : Bytes) (v o : Nat), unpackLoop v o l ≠ .error .timeout := by
              intro l
              induction l with
              | nil => intro v o; simp [unpackLoop]
              | cons b l ih => intro v o; simp only [unpackLoop]; split; exact ih _ _; simp
            cases rest with
            | nil => simp [unpackSize, unpackSizeWithLength, bind, Except.bind] at h'
            | cons b rest =>
              simp only [unpackSize, unpackSizeWithLength, bind, Except.bind] at h'
              by_cases hb : b &&& 0x80 ≠ 0
              · rw [if_pos hb] at h'
                have := key rest (b.toNat &&& 0x3f) 6
                cases hu : unpackLoop (b.toNat &&& 0x3f) 6 rest with
                | error e => rw [hu] at h' this; simp at h' this; exact this h'
                | ok v => rw [hu] at h'; simp [pure, Except.pure] at h'
              · rw [if_neg hb] at h'; simp [pure, Except.pure] at h'
          · simp [pure, Except.pure] at hdr
  | ok v =>
    obtain ⟨c, toSize, rest⟩ := v
    by_cases h0 : toSize = 0
    · exact ⟨W.pure toSize, 0, by simp [W.pure], fun fuel _ => by
        simp only [applySequential, hdr, W.lift_bind_ok, if_pos h0]; rfl⟩
    · have key : ∀ (T : Terminating (lib.codecOf c).decomp), (∀ n, T.inv ((lib.codecOf c).initDecomp n)) →
          ∃ v F, v.res ≠ .error .timeout ∧ ∀ fuel, F ≤ fuel → applySequential lib formats fuel from_ patch = v := by
        intro T hT
        obtain ⟨v, F, h1, h2, _⟩ := applySequentialBody_conv (lib.codecOf c) T hT formats hF from_ rest toSize
        refine ⟨v, F, h2, ?_⟩
        intro fuel hf
        simp only [applySequential, hdr, W.lift_bind_ok, if_neg h0]
        exact h1 fuel hf
      rcases hc c toSize rest hdr with rfl | rfl
      · exact key noneTerminating (fun _ => trivial)
      · exact key crleTerminating crleInit_inv

-- A patch declaring two bytes but carrying one: raises after writing one byte.
example : applySequential exampleLib (fun _ => none) 20 { data := [] } [0, 2, 0, 0, 1, 9, 0] =
    ⟨[9], .error (.error "Early end of patch data.")⟩ := by decide +kernel
-- A negative to-size is returned as is, with nothing written.
example : applySequential exampleLib (fun _ => none) 20 { data := [] } [0, 0x41, 0] = ⟨[], .ok (-1)⟩ := by decide +kernel

end Detools
