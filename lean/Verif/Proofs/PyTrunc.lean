import Verif.Proofs.PyAccept
import Verif.Spec.Truncation

namespace Detools

theorem readHeaderSequential_iff (patch : Bytes) (c : Compression) (toSize : Int) (rest : Bytes) :
    readHeaderSequential patch = .ok (c, toSize, rest) ↔ Header patch c.toNumber toSize rest := by
  have hb : ∀ b : UInt8, unpackHeader b = (b.toNat / 16 % 8, b.toNat % 16) := by
    intro b
    unfold unpackHeader
    have e1 : b.toNat >>> 4 = b.toNat / 16 := by rw [Nat.shiftRight_eq_div_pow]
    have e2 : ∀ n : Nat, n &&& 7 = n % 8 := fun n => Nat.and_two_pow_sub_one_eq_mod n 3
    have e3 : ∀ n : Nat, n &&& 15 = n % 16 := fun n => Nat.and_two_pow_sub_one_eq_mod n 4
    rw [e1, e2, e3]
  have hcc : ∀ n, convertCompression n = .ok c ↔ n = c.toNumber := by
    intro n
    match n with
    | 0 => cases c <;> simp [convertCompression, Compression.toNumber]
    | 1 => cases c <;> simp [convertCompression, Compression.toNumber]
    | 2 => cases c <;> simp [convertCompression, Compression.toNumber]
    | 3 => cases c <;> simp [convertCompression, Compression.toNumber]
    | 4 => cases c <;> simp [convertCompression, Compression.toNumber]
    | 5 => cases c <;> simp [convertCompression, Compression.toNumber]
    | 6 => cases c <;> simp [convertCompression, Compression.toNumber]
    | n + 7 => cases c <;> simp [convertCompression, Compression.toNumber]
  have hlt : c.toNumber ≤ 6 := by cases c <;> decide
  unfold readHeaderSequential Header
  cases patch with
  | nil => simp
  | cons b t =>
    simp only [hb, bind, Except.bind, pure, Except.pure]
    by_cases ht : b.toNat / 16 % 8 = PATCH_TYPE_SEQUENTIAL
    · rw [if_neg (by simp [ht])]
      constructor
      · intro h
        split at h
        · cases h
        · next c' hc' =>
          simp only [unpackSize, bind, Except.bind, pure, Except.pure] at h
          cases hu : unpackSizeWithLength t with
          | error e => rw [hu] at h; simp at h
          | ok p =>
            obtain ⟨v, k, r⟩ := p
            rw [hu] at h
            simp at h
            obtain ⟨rfl, rfl, rfl⟩ := h
            exact ⟨b, t, k, rfl, ht, (hcc _).1 hc', hlt, hu⟩
      · rintro ⟨b', t', k, h1, h2, h3, h4, h5⟩
        simp only [List.cons.injEq] at h1
        obtain ⟨rfl, rfl⟩ := h1
        rw [(hcc _).2 h3]
        simp [unpackSize, h5, bind, Except.bind, pure, Except.pure]
    · rw [if_pos ht]
      constructor
      · intro h; cases h
      · rintro ⟨b', t', k, h1, h2, _⟩
        simp only [List.cons.injEq] at h1
        obtain ⟨rfl, rfl⟩ := h1
        exact absurd h2 ht

theorem readHeaderSequential_not_timeout {patch : Bytes} {e} (h : readHeaderSequential patch = .error e) : e ≠ .timeout := by
  rintro rfl
  unfold readHeaderSequential at h
  cases patch with
  | nil => simp at h
  | cons b t =>
    simp only [bind, Except.bind, pure, Except.pure] at h
    split at h
    · simp at h
    · split at h
      · next hc =>
        unfold convertCompression at hc
        split at hc <;> simp_all
      · simp only [unpackSize, bind, Except.bind, pure, Except.pure] at h
        cases hu : unpackSizeWithLength t with
        | ok p => rw [hu] at h; simp at h
        | error e =>
          rw [hu] at h
          simp at h
          subst h
          cases t with
          | nil => simp [unpackSizeWithLength] at hu
          | cons b t =>
            simp only [unpackSizeWithLength, bind, Except.bind, pure, Except.pure] at hu
            have key : ∀ (t : Bytes) (v o : Nat), Detools.unpackLoop v o t ≠ .error .timeout := by
              intro t
              induction t with
              | nil => intro v o; simp [Detools.unpackLoop]
              | cons b t ih => intro v o; simp only [Detools.unpackLoop]; split; exact ih _ _; simp
            split at hu
            · split at hu
              · next hh => simp at hu; subst hu; exact key _ _ _ hh
              · simp at hu
            · simp at hu

/-- The shape of a created patch without data format: the triples do not depend on the
compression. -/
theorem created_shape_all (lib : Lib) (hsa : SuffixArrayInRange lib.suffixArray)
    (fr to : Bytes) (hto : fr.length + to.length < 2 ^ 31) :
    ∃ ops, Rebuilds fr 0 ops to ∧
      (∀ op ∈ ops, op.diff.length ≤ to.length ∧ op.extra.length ≤ to.length ∧ op.adjustment.natAbs ≤ fr.length) ∧
      ∀ c, createSequential lib c none fr to = .ok (packHeader PATCH_TYPE_SEQUENTIAL c.toNumber ++ packSize (to.length : Nat) ++
        if to = [] then [] else (lib.codecOf c).comp.run (packSize 0 :: ops.flatMap Op.chunks)) := by
  obtain ⟨ops, h1, h2, h3⟩ := createChunks_ok lib hsa fr to hto
  refine ⟨ops, h2, h3, fun c => ?_⟩
  have h0 := pyPackSize_nat 0 (by decide)
  simp only [Int.natCast_zero] at h0
  by_cases hne : to = []
  · subst hne
    simp [createSequential, createSequentialData, h0, bind, Except.bind, pure, Except.pure]
  · have : to.length ≠ 0 := by simpa using hne
    simp [createSequential, pyPackSize_nat to.length (by omega), createSequentialData, this, h0, h1, hne, bind, Except.bind, pure, Except.pure]

theorem created_shape (lib : Lib) (hsa : SuffixArrayInRange lib.suffixArray) (c : Compression)
    (fr to : Bytes) (hto : fr.length + to.length < 2 ^ 31) :
    ∃ ops, Rebuilds fr 0 ops to ∧
      (∀ op ∈ ops, op.diff.length ≤ to.length ∧ op.extra.length ≤ to.length ∧ op.adjustment.natAbs ≤ fr.length) ∧
      createSequential lib c none fr to = .ok (packHeader PATCH_TYPE_SEQUENTIAL c.toNumber ++ packSize (to.length : Nat) ++
        if to = [] then [] else (lib.codecOf c).comp.run (packSize 0 :: ops.flatMap Op.chunks)) := by
  obtain ⟨ops, h1, h2, h3⟩ := created_shape_all lib hsa fr to hto
  exact ⟨ops, h1, h2, h3 c⟩

theorem flatten_cons_chunks (a : Bytes) (ops : List Op) : (a :: ops.flatMap Op.chunks).flatten = a ++ encodeOps ops := by
  simp [encodeOps]

/-- A header cut short cannot be read. -/
theorem header_cut (c : Compression) (n : Int) (p z : Bytes)
    (h : packHeader PATCH_TYPE_SEQUENTIAL c.toNumber ++ packSize n = p ++ z) (hz : z ≠ []) :
    ∃ e, readHeaderSequential p = .error e := by
  cases hr : readHeaderSequential p with
  | error e => exact ⟨e, rfl⟩
  | ok v =>
    exfalso
    obtain ⟨c', s, rest⟩ := v
    rw [readHeaderSequential_iff] at hr
    obtain ⟨b, t, k, rfl, _, _, _, hu⟩ := hr
    simp only [packHeader, List.cons_append, List.nil_append, List.cons.injEq] at h
    have h1 := unpackSizeWithLength_append hu z
    rw [← h.2, ← List.append_nil (packSize n), unpackSizeWithLength_packSize] at h1
    simp at h1
    exact hz h1.2.2.2

/-- A strict prefix of a created patch is a strict prefix of the header, or the header
and a strict prefix of the rest. -/
theorem prefix_cases {a b p z : Bytes} (h : a ++ b = p ++ z) (hz : z ≠ []) :
    (∃ z', z' ≠ [] ∧ a = p ++ z') ∨ (∃ p', p = a ++ p' ∧ b = p' ++ z) := by
  rcases List.append_eq_append_iff.1 h with ⟨a', h1, h2⟩ | ⟨c', h1, h2⟩
  · exact .inr ⟨a', h1, h2⟩
  · cases c' with
    | nil => exact .inr ⟨[], by simp [h1], by simpa using h2.symm⟩
    | cons x t => exact .inl ⟨x :: t, by simp, h1⟩

theorem applySequential_fails_header (lib : Lib) (formats : Int → Option DataFormat) (from_ : PyFile) {p : Bytes} {e}
    (h : readHeaderSequential p = .error e) : FailsW fun fuel => applySequential lib formats fuel from_ p :=
  ⟨0, [], e, readHeaderSequential_not_timeout h, fun fuel _ => by
    simp [applySequential, h, W.lift, bind, W.bind]⟩

theorem BodyMeans.unique {clamp fr toSize body out out'} (h : BodyMeans clamp fr toSize body out)
    (h' : BodyMeans clamp fr toSize body out') : out = out' := by
  obtain ⟨d, len, b, recs, h1, h2, h3, h4⟩ := h
  obtain ⟨d', len', b', recs', g1, g2, g3, g4⟩ := h'
  rw [h1] at g1
  cases g1
  rw [(h3.unique g3).1] at h4
  rw [h4] at g4
  exact Option.some.inj g4

/-- With a decompressor that owes exactly the body. -/
theorem body_owes (codec : PyCodec) (L : Delivers codec.decomp) (formats : Int → Option DataFormat)
    (clamp : Bool) (fr rest : Bytes) (toSize : Int) (q : Bytes)
    (hO : L.owes (codec.initDecomp rest.length) rest q)
    (hdf : ∀ d len b, unpackSizeWithLength q = .ok (d, len, b) → d ≤ 0) :
    (∀ out, BodyMeans clamp fr toSize q out → ∃ F, ∀ fuel, F ≤ fuel →
        applySequentialBody codec formats fuel { data := fr, pos := 0, clampSeek := clamp } rest toSize = ⟨out, .ok toSize⟩) ∧
    ((¬ ∃ out, BodyMeans clamp fr toSize q out) →
      FailsW fun fuel => applySequentialBody codec formats fuel { data := fr, pos := 0, clampSeek := clamp } rest toSize) := by
  rcases body_supply codec L.supply formats { data := fr, pos := 0, clampSeek := clamp } rfl rest toSize q hO hdf with
    ⟨d, len, b, recs, r, out, h1, h2, h3, F, st, file, hst, hF⟩ | ⟨hno, hF⟩
  · have heof := L.eof_iff hst
    constructor
    · rintro out' ⟨d', len', b', recs', g1, g2, g3, g4⟩
      rw [h1] at g1
      cases g1
      obtain ⟨rfl, rfl⟩ := h2.unique g3
      simp only at h3
      rw [h3] at g4
      cases g4
      refine ⟨F, fun fuel hf => ?_⟩
      rw [hF fuel hf, if_pos (heof.2 rfl)]
    · intro hne
      have hr : r ≠ [] := by
        rintro rfl
        exact hne ⟨out, d, len, b, recs, h1, hdf d len b h1, h2, h3⟩
      refine ⟨F, out, .error "End of patch not found.", (by intro h; cases h), fun fuel hf => ?_⟩
      refine (hF fuel hf).trans ?_
      rw [if_neg (fun h => hr (heof.1 h))]
  · constructor
    · rintro out ⟨d, len, b, recs, g1, g2, g3, g4⟩
      have := hno d len b recs [] g1 g3
      simp only at this
      rw [this] at g4
      cases g4
    · intro _; exact hF

theorem unpackSize_zero_pack (b : Bytes) : unpackSizeWithLength (packSize 0 ++ b) = .ok (0, 1, b) := by
  rw [unpackSizeWithLength_packSize]
  have : (packSize 0).length = 1 := by decide
  rw [this]

/-- Only a prefix of the body is delivered: an error. -/
theorem body_cut_fails (codec : PyCodec) (L : Supply codec.decomp) (formats : Int → Option DataFormat)
    (from_ : PyFile) (hpos : from_.pos = 0) (rest : Bytes) (fr to : Bytes) (ops : List Op) (hops : Rebuilds fr 0 ops to)
    (q lost : Bytes) (hq : packSize 0 ++ encodeOps ops = q ++ lost) (hlost : lost ≠ [])
    (hO : L.has (codec.initDecomp rest.length) rest q) :
    FailsW fun fuel => applySequentialBody codec formats fuel from_ rest to.length := by
  have hun : ∀ d len b, unpackSizeWithLength q = .ok (d, len, b) → d = 0 ∧ encodeOps ops = b ++ lost := by
    intro d len b h
    have h1 := unpackSizeWithLength_append h lost
    rw [← hq, unpackSize_zero_pack] at h1
    simp only [Except.ok.injEq, Prod.mk.injEq] at h1
    exact ⟨h1.1.symm, h1.2.2⟩
  rcases body_supply codec L formats from_ hpos rest to.length q hO (fun d len b h => by have := (hun d len b h).1; omega) with
    ⟨d, len, b, recs, r, out, h1, h2, h3, _⟩ | ⟨_, hF⟩
  · exfalso
    have h4 := (hops.recs fr from_.clampSeek ops 0 to []).1
    rw [List.append_nil, (hun d len b h1).2] at h4
    exact hlost (h4.not_prefix h2)
  · exact hF

/-- More than the body is delivered: an error. -/
theorem body_more_fails (codec : PyCodec) (L : Supply codec.decomp) (formats : Int → Option DataFormat)
    (from_ : PyFile) (hpos : from_.pos = 0) (rest : Bytes) (fr to : Bytes) (ops : List Op) (hops : Rebuilds fr 0 ops to)
    (extra : Bytes) (hextra : extra ≠ [])
    (hO : L.has (codec.initDecomp rest.length) rest (packSize 0 ++ encodeOps ops ++ extra)) :
    FailsW fun fuel => applySequentialBody codec formats fuel from_ rest to.length := by
  have hu : unpackSizeWithLength (packSize 0 ++ encodeOps ops ++ extra) = .ok (0, 1, encodeOps ops ++ extra) := by
    rw [List.append_assoc, unpackSize_zero_pack]
  rcases body_supply codec L formats from_ hpos rest to.length _ hO (fun d len b h => by rw [hu] at h; cases h; omega) with
    ⟨d, len, b, recs, r, out, h1, h2, h3, F, st, file, hst, hF⟩ | ⟨_, hF⟩
  · have h4 := (hops.recs fr from_.clampSeek ops 0 to extra).1
    rw [hu] at h1
    cases h1
    obtain ⟨_, rfl⟩ := h4.unique h2
    have heof := L.noEof hst hextra
    refine ⟨F, out, .error "End of patch not found.", (by intro h; cases h), fun fuel hf => ?_⟩
    refine (hF fuel hf).trans ?_
    rw [heof]
    rfl
  · exact hF

theorem applySequential_created (lib : Lib) (formats : Int → Option DataFormat) (fuel : Nat) (from_ : PyFile)
    (c : Compression) (n : Nat) (hn : n ≠ 0) (body : Bytes) :
    applySequential lib formats fuel from_ (packHeader PATCH_TYPE_SEQUENTIAL c.toNumber ++ packSize n ++ body) =
      applySequentialBody (lib.codecOf c) formats fuel from_ body n := by
  rw [applySequential, readHeaderSequential_ok]
  simp only [W.lift_bind_ok]
  rw [if_neg (by omega)]

/-! ### Incomplete streams of any codec -/

section
variable {D : Decompressor} (inc : Incomplete D)

theorem PatchReader.loop_incomplete : ∀ (fuel : Nat) (r : PatchReader D) (size : Nat) (buf b : Bytes) (r' : PatchReader D),
    inc.I r.st r.file → PatchReader.loop fuel r size buf = .ok (b, r') → inc.I r'.st r'.file := by
  intro fuel
  induction fuel with
  | zero =>
    intro r size buf b r' hI h
    unfold PatchReader.loop at h
    split at h
    · cases h
    · cases h; exact hI
  | succ fuel ih =>
    intro r size buf b r' hI h
    unfold PatchReader.loop at h
    split at h
    · simp only at h
      split at h
      · cases h
      · by_cases hc : D.needsInput r.st = true ∧ (if D.needsInput r.st = true then r.file.take 4096 else []) = []
        · rw [if_pos hc] at h; cases h
        · rw [if_neg hc] at h
          cases hd : D.decompress r.st (if D.needsInput r.st = true then r.file.take 4096 else []) (size - buf.length) with
          | error e => rw [hd] at h; cases h
          | ok p => rw [hd] at h; exact ih _ _ _ _ _ (inc.step hI hd) h
    · cases h; exact hI

theorem PatchReader.readByte_incomplete {fuel : Nat} {r : PatchReader D} {msg b r'} (hI : inc.I r.st r.file)
    (h : r.readByte fuel msg = .ok (b, r')) : inc.I r'.st r'.file := by
  unfold PatchReader.readByte PatchReader.read at h
  split at h
  · cases h
  · cases h
  · next hr => cases h; exact PatchReader.loop_incomplete inc _ _ _ _ _ _ hI hr

theorem PatchReader.unpackLoop_incomplete (rf : Nat) : ∀ (fuel : Nat) (r : PatchReader D) (v o v' : Nat) (r' : PatchReader D),
    inc.I r.st r.file → PatchReader.unpackLoop rf fuel r v o = .ok (v', r') → inc.I r'.st r'.file := by
  intro fuel
  induction fuel with
  | zero => intro r v o v' r' hI h; simp [PatchReader.unpackLoop] at h
  | succ fuel ih =>
    intro r v o v' r' hI h
    simp only [PatchReader.unpackLoop, bind, Except.bind] at h
    split at h
    · cases h
    · next p hp =>
      have h1 := PatchReader.readByte_incomplete inc hI hp
      split at h
      · exact ih _ _ _ _ _ h1 h
      · cases h; exact h1

theorem PatchReader.unpackSize_incomplete {fuel : Nat} {r : PatchReader D} {v r'} (hI : inc.I r.st r.file)
    (h : r.unpackSize fuel = .ok (v, r')) : inc.I r'.st r'.file := by
  simp only [PatchReader.unpackSize, bind, Except.bind, pure, Except.pure] at h
  split at h
  · cases h
  · next p hp =>
    have h1 := PatchReader.readByte_incomplete inc hI hp
    split at h
    · split at h
      · cases h
      · next q hq => cases h; exact PatchReader.unpackLoop_incomplete inc _ _ _ _ _ _ _ h1 hq
    · cases h; exact h1

theorem W.bind_res_ok {x : W α} {f : α → W β} {b : β} (h : (x >>= f).res = .ok b) : ∃ a, x.res = .ok a ∧ (f a).res = .ok b := by
  have h' : (W.bind x f).res = .ok b := h
  unfold W.bind at h'
  split at h'
  · cases h'
  · next a ha => exact ⟨a, ha, h'⟩

theorem chunkLoop_incomplete (diff : Bool) : ∀ (fuel left : Nat) (s s' : Streams D), inc.I s.reader.st s.reader.file →
    (chunkLoop diff fuel left s).res = .ok s' → inc.I s'.reader.st s'.reader.file := by
  intro fuel
  induction fuel with
  | zero =>
    intro left s s' hI h
    unfold chunkLoop at h
    split at h
    · cases h; exact hI
    · cases h
  | succ fuel ih =>
    intro left s s' hI h
    unfold chunkLoop at h
    split at h
    · cases h; exact hI
    · obtain ⟨⟨pd, r1⟩, h1, h⟩ := W.bind_res_ok h
      have hI1 := PatchReader.loop_incomplete inc _ _ _ _ _ _ hI h1
      cases diff with
      | true =>
        simp only [if_true] at h
        obtain ⟨⟨d, f⟩, _, h⟩ := W.bind_res_ok h
        obtain ⟨⟨d, df⟩, _, h⟩ := W.bind_res_ok h
        obtain ⟨_, _, h⟩ := W.bind_res_ok h
        exact ih _ { reader := r1, from_ := f, dfdiff := df } _ hI1 h
      | false =>
        simp only [Bool.false_eq_true, if_false] at h
        obtain ⟨⟨d, f⟩, _, h⟩ := W.bind_res_ok h
        obtain ⟨⟨d, df⟩, _, h⟩ := W.bind_res_ok h
        obtain ⟨_, _, h⟩ := W.bind_res_ok h
        exact ih _ { reader := r1, from_ := f, dfdiff := df } _ hI1 h

theorem processChunks_incomplete {fuel diff toPos toSize} {s s' : Streams D} {n} (hI : inc.I s.reader.st s.reader.file)
    (h : (processChunks fuel diff toPos toSize s).res = .ok (n, s')) : inc.I s'.reader.st s'.reader.file := by
  unfold processChunks at h
  obtain ⟨⟨v, r⟩, h1, h⟩ := W.bind_res_ok h
  have hI1 := PatchReader.unpackSize_incomplete inc hI h1
  simp only at h
  split at h
  · cases h
  · obtain ⟨s2, h2, h⟩ := W.bind_res_ok h
    cases h
    exact chunkLoop_incomplete inc _ _ _ { s with reader := r } _ hI1 h2

theorem applyLoop_incomplete : ∀ (fuel : Nat) (toPos toSize : Int) (s s' : Streams D), inc.I s.reader.st s.reader.file →
    (applyLoop fuel toPos toSize s).res = .ok s' → inc.I s'.reader.st s'.reader.file := by
  intro fuel
  induction fuel with
  | zero =>
    intro toPos toSize s s' hI h
    unfold applyLoop at h
    split at h
    · cases h
    · cases h; exact hI
  | succ fuel ih =>
    intro toPos toSize s s' hI h
    unfold applyLoop at h
    split at h
    · obtain ⟨⟨n1, s1⟩, h1, h⟩ := W.bind_res_ok h
      have hI1 := processChunks_incomplete inc hI h1
      obtain ⟨⟨n2, s2⟩, h2, h⟩ := W.bind_res_ok h
      have hI2 := processChunks_incomplete inc hI1 h2
      obtain ⟨⟨v, r3⟩, h3, h⟩ := W.bind_res_ok h
      have hI3 := PatchReader.unpackSize_incomplete inc hI2 h3
      obtain ⟨f4, _, h⟩ := W.bind_res_ok h
      exact ih _ _ { s2 with reader := r3, from_ := f4 } _ hI3 h
    · cases h; exact hI

theorem createDataFormatReaders_incomplete {formats fuel} {r : PatchReader D} {f toSize s} (hI : inc.I r.st r.file)
    (h : createDataFormatReaders formats fuel r f toSize = .ok s) : inc.I s.reader.st s.reader.file := by
  simp only [createDataFormatReaders, bind, Except.bind, pure, Except.pure] at h
  split at h
  · cases h
  · next p hp =>
    have h1 := PatchReader.unpackSize_incomplete inc hI hp
    split at h
    · split at h
      · cases h
      · next q hq =>
        have h2 := PatchReader.unpackSize_incomplete inc h1 hq
        split at h
        · cases h
        · next u hu =>
          have h3 := PatchReader.loop_incomplete inc _ _ _ _ _ _ h2 hu
          split at h
          · cases h
          · split at h
            · cases h
            · cases h; exact h3
    · cases h; exact h1

end

theorem body_incomplete (codec : PyCodec) (inc : Incomplete codec.decomp) (formats : Int → Option DataFormat) (fuel : Nat)
    (from_ : PyFile) (rest : Bytes) (toSize n : Int) (hI : inc.I (codec.initDecomp rest.length) rest) :
    (applySequentialBody codec formats fuel from_ rest toSize).res ≠ .ok n := by
  intro h
  unfold applySequentialBody at h
  obtain ⟨s1, h1, h⟩ := W.bind_res_ok h
  have hI1 := createDataFormatReaders_incomplete inc hI h1
  obtain ⟨s2, h2, h⟩ := W.bind_res_ok h
  have hI2 := applyLoop_incomplete inc _ _ _ _ _ hI1 h2
  simp only [inc.noEof hI2, Bool.false_eq_true, if_false] at h
  cases h

end Detools
