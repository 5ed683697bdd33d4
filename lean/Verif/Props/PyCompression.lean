import Verif.Proofs.HsExample
import Verif.Proofs.PyTrunc
import Verif.Props.Sequential
/-
C43: the classes around heatshrink2, zstandard and lz4. C16 and C17 for heatshrink,
Python side.

The libraries enter as the contracts of Spec/Compression.lean.
-/
namespace Detools

/-- The heatshrink decompressor reads its parameters from the patch. -/
theorem applyBody_heatshrink (L : HsLib) (w l w' l' : Nat) (formats : Int → Option DataFormat) (fuel : Nat) (from_ : PyFile) (rest : Bytes) (n : Int) :
    applySequentialBody (heatshrinkCodec L w l) formats fuel from_ rest n = applySequentialBody (heatshrinkCodec L w' l') formats fuel from_ rest n := rfl

/-- C43, heatshrink. With any supported parameters, a created patch applies, whatever
parameters the applying side would use itself. -/
theorem C43_heatshrink_roundtrip (lib lib' : Lib) (hsa : SuffixArrayInRange lib.suffixArray) (L : HsLib) (hL : L.Ok)
    (w l w' l' : Nat) (hp : HsParams w l) (hlib : lib.codec .heatshrink = heatshrinkCodec L w l)
    (hlib' : lib'.codec .heatshrink = heatshrinkCodec L w' l') (formats : Int → Option DataFormat)
    (fmt : Option DataFormat) (fr to : Bytes) (clamp : Bool) (hto : fr.length + to.length < 2 ^ 31)
    (hfmt : ∀ f, fmt = some f → f.number < 2 ^ 62 ∧ ReadsFormat formats f ∧ f.LosslessOn fr to) :
    ∃ patch, createSequential lib .heatshrink fmt fr to = .ok patch ∧
      ∃ F, ∀ fuel, F ≤ fuel →
        applySequential lib' formats fuel { data := fr, pos := 0, clampSeek := clamp } patch = ⟨to, .ok to.length⟩ := by
  have hc : lib.codecOf .heatshrink = heatshrinkCodec L w l := hlib
  have hc' : lib'.codecOf .heatshrink = heatshrinkCodec L w' l' := hlib'
  obtain ⟨patch, h1, F, h2⟩ := C03_sequential_roundtrip lib hsa formats .heatshrink (hc ▸ hsLossless hL w l hp) fmt fr to clamp hto hfmt
  refine ⟨patch, h1, F, fun fuel hf => ?_⟩
  rw [← h2 fuel hf]
  have hhdr : ∃ rest, patch = packHeader PATCH_TYPE_SEQUENTIAL Compression.heatshrink.toNumber ++ packSize (to.length : Nat) ++ rest := by
    simp only [createSequential, pyPackSize_nat to.length (by omega), bind, Except.bind, pure, Except.pure] at h1
    cases hd : createSequentialData lib (lib.codecOf .heatshrink) fmt fr to with
    | error e => rw [hd] at h1; cases h1
    | ok v => rw [hd] at h1; cases h1; exact ⟨_, rfl⟩
  obtain ⟨rest, rfl⟩ := hhdr
  simp only [applySequential, readHeaderSequential_ok, W.lift_bind_ok, hc, hc']
  split
  · rfl
  · exact applyBody_heatshrink L w' l' w l formats fuel _ rest _

/-- C43, zstd. -/
theorem C43_zstd_roundtrip (lib : Lib) (hsa : SuffixArrayInRange lib.suffixArray) (L : ZstdLib) (hL : L.Ok)
    (hlib : lib.codec .zstd = zstdCodec L) (formats : Int → Option DataFormat)
    (fmt : Option DataFormat) (fr to : Bytes) (clamp : Bool) (hto : fr.length + to.length < 2 ^ 31)
    (hfmt : ∀ f, fmt = some f → f.number < 2 ^ 62 ∧ ReadsFormat formats f ∧ f.LosslessOn fr to) :
    ∃ patch, createSequential lib .zstd fmt fr to = .ok patch ∧
      ∃ F, ∀ fuel, F ≤ fuel →
        applySequential lib formats fuel { data := fr, pos := 0, clampSeek := clamp } patch = ⟨to, .ok to.length⟩ := by
  have hc : lib.codecOf .zstd = zstdCodec L := hlib
  exact C03_sequential_roundtrip lib hsa formats .zstd (hc ▸ zstdLossless hL) fmt fr to clamp hto hfmt

/-- C43, lz4. -/
theorem C43_lz4_roundtrip (lib : Lib) (hsa : SuffixArrayInRange lib.suffixArray) (L : Lz4Lib) (hL : L.Ok)
    (hlib : lib.codec .lz4 = lz4Codec L) (formats : Int → Option DataFormat)
    (fmt : Option DataFormat) (fr to : Bytes) (clamp : Bool) (hto : fr.length + to.length < 2 ^ 31)
    (hfmt : ∀ f, fmt = some f → f.number < 2 ^ 62 ∧ ReadsFormat formats f ∧ f.LosslessOn fr to) :
    ∃ patch, createSequential lib .lz4 fmt fr to = .ok patch ∧
      ∃ F, ∀ fuel, F ≤ fuel →
        applySequential lib formats fuel { data := fr, pos := 0, clampSeek := clamp } patch = ⟨to, .ok to.length⟩ := by
  have hc : lib.codecOf .lz4 = lz4Codec L := hlib
  exact C03_sequential_roundtrip lib hsa formats .lz4 (hc ▸ lz4Lossless hL) fmt fr to clamp hto hfmt

/-- A zstandard library that does not compress. -/
def plainZstd : ZstdLib where
  compress := id
  σ := Unit
  init := ()
  write := fun _ d => .ok ((), d)

theorem plainZstd_writeAll (pieces : List Bytes) : plainZstd.writeAll () pieces = .ok ((), pieces.flatten) := by
  induction pieces with
  | nil => rfl
  | cons p ps ih => simp only [ZstdLib.writeAll]; rw [show plainZstd.write () p = .ok ((), p) from rfl]; simp [ih]

theorem plainZstd_ok : plainZstd.Ok where
  writes := fun data _ pieces h => ⟨(), by rw [show plainZstd.init = () from rfl, plainZstd_writeAll, h]; rfl⟩
  last := by
    intro data _ pieces z s out h hz hw hout
    rw [show plainZstd.init = () from rfl, plainZstd_writeAll] at hw
    cases hw
    rw [hout, show plainZstd.compress data = data from rfl] at h
    exact hz (by simpa using h)
  nonempty := fun _ h => h

/-- Each byte after a tag; the tag of the last one is 0. -/
def tagEnc : Bytes → Bytes
  | [] => []
  | [b] => [0, b]
  | b :: c :: t => 1 :: b :: tagEnc (c :: t)

structure TagD where
  tag : Option UInt8 := none
  ended : Bool := false
  buf : Bytes := []

def TagD.feed (s : TagD) (x : UInt8) : TagD :=
  if s.ended then s
  else match s.tag with
    | none => { s with tag := some x }
    | some t => { tag := none, ended := t == 0, buf := s.buf ++ [x] }

/-- An lz4 library that does not compress. -/
def plainLz4 : Lz4Lib where
  begin_ := []
  comp := { σ := Bytes, init := [], compress := fun s d => (s ++ d, []), flush := tagEnc }
  decomp :=
    { σ := TagD
      eof := fun s => s.ended && s.buf.isEmpty
      needsInput := fun s => !s.ended && s.buf.isEmpty
      decompress := fun s d size =>
        let s := d.foldl TagD.feed s
        .ok ({ s with buf := s.buf.drop size }, s.buf.take size) }
  initDecomp := {}

/-- `rest` is still to come. -/
def TagD.Comes (s : TagD) (file rest : Bytes) : Prop :=
  (s.ended = true ∧ rest = []) ∨ (s.ended = false ∧ rest ≠ [] ∧ s.tag.toList ++ file = tagEnc rest)

theorem TagD.feed_comes : ∀ (c : Bytes) (s : TagD) (file rest : Bytes), s.Comes (c ++ file) rest →
    ∃ d rest', c.foldl TagD.feed s = { c.foldl TagD.feed s with buf := s.buf ++ d } ∧ rest = d ++ rest' ∧ (c.foldl TagD.feed s).Comes file rest' := by
  intro c
  induction c with
  | nil => intro s file rest h; exact ⟨[], rest, by simp, rfl, h⟩
  | cons x c ih =>
    intro s file rest h
    rw [List.foldl_cons]
    rcases h with ⟨h1, rfl⟩ | ⟨h1, h2, h3⟩
    · rw [show s.feed x = s by simp [feed, h1]]
      exact ih s file [] (.inl ⟨h1, rfl⟩)
    · cases ht : s.tag with
      | none =>
        rw [ht] at h3
        have e : s.feed x = { s with tag := some x } := by simp [feed, h1, ht]
        obtain ⟨d, rest', k1, k2, k3⟩ := ih (s.feed x) file rest (.inr ⟨by rw [e]; exact h1, h2, by rw [e]; simpa using h3⟩)
        exact ⟨d, rest', by rw [e] at k1 ⊢; exact k1, k2, k3⟩
      | some t =>
        rw [ht] at h3
        have e : s.feed x = { tag := none, ended := t == 0, buf := s.buf ++ [x] } := by simp [feed, h1, ht]
        have : ∃ rest1, rest = x :: rest1 ∧ (s.feed x).Comes (c ++ file) rest1 := by
          match rest, h2 with
          | [b], _ =>
            simp [tagEnc] at h3
            exact ⟨[], by rw [h3.2.1], .inl ⟨by rw [e]; simp [h3.1], rfl⟩⟩
          | b :: b' :: r, _ =>
            simp [tagEnc] at h3
            exact ⟨b' :: r, by rw [h3.2.1], .inr ⟨by rw [e]; simp [h3.1], by simp, by rw [e]; simpa using h3.2.2⟩⟩
        obtain ⟨rest1, rfl, hc⟩ := this
        obtain ⟨d, rest', k1, rfl, k3⟩ := ih (s.feed x) file rest1 hc
        refine ⟨x :: d, rest', ?_, rfl, k3⟩
        rw [e] at k1 ⊢
        simpa using k1

theorem plainLz4_run (chunks : List Bytes) : plainLz4.comp.run chunks = tagEnc chunks.flatten := by
  have : ∀ (chunks : List Bytes) (s : Bytes), Compressor.run.go plainLz4.comp s chunks = tagEnc (s ++ chunks.flatten) := by
    intro chunks
    induction chunks with
    | nil => intro s; simp [Compressor.run.go, plainLz4]
    | cons c cs ih =>
      intro s
      rw [run_go_cons plainLz4.comp (show plainLz4.comp.compress s c = (s ++ c, []) from rfl), ih]
      simp
  exact this chunks []

def plainLz4_ok : plainLz4.Ok where
  owes := fun s file out => ∃ rest, out = s.buf ++ rest ∧ TagD.Comes s file rest
  measure := fun _ file => file.length
  eof_iff := by
    rintro s file out ⟨rest, rfl, h⟩
    show (s.ended && s.buf.isEmpty) = true ↔ _
    rcases h with ⟨h, rfl⟩ | ⟨h, h2, _⟩ <;> simp [h, *]
  step := by
    rintro s file out size ⟨rest, rfl, h⟩ hne hs
    have hfile : (!s.ended && s.buf.isEmpty) = true → file ≠ [] := by
      rintro h1 rfl
      rcases h with ⟨h, rfl⟩ | ⟨h, h2, h3⟩
      · simp [h] at h1
      · match rest, h2 with
        | [b], _ => cases ht : s.tag <;> simp [tagEnc, ht] at h3
        | b :: b' :: r, _ => cases ht : s.tag <;> simp [tagEnc, ht] at h3
    refine ⟨hfile, ?_⟩
    have key : ∀ c file', c ++ file' = file → ∃ st' o out', plainLz4.decomp.decompress s c size = .ok (st', o) ∧
        s.buf ++ rest = o ++ out' ∧ o.length ≤ size ∧ (∃ r, out' = st'.buf ++ r ∧ TagD.Comes st' file' r) ∧ (o = [] → s.buf = []) := by
      rintro c file' rfl
      obtain ⟨d, rest', k1, rfl, k3⟩ := TagD.feed_comes c s file' rest h
      have hb : (c.foldl TagD.feed s).buf = s.buf ++ d := by rw [k1]
      refine ⟨_, _, _, rfl, ?_, by simp; omega, ⟨rest', rfl, ?_⟩, ?_⟩
      · have : ∀ b : Bytes, b ++ rest' = b.take size ++ (b.drop size ++ rest') := by
          intro b
          rw [← List.append_assoc, List.take_append_drop]
        have := this (c.foldl TagD.feed s).buf
        rw [hb, List.append_assoc] at this
        rw [hb]
        exact this
      · exact k3
      · rw [hb]
        intro h
        obtain ⟨n, rfl⟩ : ∃ n, size = n + 1 := ⟨size - 1, by omega⟩
        cases hs : s.buf with
        | nil => rfl
        | cons y t => rw [hs] at h; simp at h
    by_cases hn : plainLz4.decomp.needsInput s = true
    · obtain ⟨st', o, out', k1, k2, k3, k4, _⟩ := key (file.take 4096) (file.drop 4096) (List.take_append_drop _ _)
      refine ⟨st', o, out', ?_, k2, k3, ?_, ?_⟩
      · rw [if_pos hn]; exact k1
      · rw [if_pos hn]; exact k4
      · intro _
        rw [if_pos hn, List.length_drop]
        have := List.length_pos_iff.2 (hfile hn)
        omega
    · obtain ⟨st', o, out', k1, k2, k3, k4, k5⟩ := key [] file rfl
      refine ⟨st', o, out', ?_, k2, k3, ?_, ?_⟩
      · rw [if_neg hn]; exact k1
      · rw [if_neg hn]; exact k4
      · intro ho
        exfalso
        have hb := k5 ho
        apply hn
        show (!s.ended && s.buf.isEmpty) = true
        rcases h with ⟨h, rfl⟩ | ⟨h, _⟩
        · simp [hb] at hne
        · simp [h, hb]
  init := by
    intro chunks hne
    refine ⟨chunks.flatten, rfl, .inr ⟨rfl, hne, ?_⟩⟩
    rw [plainLz4_run]
    rfl

/-- Example libraries: every hypothesis above can be met. -/
def exampleLib2 : Lib where
  codec := fun
    | .heatshrink => heatshrinkCodec plainHs 8 7
    | .zstd => zstdCodec plainZstd
    | .lz4 => lz4Codec plainLz4
    | _ => noneCodec
  suffixArray := fun fr => List.range (fr.length + 1)

example : plainHs.Ok ∧ HsParams 8 7 ∧ exampleLib2.codec .heatshrink = heatshrinkCodec plainHs 8 7 ∧ plainZstd.Ok :=
  ⟨plainHs_ok, ⟨by decide, by decide, by decide, by decide⟩, rfl, plainZstd_ok⟩

example : createSequential exampleLib2 .heatshrink none [1, 2] [1, 2, 3] = .ok [4, 3, 68, 128, 64, 160, 16, 8, 12, 14, 0] := by decide +kernel

/-- C16, Python, heatshrink. Every strict prefix of a created patch makes `apply_patch`
raise, whatever the from-data. -/
theorem C16_python_truncated_heatshrink (lib : Lib) (hsa : SuffixArrayInRange lib.suffixArray) (L : HsLib) (hL : L.Ok)
    (w l : Nat) (hp : HsParams w l) (hlib : lib.codec .heatshrink = heatshrinkCodec L w l)
    (formats : Int → Option DataFormat) (fr to patch p z : Bytes) (hto : fr.length + to.length < 2 ^ 31)
    (hcreate : createSequential lib .heatshrink none fr to = .ok patch) (hcut : patch = p ++ z) (hz : z ≠ [])
    (fr' : Bytes) (clamp : Bool) :
    ∃ F out e, e ≠ .timeout ∧ ∀ fuel, F ≤ fuel →
      applySequential lib formats fuel { data := fr', pos := 0, clampSeek := clamp } p = ⟨out, .error e⟩ := by
  have hc : lib.codecOf .heatshrink = heatshrinkCodec L w l := hlib
  obtain ⟨ops, hops, _, hshape⟩ := created_shape lib hsa .heatshrink fr to hto
  rw [hcreate] at hshape
  simp only [Except.ok.injEq] at hshape
  rw [hcut] at hshape
  rcases prefix_cases hshape.symm hz with ⟨z', hz', h⟩ | ⟨p', rfl, hb⟩
  · obtain ⟨e, he⟩ := header_cut .heatshrink _ _ _ h hz'
    exact applySequential_fails_header lib formats _ he
  · have hne : to ≠ [] := by
      intro h
      rw [if_pos h] at hb
      have : z = [] := by simp at hb; exact hb.2
      exact hz this
    rw [if_neg hne, hc, heatshrink_run] at hb
    have hlen : to.length ≠ 0 := by simpa using hne
    have hflat : (packSize 0 :: ops.flatMap Op.chunks).flatten = packSize 0 ++ encodeOps ops := flatten_cons_chunks _ _
    have henc := hL.writes w l hp (packSize 0 :: ops.flatMap Op.chunks)
    rw [hflat] at henc
    have goal : FailsW fun fuel => applySequentialBody (heatshrinkCodec L w l) formats fuel { data := fr', pos := 0, clampSeek := clamp } p' to.length := by
      cases p' with
      | nil =>
        exact body_cut_fails _ (hsSupply hL w l) formats _ rfl [] fr to ops hops [] _ rfl (by simp [packSize_ne_nil]) .empty
      | cons b p'' =>
        simp only [List.cons_append, List.cons.injEq] at hb
        obtain ⟨rfl, hb⟩ := hb
        rw [hb] at henc
        obtain ⟨S, lost, g1, g2, g3⟩ := henc.cut hp hz
        exact body_cut_fails _ (hsSupply hL w l) formats _ rfl _ fr to ops hops _ lost g2 g3 (.start hp g1)
    obtain ⟨F, o, e, he, hF⟩ := goal
    refine ⟨F, o, e, he, fun fuel hf => ?_⟩
    rw [applySequential_created lib formats fuel _ .heatshrink to.length hlen p', hc]
    exact hF fuel hf

/-- C17, Python, heatshrink: four trailing bytes or more are rejected, because they
complete a symbol. Missing: fewer bytes, which may be accepted
(`C17_python_heatshrink_trailing_accepted`). -/
theorem C17_python_trailing_heatshrink_partial (lib : Lib) (hsa : SuffixArrayInRange lib.suffixArray) (L : HsLib) (hL : L.Ok)
    (w l : Nat) (hp : HsParams w l) (hlib : lib.codec .heatshrink = heatshrinkCodec L w l)
    (formats : Int → Option DataFormat) (fr to patch z : Bytes) (hto : fr.length + to.length < 2 ^ 31) (hne : to ≠ [])
    (hcreate : createSequential lib .heatshrink none fr to = .ok patch) (hz : 4 ≤ z.length)
    (fr' : Bytes) (clamp : Bool) :
    ∃ F out e, e ≠ .timeout ∧ ∀ fuel, F ≤ fuel →
      applySequential lib formats fuel { data := fr', pos := 0, clampSeek := clamp } (patch ++ z) = ⟨out, .error e⟩ := by
  have hc : lib.codecOf .heatshrink = heatshrinkCodec L w l := hlib
  obtain ⟨ops, hops, _, hshape⟩ := created_shape lib hsa .heatshrink fr to hto
  rw [hcreate, if_neg hne] at hshape
  simp only [Except.ok.injEq] at hshape
  rw [hc, heatshrink_run] at hshape
  have hlen : to.length ≠ 0 := by simpa using hne
  have hflat : (packSize 0 :: ops.flatMap Op.chunks).flatten = packSize 0 ++ encodeOps ops := flatten_cons_chunks _ _
  have henc := hL.writes w l hp (packSize 0 :: ops.flatMap Op.chunks)
  rw [hflat] at henc
  obtain ⟨extra, S, g1, g2, g3⟩ := henc.extend hp z hz
  obtain ⟨F, o, e, he, hF⟩ := body_more_fails _ (hsSupply hL w l) formats { data := fr', pos := 0, clampSeek := clamp } rfl
    (hsPackHeader w l :: ((L.writer w l).run (packSize 0 :: ops.flatMap Op.chunks) ++ z)) fr to ops hops extra g3
    (by rw [← g2]; exact HsHas.start hp g1)
  refine ⟨F, o, e, he, fun fuel hf => ?_⟩
  rw [hshape, List.append_assoc _ _ z, applySequential_created lib formats fuel _ .heatshrink to.length hlen, hc]
  exact hF fuel hf

/-- C17 is false for heatshrink: a created patch followed by a zero byte is accepted. -/
theorem C17_python_heatshrink_trailing_accepted :
    ∃ patch, createSequential exampleLib2 .heatshrink none [1, 2] [1, 2, 3] = .ok patch ∧
    applySequential exampleLib2 (fun _ => none) 100 { data := [1, 2], pos := 0, clampSeek := true }
      (patch ++ [0]) = ⟨[1, 2, 3], .ok 3⟩ :=
  ⟨[4, 3, 68, 128, 64, 160, 16, 8, 12, 14, 0], by decide +kernel, by decide +kernel⟩

end Detools
