import Verif.Proofs.CSeqDecodes
import Verif.Proofs.CAccept
import Verif.Props.CInPlace
import Verif.Props.CSequential
import Verif.Props.CCallbacks
/-
C08, C16, C17, C19 and C34 for LZMA patches and the C API. What liblzma must do is in
Spec/Lzma.lean.
-/
namespace Detools

/-- C08, LZMA. A patch created in Python is accepted by a C library that is linked to an
LZMA library that decompresses what Python compressed, however it is divided and whatever
patch size was announced, and rebuilds exactly the to-data. -/
theorem C08_c_applies_created_lzma [Build] (lib : Lib) (hsa : SuffixArrayInRange lib.suffixArray) (hlib : LzmaLinked lib)
    (fr to : Bytes) (hfr : fr.length < 2 ^ 27) (hto : to.length < 2 ^ 27)
    (patch : Bytes) (hcreate : createSequential lib .lzma none fr to = .ok patch)
    (pieces : List Bytes) (hpieces : pieces.flatten = patch) (patchSize : Nat) :
    CAccepts fr patchSize pieces to.length to := by
  obtain ⟨L, hL, hd⟩ := hlib
  obtain ⟨ops, hops, hsm, hshape⟩ := created_shape_all lib hsa fr to (by omega)
  rw [hshape .lzma] at hcreate
  have hpatch := Except.ok.inj hcreate
  obtain ⟨b, h1, h2, h3⟩ := unpackHeader_packHeader PATCH_TYPE_SEQUENTIAL 1 (by decide) (by decide)
  have hb : b = 1 := by
    have : packHeader PATCH_TYPE_SEQUENTIAL 1 = [1] := by decide
    rw [this] at h1
    cases h1; rfl
  subst hb
  refine seq_decodes (comp := 1) (ops := ops) (body := if to = [] then [] else (lib.codecOf .lzma).comp.run (packSize 0 :: ops.flatMap Op.chunks))
    ⟨hfr, hto, by decide, hops, fun op ho => by have := (hsm op ho).2.2; omega, ?_⟩ 1 (by decide) (by decide) pieces ?_ patchSize
  · refine ⟨.lzma { dec := L.start }, by simp [CReader.init, hL], trivial, by simp [CReader.backlog, hL, L.held_start], L, hL, ?_⟩
    by_cases hne : to = []
    · rw [if_pos hne, if_pos hne]
      exact .inl ⟨rfl, rfl, rfl⟩
    · rw [if_neg hne, if_neg hne]
      obtain ⟨owes, k1, k2⟩ := hd (packSize 0 :: ops.flatMap Op.chunks)
      rw [flatten_cons_chunks] at k2
      exact .inr ⟨owes, _, k1, k2, rfl, fun _ => rfl⟩
  · rw [hpieces, ← hpatch, show Compression.lzma.toNumber = 1 from rfl, h1]
    simp

/-- C34, LZMA: `detools_apply_patch_filenames` applies it as well. -/
theorem C34_filenames_created_lzma [Build] (lib : Lib) (hsa : SuffixArrayInRange lib.suffixArray) (hlib : LzmaLinked lib)
    (fr to : Bytes) (hfr : fr.length < 2 ^ 27) (hto : to.length < 2 ^ 27)
    (patch : Bytes) (hcreate : createSequential lib .lzma none fr to = .ok patch) (hpl : patch.length < 2 ^ 50)
    (os : Os) (hos : os.Opens fr patch) (hclose : os.closeFrom = 0 ∧ os.closeTo = 0 ∧ os.closePatch = 0) :
    applyPatchFilenames os = .ok (to.length, some to) := by
  have hacc := C08_c_applies_created_lzma lib hsa hlib fr to hfr hto patch hcreate _ (parts512_flatten _ patch (Nat.le_refl _)) patch.length
  rw [(C34_filenames os fr patch hos (by omega)).1 _ _ hacc, if_neg (fun h => h.2 hclose)]

/-! A small decoder that keeps the contract: a byte `b` is coded as `1 b`, and the stream
ends with 0. Like liblzma it takes the mark of the end also when the output buffer is
full. -/

/-- States: 0 a mark is next, 1 a byte is next, 2 the end was seen. -/
def markCode : Nat → Bytes → Nat → LzmaOut
  | st, [], _ => ⟨true, 0, [], st⟩
  | 0, m :: t, room =>
    if m = 1 then let r := markCode 1 t room; { r with used := r.used + 1 }
    else if m = 0 then let r := markCode 2 t room; { r with used := r.used + 1 }
    else ⟨false, 0, [], 0⟩
  | 1, _ :: _, 0 => ⟨true, 0, [], 1⟩
  | 1, b :: t, room + 1 => let r := markCode 0 t room; { r with used := r.used + 1, out := b :: r.out }
  | st, _ :: _, _ => ⟨true, 0, [], st⟩

theorem markCode_bounds : ∀ (input : Bytes) (st room : Nat),
    (markCode st input room).used ≤ input.length ∧ (markCode st input room).out.length ≤ room ∧
      (markCode st input room).out.length ≤ (markCode st input room).used := by
  intro input
  induction input with
  | nil => intro st room; simp [markCode]
  | cons b t ih =>
    intro st room
    match st, room with
    | 0, room =>
      have h1 := ih 1 room
      have h2 := ih 2 room
      rw [markCode]
      by_cases g1 : b = 1
      · simp only [if_pos g1, List.length_cons]; omega
      · rw [if_neg g1]
        by_cases g2 : b = 0
        · simp only [if_pos g2, List.length_cons]; omega
        · simp [if_neg g2]
    | 1, 0 => simp [markCode]
    | 1, room + 1 =>
      have h1 := ih 0 room
      rw [markCode]
      simp only [List.length_cons]; omega
    | st + 2, room => simp [markCode]

def markLzma : LzmaLib where
  start := 0
  code := markCode
  held _ := 0
  used_le st input room := (markCode_bounds input st room).1
  out_le st input room := (markCode_bounds input st room).2.1
  held_start := rfl
  bounded st input room := by have := (markCode_bounds input st room).2.2; omega

/-- The code of some data. -/
def markEnc (data : Bytes) : Bytes := data.flatMap (fun b => [1, b]) ++ [0]

/-- What the decoder owes. -/
def markOwes (st : Nat) (stream data : Bytes) : Prop :=
  (st = 0 ∧ stream = markEnc data) ∨ (st = 1 ∧ ∃ b d, data = b :: d ∧ stream = b :: markEnc d) ∨ (st = 2 ∧ stream = [] ∧ data = [])

theorem markCode_keeps : ∀ (input later : Bytes) (st room : Nat) (data : Bytes), markOwes st (input ++ later) data →
    (markCode st input room).good = true ∧ ∃ data', data = (markCode st input room).out ++ data' ∧
      markOwes (markCode st input room).st (input.drop (markCode st input room).used ++ later) data' ∧
      ((markCode st input room).out.length < room ∨ data' = [] → (markCode st input room).used = input.length) := by
  intro input
  induction input with
  | nil =>
    intro later st room data h
    unfold markCode
    exact ⟨rfl, data, rfl, h, fun _ => rfl⟩
  | cons b t ih =>
    intro later st room data h
    rcases h with ⟨rfl, h⟩ | ⟨rfl, b', d, rfl, h⟩ | ⟨_, h, _⟩
    · cases data with
      | nil =>
        simp only [markEnc, List.flatMap_nil, List.nil_append, List.cons_append, List.cons.injEq, List.append_eq_nil_iff] at h
        obtain ⟨rfl, rfl, rfl⟩ := h
        simp [markCode, markOwes]
      | cons x d =>
        simp only [markEnc, List.flatMap_cons, List.cons_append, List.nil_append, List.cons.injEq] at h
        obtain ⟨rfl, h⟩ := h
        obtain ⟨g1, d', g2, g3, g4⟩ := ih later 1 room (x :: d) (.inr (.inl ⟨rfl, x, d, rfl, by rw [h]; rfl⟩))
        unfold markCode
        simp only [if_true]
        exact ⟨g1, d', g2, g3, fun h => by rw [g4 h]; rfl⟩
    · simp only [List.cons_append, List.cons.injEq] at h
      obtain ⟨rfl, h⟩ := h
      cases room with
      | zero =>
        unfold markCode
        refine ⟨rfl, b :: d, rfl, .inr (.inl ⟨rfl, b, d, rfl, ?_⟩), fun h => ?_⟩
        · simp [h]
        · simp at h
      | succ room =>
        obtain ⟨g1, d', g2, g3, g4⟩ := ih later 0 room d (.inl ⟨rfl, h⟩)
        unfold markCode
        refine ⟨g1, d', ?_, g3, fun h => ?_⟩
        · simp only [List.cons_append]
          rw [← g2]
        · simp only [List.length_cons] at h ⊢
          rw [g4 (h.imp (fun h => by omega) id)]
    · cases h

/-- A library with the compressor of this code, and a build with its decoder. -/
def markLib : Lib where
  codec := fun
    | .lzma => { noneCodec with comp := { σ := Unit, init := (), compress := fun _ d => ((), d.flatMap (fun b => [1, b])), flush := fun _ => [0] } }
    | _ => noneCodec
  suffixArray := exampleLib.suffixArray

@[reducible] def markBuild : Build := ⟨some markLzma⟩

theorem markRun (pieces : List Bytes) : (markLib.codec .lzma).comp.run pieces = markEnc pieces.flatten := by
  have h : ∀ (pieces : List Bytes), Compressor.run.go (markLib.codec .lzma).comp () pieces = markEnc pieces.flatten := by
    intro pieces
    induction pieces with
    | nil => rfl
    | cons p ps ih =>
      show p.flatMap (fun b => [1, b]) ++ Compressor.run.go (markLib.codec .lzma).comp () ps = _
      rw [ih]
      simp [markEnc]
  exact h pieces

theorem markLinked : @LzmaLinked markBuild markLib := by
  refine ⟨markLzma, rfl, fun pieces => ⟨markOwes, ⟨fun st input later data room h _ _ => markCode_keeps input later st room data h, ?_⟩, ?_⟩⟩
  · intro st data h
    rcases h with ⟨_, h⟩ | ⟨_, _, _, _, h⟩ | ⟨_, _, h⟩
    · have := congrArg List.length h
      simp [markEnc] at this
    · cases h
    · exact h
  · exact .inl ⟨rfl, markRun pieces⟩

attribute [local instance] markBuild

theorem accepts_of {fr : Bytes} {P : Nat} {pieces : List Bytes} {n : Nat} {out : Bytes}
    (h : (applyPieces (fileEnv fr) P { arg := {} } pieces).map (fun r => (r.1, r.2.2.arg.out)) = .ok ((n : Int), out)) :
    CAccepts fr P pieces n out := by
  cases hx : applyPieces (fileEnv fr) P { arg := {} } pieces with
  | error e => rw [hx] at h; cases h
  | ok r =>
    obtain ⟨m, s, w⟩ := r
    rw [hx] at h
    cases h
    exact ⟨s, w, hx, by omega, rfl⟩

-- A patch created with LZMA, applied in two divisions.
example : createSequential markLib .lzma none [1, 2] [1, 2, 3] = .ok [1, 3, 1, 0, 1, 2, 1, 0, 1, 0, 1, 1, 1, 3, 1, 0, 0] ∧
    (applyPieces (fileEnv [1, 2]) 17 { arg := {} } [[1, 3, 1, 0, 1, 2, 1, 0, 1, 0, 1, 1, 1, 3, 1, 0, 0]]).map (fun r => (r.1, r.2.2.arg.out)) =
      .ok (3, [1, 2, 3]) ∧
    (applyPieces (fileEnv [1, 2]) 0 { arg := {} } [[1], [3, 1, 0, 1, 2], [], [1, 0, 1, 0, 1, 1, 1], [3, 1, 0], [0]]).map
      (fun r => (r.1, r.2.2.arg.out)) = .ok (3, [1, 2, 3]) := by
  refine ⟨?_, ?_, ?_⟩ <;> decide +kernel

example : applyPatchFilenames { from_ := some [1, 2], patch := some [1, 3, 1, 0, 1, 2, 1, 0, 1, 0, 1, 1, 1, 3, 1, 0, 0] } =
    .ok (3, some [1, 2, 3]) := by decide +kernel

/-- C16 does not hold for LZMA: the C library does not look for the end of the LZMA
stream. Here the last byte of a created patch, which marks this end, is missing. -/
theorem C16_c_truncated_lzma_accepted : ∃ (B : Build) (lib : Lib), @LzmaLinked B lib ∧ SuffixArrayInRange lib.suffixArray ∧
    ∃ (p z : Bytes), z ≠ [] ∧ createSequential lib .lzma none [1, 2] [1, 2, 3] = .ok (p ++ z) ∧
      @CAccepts B [1, 2] p.length [p] 3 [1, 2, 3] := by
  refine ⟨markBuild, markLib, markLinked, exampleLib_inRange, [1, 3, 1, 0, 1, 2, 1, 0, 1, 0, 1, 1, 1, 3, 1, 0], [0], by simp, by decide +kernel, ?_⟩
  exact accepts_of (by decide +kernel)

/-- C09 and C17 for LZMA: data after the end of a created patch is not noticed if it comes
in a piece of its own, and is an error if it comes in the same piece. -/
theorem C17_c_trailing_lzma_piece : ∃ (B : Build) (lib : Lib), @LzmaLinked B lib ∧ SuffixArrayInRange lib.suffixArray ∧
    ∃ (patch z : Bytes), z ≠ [] ∧ createSequential lib .lzma none [1, 2] [1, 2, 3] = .ok patch ∧
      @CAccepts B [1, 2] (patch ++ z).length [patch, z] 3 [1, 2, 3] ∧
      ∀ n out, ¬ @CAccepts B [1, 2] (patch ++ z).length [patch ++ z] n out := by
  refine ⟨markBuild, markLib, markLinked, exampleLib_inRange, [1, 3, 1, 0, 1, 2, 1, 0, 1, 0, 1, 1, 1, 3, 1, 0, 0], [0xde, 0xad], by simp, by decide +kernel, ?_, ?_⟩
  · exact accepts_of (by decide +kernel)
  · rintro n out ⟨s, w, h1, h2, _⟩
    have h : (applyPieces (fileEnv [1, 2]) 19 { arg := {} } [[1, 3, 1, 0, 1, 2, 1, 0, 1, 0, 1, 1, 1, 3, 1, 0, 0, 0xde, 0xad]]).map (·.1) = .ok CORRUPT_PATCH := by
      decide +kernel
    have h1' : applyPieces (fileEnv [1, 2]) 19 { arg := {} } [[1, 3, 1, 0, 1, 2, 1, 0, 1, 0, 1, 1, 1, 3, 1, 0, 0, 0xde, 0xad]] = .ok (n, s, w) := h1
    rw [h1'] at h
    cases h
    exact absurd h2 (by decide)

/-- An in-place patch with LZMA. -/
def exampleLzmaInPlace : Bytes := [17, 12, 2, 6, 5, 7] ++ markEnc (exampleInPlacePatch.drop 6)

theorem exampleDevice_lzma : DevicePatch markLib .lzma 12 2 (some 2) [1, 2, 3, 4, 5] [1, 2, 3, 9, 4, 5, 6] exampleLzmaInPlace where
  created := by decide +kernel
  comp := .inr (.inr (.inr ⟨rfl, markLinked⟩))
  plain := by
    have h : createInPlace markLib .none (12 : Nat) (2 : Nat) ((some 2).map Int.ofNat) none [1, 2, 3, 4, 5] [1, 2, 3, 9, 4, 5, 6] = .ok exampleInPlacePatch := by
      decide +kernel
    intro plain hp
    rw [h] at hp
    cases hp
    decide
  segPos := by decide
  segLe := by decide
  shift := by decide
  room := by decide
  fits := by decide
  small := by decide
  size := by decide

-- Power lost in an erase, then a complete update.
example :
    (inPlacePieces (flashEnv { limit := some 12, junk := fun _ _ _ => 170 } true) 29 (powerOn exampleDevice) [exampleLzmaInPlace]).map
        (fun r => (r.1, r.2.2.arg, stepsSet r.2.2.trace)) =
      .ok (-1, { mem := [1, 2, 170, 170, 5, 255, 1, 2, 3, 4, 5, 255], step := 4, ops := 13 }, [1, 2, 3, 4]) ∧
    (inPlacePieces (flashEnv {} true) 29 (powerOn { mem := [1, 2, 170, 170, 5, 255, 1, 2, 3, 4, 5, 255], step := 4, ops := 13 })
        [exampleLzmaInPlace.take 9, exampleLzmaInPlace.drop 9]).map (fun r => (r.1, r.2.2.arg.mem, stepsSet r.2.2.trace)) =
      .ok (7, [1, 2, 3, 9, 4, 5, 6, 2, 3, 4, 5, 255], [5, 6, 0]) := by
  refine ⟨?_, ?_⟩ <;> decide +kernel

end Detools
