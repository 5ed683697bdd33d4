import Verif.Props.CHeatshrink
/-
C46: what a build of the C library with LZMA changes.
-/
namespace Detools

/-- A decoder that copies its input, in place of liblzma in examples. -/
def copyLzma : LzmaLib where
  start := 0
  code _ input room := ⟨true, min room input.length, input.take room, 0⟩
  held _ := 0
  used_le _ input room := Nat.min_le_right _ _
  out_le _ input room := by simp only [List.length_take]; omega
  held_start := rfl
  bounded _ input room := by simp only [List.length_take]; omega

/-- A build with this decoder. -/
@[reducible] def copyBuild : Build := ⟨some copyLzma⟩

/-- C46: whatever the builds, the callbacks and the calls, if the first byte of the patch
does not select LZMA, the calls of the sequential API return the same values, make the
same callbacks and leave the object in the same state. -/
theorem C46_same_without_lzma (B1 B2 : Build) (E : SeqEnv σ) (patchSize : Nat) (arg : σ) (calls : List Call)
    (hz : ∀ b t, fedBytes calls = b :: t → b.toNat &&& 0xf ≠ 1) :
    @runCalls B1 σ E (applyPatchInit patchSize) { arg := arg } calls = @runCalls B2 σ E (applyPatchInit patchSize) { arg := arg } calls :=
  runCalls_any (B := B1) (B2 := B2) E calls (fed := []) (@HS.start B1 patchSize) trivial hz

example : ∀ b t, fedBytes [.process [0x00, 0x01, 0x00], .process [0x01, 0xff], .finalize] = b :: t → b.toNat &&& 0xf ≠ 1 := by
  intro b t h
  cases h
  decide

/-- C46: the same for an update as a whole: feeding all pieces and finalize. -/
theorem C46_update_same (B1 B2 : Build) (fr : Bytes) (patchSize : Nat) (pieces : List Bytes) (n : Int) (out : Bytes)
    (hz : ∀ b t, pieces.flatten = b :: t → b.toNat % 16 ≠ 1) :
    @CAccepts B1 fr patchSize pieces n out ↔ @CAccepts B2 fr patchSize pieces n out := by
  rw [@caccepts_noLzma B1 _ _ _ _ _ (.inr hz), @caccepts_noLzma B2 _ _ _ _ _ (.inr hz)]

example : ∀ b t, ([[0x02, 0x05], [0x01]] : List Bytes).flatten = b :: t → b.toNat % 16 ≠ 1 := by
  intro b t h
  cases h
  decide

/-- C46: a patch that selects LZMA is accepted by no build without it. -/
theorem C46_lzma_needed [Build] (hoff : Build.lzma = none) (fr : Bytes) (patchSize : Nat) (pieces : List Bytes) (n : Int) (out : Bytes)
    (b : UInt8) (t : Bytes) (hp : pieces.flatten = b :: t) (hz : b.toNat % 16 = 1) : ¬ CAccepts fr patchSize pieces n out := by
  intro h
  obtain ⟨c, v, rest, hh, hc, _⟩ := caccepts_header h
  obtain ⟨b', t', _, _, e', _, h2, _⟩ := hh
  rw [hp] at e'
  cases e'
  rw [h2] at hz
  subst hz
  rcases hc with h | h | h | ⟨_, h⟩
  · cases h
  · cases h
  · cases h
  · exact h hoff

/-- The builds do differ: this patch is accepted where LZMA is built in. -/
theorem C46_builds_differ :
    @CAccepts copyBuild [] 7 [[0x01, 0x01, 0x00, 0x00, 0x01, 0x41, 0x00]] 1 [0x41] ∧
    ¬ @CAccepts noLzma [] 7 [[0x01, 0x01, 0x00, 0x00, 0x01, 0x41, 0x00]] 1 [0x41] := by
  constructor
  · have h : (@applyPieces copyBuild _ (fileEnv []) 7 { arg := {} } [[0x01, 0x01, 0x00, 0x00, 0x01, 0x41, 0x00]]).map (fun r => (r.1, r.2.2.arg.out)) =
        .ok (1, [0x41]) := by decide +kernel
    cases hr : @applyPieces copyBuild _ (fileEnv []) 7 { arg := {} } [[0x01, 0x01, 0x00, 0x00, 0x01, 0x41, 0x00]] with
    | error u => rw [hr] at h; cases h
    | ok r =>
      rw [hr] at h
      obtain ⟨n, s, w⟩ := r
      injection h with h
      injection h with h1 h2
      have h1 : n = 1 := h1
      subst h1
      exact ⟨s, w, hr, by decide, h2⟩
  · exact @C46_lzma_needed noLzma rfl _ _ _ _ _ _ _ rfl (by decide)

end Detools
