import Verif.Proofs.CLzmaHeap
import Verif.Proofs.CLzmaHeapApi
import Verif.Props.CBuilds
/-
C64: the buffers of the LZMA reader. `L` is any liblzma, `A` says which calls of malloc
succeed, `us` is what the process functions ask of the reader: new chunks and requests of 1
to 128 bytes (`Sized`). `life` is init, these uses, and destroy, which finalize calls.
-/
namespace Detools.LzmaHeap

/-- C64. Whatever malloc does, the reader reads and writes only inside its own live blocks,
reads no byte that was not written, frees each block once, ends every call, and after
finalize nothing is left on the heap. -/
theorem C64_safe (L : LzmaLib) (A : Alloc) (us : List Use) (hs : Sized us) :
    ∃ rs res h, life L A us = .ok (rs, res, h) ∧ h.AllFreed := by
  obtain ⟨rs, res, h, -, -, k1, k2, -⟩ := life_ok L A us hs
  exact ⟨rs, res, h, k1, k2⟩

/-- C64. A call returns OUT_OF_MEMORY if and only if malloc failed; it is then the last
call, and the results before it are those there would have been otherwise. -/
theorem C64_out_of_memory (L : LzmaLib) (A : Alloc) (us : List Use) (hs : Sized us) {rs res h} (hl : life L A us = .ok (rs, res, h)) :
    (h.refused = true ↔ .fail OUT_OF_MEMORY ∈ rs) ∧
    (h.refused = true → ∃ before ps a, rs = before ++ [.fail OUT_OF_MEMORY] ∧ plainUses L us { dec := L.start } {} = .ok (ps, a) ∧ before <+: ps) := by
  obtain ⟨rs', res', h', ps, a, k1, -, k3, k4⟩ := life_ok L A us hs
  rw [k1] at hl
  cases hl
  rcases k4 with ⟨m1, before, m2, m3, -⟩ | ⟨m1, -, m3, -⟩
  · exact ⟨⟨fun _ => by rw [m2]; simp, fun _ => m1⟩, fun _ => ⟨before, ps, a, m2, k3, m3⟩⟩
  · exact ⟨⟨fun e => (by rw [m1] at e; cases e), fun e => absurd e m3⟩, fun e => by rw [m1] at e; cases e⟩

/-- C64. If malloc does not fail, the calls return what those of the reader over byte lists
do (Model/CReader), about which the theorems on LZMA patches are, and so does destroy. -/
theorem C64_same (L : LzmaLib) (A : Alloc) (us : List Use) (hs : Sized us) {rs res h} (hl : life L A us = .ok (rs, res, h))
    (hm : h.refused = false) :
    ∃ a, plainUses L us { dec := L.start } {} = .ok (rs, a) ∧ ((∀ e, .fail e ∉ rs) → res = CReader.destroy (.lzma a)) := by
  obtain ⟨rs', res', h', ps, a, k1, -, k3, k4⟩ := life_ok L A us hs
  rw [k1] at hl
  cases hl
  rcases k4 with ⟨m1, -⟩ | ⟨-, m2, -, m4⟩
  · rw [m1] at hm; cases hm
  · exact ⟨a, by rw [m2]; exact k3, m4⟩

/-- C64. Between calls at most two blocks are allocated. -/
theorem C64_two_blocks (L : LzmaLib) (A : Alloc) (us : List Use) (hs : Sized us) {rs s h}
    (hu : uses L A us {} (init L) {} = .ok (rs, s, h)) :
    ∃ p q : Nat, ∀ (i : Nat) cells, h.blocks[i]? = some (some cells) → i = p ∨ i = q := by
  obtain ⟨rs', s', h', ps, a, k1, k2, -⟩ := uses_ok L A us (c := {}) (Rep.start L) (Nat.le_refl 0) rfl
    (by simp only [Chunk.rest, List.drop_zero, List.length_nil]; have := hs.1; omega) hs.2.1 hs.2.2
  rw [k1] at hu
  cases hu
  refine ⟨match s.inputP with | none => 0 | some q => q.1, match s.outputP with | none => 0 | some q => q.1, fun i cells hi => ?_⟩
  rcases k2.only i cells hi with e | e
  · exact .inl (by rw [e])
  · exact .inr (by rw [e])

/-- C64. Why finalize may be called once only: destroy leaves the pointers to the blocks it
freed, and frees them again when it is called again. -/
theorem C64_destroyed_twice :
    (do
      let (_, s, h) ← uses copyLzma (fun _ _ => true) [.chunk { buf := [1, 2, 3] }, .decompress 2] {} (init copyLzma) {}
      let (_, s, h) ← destroy h s
      destroy h s) = .error .badFree := by decide +kernel

/-- C64. The uses meant above are those of the API: after any calls of process and finalize
that give less than 2^64 bytes, the LZMA reader of the object has got where such uses
take it. So whatever malloc does, they are safe and leave nothing on the heap. -/
theorem C64_api [B : Build] (L : LzmaLib) (hL : B.lzma = some L) (E : SeqEnv σ) (patchSize : Nat) (w : World σ) (calls : List Call)
    (hc : fed calls < 2 ^ 64) {rs s w' a} (hr : runCalls E (applyPatchInit patchSize) w calls = .ok (rs, s, w')) (ha : s.reader = some (.lzma a)) :
    ∃ us ps, Sized us ∧ given us ≤ fed calls ∧ plainUses L us { dec := L.start } {} = .ok (ps, a) ∧
      ∀ A, ∃ rs res h, life L A us = .ok (rs, res, h) ∧ h.AllFreed := by
  obtain ⟨us, ps, k1, k2⟩ := (seq_calls hL calls (seq_start patchSize) hr).past a ha
  rw [Nat.zero_add] at k1
  have hs : Sized us := ⟨by have := k1.1; omega, k1.2⟩
  exact ⟨us, ps, hs, k1.1, k2, fun A => C64_safe L A us hs⟩

/-- C64. The same for the in-place API. -/
theorem C64_api_in_place [B : Build] (L : LzmaLib) (hL : B.lzma = some L) (E : MemEnv σ) (patchSize : Nat) (w : MWorld σ) (calls : List Call)
    (hc : fed calls < 2 ^ 64) {rs s w' a} (hr : runInPlaceCalls E (inPlaceInit patchSize) w calls = .ok (rs, s, w'))
    (ha : s.reader = some (.lzma a)) :
    ∃ us ps, Sized us ∧ given us ≤ fed calls ∧ plainUses L us { dec := L.start } {} = .ok (ps, a) ∧
      ∀ A, ∃ rs res h, life L A us = .ok (rs, res, h) ∧ h.AllFreed := by
  obtain ⟨us, ps, k1, k2⟩ := (ip_calls hL calls (ip_start patchSize) hr).past a ha
  rw [Nat.zero_add] at k1
  have hs : Sized us := ⟨by have := k1.1; omega, k1.2⟩
  exact ⟨us, ps, hs, k1.1, k2, fun A => C64_safe L A us hs⟩

-- An LZMA patch (0x01, to-size 3, extra bytes "abc") in two pieces: the object has an LZMA
-- reader, and the update is done.
example :
    (letI := copyBuild
     runCalls (σ := Unit) { fromRead := fun _ _ => (0, [], ()), fromSeek := fun _ _ => (0, ()), toWrite := fun _ _ => (0, ()) }
       (applyPatchInit 9) { arg := (), trace := [] } [.process [0x01, 3, 0, 0], .process [3, 97, 98, 99, 0], .finalize]).map
      (fun r => (r.1, r.2.1.state == .done, match r.2.1.reader with | some (.lzma a) => some (a.input, a.output) | _ => none)) =
    .ok ([0, 0, 3], true, some ([], [])) := by decide +kernel

-- Five bytes in two chunks are asked for in three requests, with malloc always successful and
-- with the third and then the fourth call failing.
def heapUses : List Use := [.chunk { buf := [9, 1, 2], offset := 1 }, .decompress 1, .decompress 3, .chunk { buf := [3, 4, 5] }, .decompress 3, .decompress 1]

example : Sized heapUses := by
  refine ⟨by decide, fun c hc => ?_, fun n hn => ?_⟩
  · simp only [heapUses, List.mem_cons, Use.chunk.injEq, reduceCtorEq, false_or, or_false, List.not_mem_nil] at hc
    rcases hc with rfl | rfl <;> decide
  · simp only [heapUses, List.mem_cons, Use.decompress.injEq, reduceCtorEq, false_or, or_false, List.not_mem_nil] at hn
    omega

example : (life copyLzma (fun _ _ => true) heapUses).map (fun r => (r.1, r.2.1, r.2.2.refused)) =
    .ok ([.ok [1], .more, .ok [2, 3, 4], .ok [5]], 0, false) := by decide +kernel
example : (life copyLzma (fun _ _ => true) heapUses).map (fun r => r.2.2.blocks.length) = .ok 6 := by decide +kernel
example : (life copyLzma (fun i _ => i ≠ 2) heapUses).map (fun r => (r.1, r.2.2.blocks)) =
    .ok ([.ok [1], .fail OUT_OF_MEMORY], [none, none]) := by decide +kernel
example : (life copyLzma (fun i _ => i ≠ 3) heapUses).map (fun r => (r.1, r.2.2.blocks)) =
    .ok ([.ok [1], .more, .fail OUT_OF_MEMORY], [none, none, none]) := by decide +kernel

end Detools.LzmaHeap
