import Verif.Model.CLzmaHeap
import Verif.Spec.CApi
/-
What C64 says about the LZMA reader on the heap.
-/
namespace Detools.LzmaHeap

/-- The bytes given in chunks. -/
def given : List Use → Nat
  | [] => 0
  | .chunk c :: us => (c.buf.length - c.offset) + given us
  | .decompress _ :: us => given us

/-- Requests are for at least one byte and at most 128, as all are that the process
functions make, the offset of a chunk is not behind its end, and the chunks are less than
2^64 bytes together. -/
def Sized (us : List Use) : Prop :=
  given us < 2 ^ 64 ∧ (∀ c, Use.chunk c ∈ us → c.offset ≤ c.buf.length) ∧ ∀ size, Use.decompress size ∈ us → 0 < size ∧ size ≤ 128

/-- All that was allocated has been freed. -/
def Heap.AllFreed (h : Heap) : Prop := ∀ b ∈ h.blocks, b = none

/-- The same uses of the reader over byte lists (Model/CReader), which has no heap. -/
def plainUses (L : LzmaLib) : List Use → CLzma → Chunk → C (List DRes × CLzma)
  | [], a, _ => .ok ([], a)
  | .chunk c :: us, a, _ => plainUses L us a c
  | .decompress size :: us, a, c => do
    let (r, a, c) ← lzmaDecompress L a c size size
    match r with
    | .fail e => .ok ([.fail e], a)
    | r => do
      let (rs, a) ← plainUses L us a c
      .ok (r :: rs, a)

/-- The patch bytes given to process. -/
def fed : List Call → Nat
  | [] => 0
  | .process p :: cs => p.length + fed cs
  | .finalize :: cs => fed cs

end Detools.LzmaHeap
