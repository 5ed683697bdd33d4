import Verif.Model.CReader
/-
Model of the LZMA patch reader of the C library with its two heap buffers: `malloc` may
fail, `free`, and every access to memory is checked. c/detools.c:389-576. `Model/CReader`
has the same functions over byte lists, without a heap; that they do the same is C64.
-/
namespace Detools.LzmaHeap

/-- What a program must not do: read or write outside a block, or through a pointer to no
block, read a byte that was not written, free what is not an allocated block. `endless` is
a loop that does not end. -/
inductive Wrong where
  | outside | dangling | uninit | badFree | endless
deriving DecidableEq, Repr

/-- c/detools.h:74. -/
def OUT_OF_MEMORY : Int := -8

abbrev H (α : Type) := Except Wrong α

/-- The heap: the blocks in the order they were allocated, `none` once freed, the bytes of a
block `none` until written, how often malloc was called, and whether a call failed. -/
structure Heap where
  blocks : List (Option (List (Option UInt8))) := []
  mallocs : Nat := 0
  refused : Bool := false
deriving DecidableEq, Repr

/-- A pointer: NULL, or a block and an offset in it. -/
abbrev Ptr := Option (Nat × Nat)

/-- `p + n` -/
def Ptr.add (p : Ptr) (n : Nat) : Ptr := p.map fun q => (q.1, q.2 + n)

/-- Which calls of malloc succeed: the number of the call and the size. -/
abbrev Alloc := Nat → Nat → Bool

/-- `malloc` -/
def Heap.malloc (A : Alloc) (h : Heap) (n : Nat) : Option Nat × Heap :=
  if A h.mallocs n then (some h.blocks.length, { h with blocks := h.blocks ++ [some (List.replicate n none)], mallocs := h.mallocs + 1 })
  else (none, { h with mallocs := h.mallocs + 1, refused := true })

/-- `free` -/
def Heap.free (h : Heap) : Ptr → H Heap
  | none => .ok h
  | some (b, off) =>
    match h.blocks[b]? with
    | some (some _) => if off = 0 then .ok { h with blocks := h.blocks.set b none } else .error .badFree
    | _ => .error .badFree

/-- The cells of the block a pointer is to. -/
def Heap.cells (h : Heap) : Ptr → H (List (Option UInt8))
  | none => .error .dangling
  | some (b, _) =>
    match h.blocks[b]? with
    | some (some cells) => .ok cells
    | _ => .error .dangling

/-- The offset of a pointer in its block. -/
def Ptr.off : Ptr → Nat
  | none => 0
  | some (_, off) => off

/-- The bytes of cells that were all written. -/
def written : List (Option UInt8) → Option Bytes
  | [] => some []
  | none :: _ => none
  | some b :: l => (written l).map (b :: ·)

/-- Read `n` bytes. -/
def Heap.load (h : Heap) (p : Ptr) (n : Nat) : H Bytes := do
  let cells ← h.cells p
  if cells.length < p.off + n then .error .outside
  else
    match written ((cells.drop p.off).take n) with
    | none => .error .uninit
    | some data => .ok data

/-- Write bytes. -/
def Heap.store (h : Heap) (p : Ptr) (data : Bytes) : H Heap := do
  let cells ← h.cells p
  if cells.length < p.off + data.length then .error .outside
  else
    match p with
    | none => .error .dangling
    | some (b, off) => .ok { h with blocks := h.blocks.set b (some (cells.take off ++ data.map some ++ cells.drop (off + data.length))) }

/-- `memcpy` and `memmove` of `n` bytes on the heap. -/
def Heap.copy (h : Heap) (dst src : Ptr) (n : Nat) : H Heap := do
  let data ← h.load src n
  h.store dst data

/-- `struct detools_apply_patch_patch_reader_lzma_t` with the members of `lzma_stream` it
uses; `dec` is the state of the decoder, `none` when it was ended. c/detools.h:227-232. -/
structure Reader where
  dec : Option Nat
  nextIn : Ptr := none
  availIn : Nat := 0
  nextOut : Ptr := none
  availOut : Nat := 0
  inputP : Ptr := none
  outputP : Ptr := none
  outputSize : Nat := 0
deriving DecidableEq, Repr

/-- `patch_reader_lzma_init` when `lzma_alone_decoder` succeeds. c/detools.c:554-574. -/
def init (L : LzmaLib) : Reader := { dec := some L.start }

/-- `get_decompressed_data`: `none` is the return value 1, otherwise the bytes put in the
buffer of the caller. c/detools.c:391-410. -/
def get (h : Heap) (s : Reader) (size : Nat) : H (Option Bytes × Reader × Heap) :=
  if s.outputSize ≥ size then do
    let data ← h.load s.outputP size
    let h ← h.copy s.outputP (s.outputP.add size) (s.outputSize - size)
    .ok (some data, { s with outputSize := s.outputSize - size }, h)
  else .ok (none, s, h)

/-- Move what is left of the input to the new block `p` and free the old one.
c/detools.c:431-434. -/
def moveInput (h : Heap) (s : Reader) (p : Nat) : H Heap :=
  match s.nextIn with
  | none => .ok h
  | some q => do
    let h ← h.copy (some (p, 0)) (some q) s.availIn
    h.free s.inputP

/-- `prepare_input_buffer`: the whole chunk is read. c/detools.c:412-444. -/
def prepareInput (A : Alloc) (h : Heap) (s : Reader) (c : Chunk) : H (Int × Reader × Heap × Chunk) :=
  if c.left = 0 then .ok (1, s, h, c)
  else
    match h.malloc A (sz (s.availIn + c.left)) with
    | (none, h) => .ok (OUT_OF_MEMORY, s, h, c)
    | (some p, h) => do
      let h ← moveInput h s p
      if c.buf.length < c.offset + c.left then .error .outside
      else
        let h ← h.store (some (p, s.availIn)) ((c.buf.drop c.offset).take c.left)
        .ok (0, { s with inputP := some (p, 0), nextIn := some (p, 0), availIn := sz (s.availIn + c.left) }, h,
          { c with offset := c.offset + c.left })

/-- Move the output not read yet to the new block `p` and free the old one.
c/detools.c:460-463. -/
def moveOutput (h : Heap) (s : Reader) (p : Nat) : H Heap :=
  match s.outputP with
  | none => .ok h
  | some q => do
    let h ← h.copy (some (p, 0)) (some q) s.outputSize
    h.free s.outputP

/-- `prepare_output_buffer`. c/detools.c:446-470. -/
def prepareOutput (A : Alloc) (h : Heap) (s : Reader) (size : Nat) : H (Int × Reader × Heap) :=
  match h.malloc A size with
  | (none, h) => .ok (OUT_OF_MEMORY, s, h)
  | (some p, h) => do
    let h ← moveOutput h s p
    .ok (0, { s with outputP := some (p, 0), nextOut := some (p, s.outputSize), availOut := szOfInt ((size : Int) - s.outputSize) }, h)

/-- `lzma_code(&stream, LZMA_RUN)`: the library may read `avail_in` bytes and write
`avail_out` bytes. Whether it returned LZMA_OK or LZMA_STREAM_END. -/
def code (L : LzmaLib) (h : Heap) (s : Reader) : H (Bool × Reader × Heap) :=
  match s.dec with
  | none => .error .dangling
  | some dec => do
    let input ← h.load s.nextIn s.availIn
    let cells ← h.cells s.nextOut
    if cells.length < s.nextOut.off + s.availOut then .error .outside
    else
      let r := L.code dec input s.availOut
      let h ← h.store s.nextOut r.out
      .ok (r.good, { s with
        dec := some r.st
        nextIn := s.nextIn.add r.used
        availIn := s.availIn - r.used
        nextOut := s.nextOut.add r.out.length
        availOut := s.availOut - r.out.length }, h)

/-- The first half of a pass of the loop of `patch_reader_lzma_decompress`: decompress if
there is input. c/detools.c:491-512. -/
def step (L : LzmaLib) (A : Alloc) (h : Heap) (s : Reader) (size : Nat) : H (Int × Reader × Heap) :=
  if s.availIn > 0 then do
    let (res, s, h) ← prepareOutput A h s size
    if res ≠ 0 then .ok (res, s, h)
    else
      let (good, s, h) ← code L h s
      if good then .ok (0, { s with outputSize := s.nextOut.off - s.outputP.off }, h)
      else .ok (LZMA_DECODE, s, h)
  else .ok (0, s, h)

/-- The `while (1)` loop of `patch_reader_lzma_decompress`. c/detools.c:490-527. -/
def loop (L : LzmaLib) (A : Alloc) : (fuel : Nat) → Heap → Reader → Chunk → (size : Nat) → H (DRes × Reader × Heap × Chunk)
  | 0, _, _, _, _ => .error .endless
  | fuel + 1, h, s, c, size => do
    let (res, s, h) ← step L A h s size
    if res ≠ 0 then .ok (.fail res, s, h, c)
    else
      let (data, s, h) ← get h s size
      match data with
      | some data => .ok (.ok data, s, h, c)
      | none =>
        let (res, s, h, c) ← prepareInput A h s c
        if res = 1 then .ok (.more, s, h, c)
        else if res ≠ 0 then .ok (.fail res, s, h, c)
        else loop L A fuel h s c size

/-- `patch_reader_lzma_decompress`. The loop makes at most two passes.
c/detools.c:472-528. -/
def decompress (L : LzmaLib) (A : Alloc) (h : Heap) (s : Reader) (c : Chunk) (size : Nat) : H (DRes × Reader × Heap × Chunk) := do
  let (data, s, h) ← get h s size
  match data with
  | some data => .ok (.ok data, s, h, c)
  | none => loop L A 3 h s c size

/-- `patch_reader_lzma_destroy`: the pointers are left as they are. `lzma_end` of an ended
stream does nothing. c/detools.c:530-552. -/
def destroy (h : Heap) (s : Reader) : H (Int × Reader × Heap) := do
  let h ← h.free s.inputP
  let h ← h.free s.outputP
  .ok (if s.availIn = 0 ∧ s.outputSize = 0 then 0 else CORRUPT_PATCH, { s with dec := none }, h)

/-- What the process functions do with the reader: a new chunk of the patch is given, or
`size` bytes are asked for. -/
inductive Use where
  | chunk (c : Chunk)
  | decompress (size : Nat)
deriving DecidableEq, Repr

/-- Uses of a reader in order, with the results of the calls of decompress: none is made
after a negative one, as the object is then failed (c/detools.c:1360-1362, 2111-2113). -/
def uses (L : LzmaLib) (A : Alloc) : List Use → Heap → Reader → Chunk → H (List DRes × Reader × Heap)
  | [], h, s, _ => .ok ([], s, h)
  | .chunk c :: us, h, s, _ => uses L A us h s c
  | .decompress size :: us, h, s, c => do
    let (r, s, h, c) ← decompress L A h s c size
    match r with
    | .fail e => .ok ([.fail e], s, h)
    | r => do
      let (rs, s, h) ← uses L A us h s c
      .ok (r :: rs, s, h)

/-- The life of a reader: init, uses, destroy in finalize. The results of the calls of
decompress, the return value of destroy, and the heap. -/
def life (L : LzmaLib) (A : Alloc) (us : List Use) : H (List DRes × Int × Heap) := do
  let (rs, s, h) ← uses L A us {} (init L) {}
  let (res, _, h) ← destroy h s
  .ok (rs, res, h)

end Detools.LzmaHeap
