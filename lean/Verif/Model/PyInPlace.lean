import Verif.Model.PySequential
/-
Model of in-place patch creation (detools/create.py) and application
(detools/apply.py) in Python.
-/
namespace Detools

/-! ### Python helpers -/

/-- `div_ceil`. Python's `//` rounds towards minus infinity; a zero divisor raises.
detools/common.py:101-102. -/
def divCeil (a b : Int) : Int := Int.fdiv (a + b - 1) b

/-- `data[:n]`: a negative `n` counts from the end. -/
def sliceTo (data : Bytes) (n : Int) : Bytes :=
  if 0 ≤ n then data.take n.toNat else data.take ((data.length : Int) + n).toNat

/-- `data[m:n]` for non-negative `m`. -/
def slice (data : Bytes) (m : Nat) (n : Int) : Bytes := (sliceTo data n).drop m

/-! ### Creation -/

/-- `calc_shift`. detools/create.py:234-248. -/
def calcShift (memorySize segmentSize minimumShiftSize fromSize : Int) : Int :=
  let memorySegments := divCeil memorySize segmentSize
  let fromSegments := divCeil fromSize segmentSize
  let shiftSegments := memorySegments - fromSegments
  let shiftSize := shiftSegments * segmentSize
  if shiftSize < minimumShiftSize then minimumShiftSize else shiftSize

/-- The loop over `range(number_of_to_segments)`: the bytes written to `fsegments` by
segments `segment`, `segment + 1`, ..., `left` of them. detools/create.py:293-311. -/
def createSegments (lib : Lib) (fmt : Option DataFormat) (fr to : Bytes) (segmentSize shiftSize : Int) :
    (left : Nat) → (segment : Nat) → Except PyErr Bytes
  | 0, _ => .ok []
  | left + 1, segment => do
    let toOffset : Int := segment * segmentSize
    let fromOffset : Int := max (toOffset + segmentSize - shiftSize) 0
    let fsegment ← createSequentialData lib noneCodec fmt (fr.drop fromOffset.toNat)
      (slice to toOffset.toNat (toOffset + segmentSize))
    let fsegments ← createSegments lib fmt fr to segmentSize shiftSize left (segment + 1)
    return fsegment ++ fsegments

/-- `create_patch_in_place`: the bytes written to the patch. `minimumShiftSize = none`
is Python's `None`. detools/create.py:251-330. -/
def createInPlace (lib : Lib) (compression : Compression) (memorySize segmentSize : Int)
    (minimumShiftSize : Option Int) (fmt : Option DataFormat) (fr to : Bytes) : Except PyErr Bytes :=
  if segmentSize = 0 then .error (.builtin "ZeroDivisionError")
  else if Int.fmod memorySize segmentSize ≠ 0 then .error (.error "Memory size is not a multiple of segment size.")
  else
    let minimumShiftSize := minimumShiftSize.getD (2 * segmentSize)
    if Int.fmod minimumShiftSize segmentSize ≠ 0 then
      .error (.error "Minimum shift size is not a multiple of segment size.")
    else do
      let shiftSize := calcShift memorySize segmentSize minimumShiftSize fr.length
      let shiftedSize := memorySize - shiftSize
      let fsegments ← createSegments lib fmt (sliceTo fr shiftedSize) to segmentSize shiftSize
        (divCeil to.length segmentSize).toNat 0
      let memory ← pyPackSize memorySize
      let segment ← pyPackSize segmentSize
      let shift ← pyPackSize shiftSize
      let from_ ← pyPackSize fr.length
      let to_ ← pyPackSize to.length
      let header := packHeader PATCH_TYPE_IN_PLACE compression.toNumber ++ memory ++ segment ++ shift ++ from_ ++ to_
      if to.length = 0 then return header
      else return header ++ (lib.codecOf compression).comp.run [fsegments]

/-! ### Application -/

/-- The result of `read_header_in_place`. -/
structure InPlaceHeader where
  compression : Compression
  memorySize : Int
  segmentSize : Int
  shiftSize : Int
  fromSize : Int
  toSize : Int
deriving DecidableEq, Repr

/-- `read_header_in_place`: the header and unread bytes. detools/apply.py:191-215. -/
def readHeaderInPlace (patch : Bytes) : Except PyErr (InPlaceHeader × Bytes) :=
  match patch with
  | [] => .error (.error "Failed to read the patch header.")
  | b :: rest => do
    let (patchType, compression) := unpackHeader b
    if patchType ≠ PATCH_TYPE_IN_PLACE then .error (.error "Expected patch type ...")
    else do
      let compression ← convertCompression compression
      let (memorySize, rest) ← unpackSize rest
      let (segmentSize, rest) ← unpackSize rest
      let (shiftSize, rest) ← unpackSize rest
      let (fromSize, rest) ← unpackSize rest
      let (toSize, rest) ← unpackSize rest
      return (⟨compression, memorySize, segmentSize, shiftSize, fromSize, toSize⟩, rest)

/-- A Python computation on the memory file: what the file contains afterwards, also
after an exception, and the result. -/
def Mem (α : Type) := Bytes → Bytes × Except PyErr α

namespace Mem
def pure (a : α) : Mem α := fun m => (m, .ok a)
def bind (x : Mem α) (f : α → Mem β) : Mem β := fun m =>
  match x m with
  | (m, .error e) => (m, .error e)
  | (m, .ok a) => f a m
instance : Monad Mem where
  pure := Mem.pure
  bind := Mem.bind
/-- A computation not touching the memory. -/
def lift (e : Except PyErr α) : Mem α := fun m => (m, e)
end Mem

/-- Contents of a file after writing `data` at position `pos`: a write beyond the end
fills the gap with zeros, and writing nothing changes nothing. -/
def fileWrite (m : Bytes) (pos : Nat) (data : Bytes) : Bytes :=
  if data = [] then m
  else m.take pos ++ List.replicate (pos - m.length) 0 ++ data ++ m.drop (pos + data.length)

/-- `fmem.seek(pos, os.SEEK_SET)` followed by `fmem.read(size)`, `size` non-negative.
Seeking to a negative position raises (OSError for files, ValueError for `io.BytesIO`). -/
def Mem.readAt (pos : Int) (size : Nat) : Mem Bytes := fun m =>
  if pos < 0 then (m, .error (.builtin "OSError")) else (m, .ok ((m.drop pos.toNat).take size))

/-- `fmem.seek(pos, os.SEEK_SET)` followed by `fmem.write(data)`. -/
def Mem.writeAt (pos : Int) (data : Bytes) : Mem Unit := fun m =>
  if pos < 0 then (m, .error (.builtin "OSError")) else (Detools.fileWrite m pos.toNat data, .ok ())

/-- `shift_memory`. A negative `from_size` reads everything. detools/apply.py:246-263. -/
def shiftMemory (memorySize shiftSize fromSize : Int) : Mem Unit := fun m =>
  if (m.length : Int) < memorySize then (m, .error (.error "Expected memory size of at least ..."))
  else
    let fromData := if fromSize < 0 then m else m.take fromSize.toNat
    Mem.writeAt shiftSize (sliceTo fromData (memorySize - shiftSize)) m

/-- Local variables of `apply_patch_in_place_segment`: the patch reader, `to_pos` and
`from_offset`. -/
structure SegState (D : Decompressor) where
  reader : PatchReader D
  toPos : Int
  fromOffset : Int

/-- The data to write for a chunk: the diff loop body reads from-data at `from_offset` and
adds it. detools/apply.py:288-292. -/
def segmentData (diff : Bool) (fromOffset : Int) (chunkSize : Nat) (patchData : Bytes) : Mem Bytes :=
  if diff then do
    let fromData ← Mem.readAt fromOffset chunkSize
    Mem.lift (addBytes patchData fromData)
  else Mem.pure patchData

/-- The chunk loop of `iter_chunks` fused with the loop bodies of
`apply_patch_in_place_segment`; `left` is `size - offset`. `diff` selects the diff loop
body over the extra loop body. In the extra loop the file position is
`to_offset + to_pos` all along. detools/apply.py:95-102, 285-293, 297-303. -/
def segmentChunkLoop {D : Decompressor} (diff : Bool) (toOffset : Int) :
    (fuel : Nat) → (left : Nat) → SegState D → Mem (SegState D)
  | 0, left, s => if left = 0 then Mem.pure s else Mem.lift (.error .timeout)
  | fuel + 1, left, s =>
    if left = 0 then Mem.pure s
    else do
      let chunkSize := min left 4096
      let (patchData, reader) ← Mem.lift (s.reader.read fuel chunkSize)
      let data ← segmentData diff s.fromOffset chunkSize patchData
      Mem.writeAt (toOffset + s.toPos) data
      segmentChunkLoop diff toOffset fuel (left - chunkSize)
        { reader := reader
          toPos := s.toPos + chunkSize
          fromOffset := if diff then s.fromOffset + chunkSize else s.fromOffset }

/-- One of the two chunk loops with its size and check. (`fmem.seek(to_offset + to_pos)`
before the extra loop cannot fail: both are non-negative.) detools/apply.py:89-116, 285-303. -/
def segmentChunks {D : Decompressor} (fuel : Nat) (diff : Bool) (toOffset toSize : Int) (s : SegState D) :
    Mem (SegState D) := do
  let (size, reader) ← Mem.lift (s.reader.unpackSize fuel)
  if s.toPos + size > toSize then Mem.lift (.error (.error "Patch data too long."))
  else segmentChunkLoop diff toOffset fuel size.toNat { s with reader := reader }

/-- `while to_pos < to_size` of `apply_patch_in_place_segment`. detools/apply.py:283-306. -/
def segmentLoop {D : Decompressor} : (fuel : Nat) → (toOffset toSize : Int) → SegState D → Mem (SegState D)
  | 0, _, toSize, s => if s.toPos < toSize then Mem.lift (.error .timeout) else Mem.pure s
  | fuel + 1, toOffset, toSize, s =>
    if s.toPos < toSize then do
      let s ← segmentChunks fuel true toOffset toSize s
      let s ← segmentChunks fuel false toOffset toSize s
      let (size, reader) ← Mem.lift (s.reader.unpackSize fuel)
      segmentLoop fuel toOffset toSize { s with reader := reader, fromOffset := s.fromOffset + size }
    else Mem.pure s

/-- `apply_patch_in_place_segment`. detools/apply.py:266-306. -/
def applyInPlaceSegment {D : Decompressor} (fuel : Nat) (reader : PatchReader D) (toOffset toSize fromOffset : Int) :
    Mem (PatchReader D) := do
  let (dfpatchSize, reader) ← Mem.lift (reader.unpackSize fuel)
  if dfpatchSize > 0 then Mem.lift (.error .notImplemented)
  else do
    let s ← segmentLoop fuel toOffset toSize { reader := reader, toPos := 0, fromOffset := fromOffset }
    return s.reader

/-- `for i, to_pos in enumerate(range(0, to_size, segment_size))`: segments `i` on,
`left` of them. detools/apply.py:421-430. -/
def applySegments {D : Decompressor} (fuel : Nat) (segmentSize shiftSize toSize : Int) :
    (left : Nat) → (i : Nat) → PatchReader D → Mem (PatchReader D)
  | 0, _, reader => Mem.pure reader
  | left + 1, i, reader => do
    let toPos : Int := i * segmentSize
    let fromOffset := max (segmentSize * (i + 1)) shiftSize
    let segmentToSize := min segmentSize (toSize - toPos)
    let reader ← applyInPlaceSegment fuel reader toPos segmentToSize fromOffset
    applySegments fuel segmentSize shiftSize toSize left (i + 1) reader

/-- Number of elements of `range(0, to_size, segment_size)` for positive `to_size`: a
negative step gives an empty range (a zero step raises). -/
def rangeLength (toSize segmentSize : Int) : Nat :=
  if segmentSize < 0 then 0 else (divCeil toSize segmentSize).toNat

/-- The part of `apply_patch_in_place` after the header. detools/apply.py:417-435. -/
def applyInPlaceBody (codec : PyCodec) (fuel : Nat) (h : InPlaceHeader) (rest : Bytes) : Mem Int := do
  let reader : PatchReader codec.decomp := { st := codec.initDecomp rest.length, file := rest }
  shiftMemory h.memorySize h.shiftSize h.fromSize
  if h.segmentSize = 0 then Mem.lift (.error (.builtin "ValueError"))
  else do
    let reader ← applySegments fuel h.segmentSize h.shiftSize h.toSize (rangeLength h.toSize h.segmentSize) 0 reader
    if codec.decomp.eof reader.st then return h.toSize
    else Mem.lift (.error (.error "End of patch not found."))

/-- `apply_patch_in_place`: the memory afterwards and the returned size or exception.
detools/apply.py:397-435. -/
def applyInPlace (lib : Lib) (fuel : Nat) (patch : Bytes) : Mem Int := do
  let (h, rest) ← Mem.lift (readHeaderInPlace patch)
  if h.toSize > 0 then applyInPlaceBody (lib.codecOf h.compression) fuel h rest
  else return h.toSize

end Detools
