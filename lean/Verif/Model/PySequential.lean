import Verif.Model.PyStream
/-
Model of sequential patch creation (detools/create.py) and application
(detools/apply.py) in Python.
-/
namespace Detools

/-- A Python computation that writes to the to-file: everything written so far and
the result. Bytes written before an exception stay written. -/
structure W (α : Type) where
  out : Bytes
  res : Except PyErr α
deriving DecidableEq, Repr

namespace W
def pure (a : α) : W α := ⟨[], .ok a⟩
def bind (x : W α) (f : α → W β) : W β :=
  match x.res with
  | .error e => ⟨x.out, .error e⟩
  | .ok a => ⟨x.out ++ (f a).out, (f a).res⟩
instance : Monad W where
  pure := W.pure
  bind := W.bind
/-- A computation writing nothing. -/
def lift (e : Except PyErr α) : W α := ⟨[], e⟩
/-- `fto.write(data)`. -/
def write (data : Bytes) : W Unit := ⟨data, .ok ()⟩
end W

/-- The compressions of detools/common.py:19-35. -/
inductive Compression where
  | none | lzma | crle | bz2 | heatshrink | zstd | lz4
deriving DecidableEq, Repr

/-- `compression_string_to_number`. detools/common.py:19-35, 86-90. -/
def Compression.toNumber : Compression → Nat
  | .none => 0 | .lzma => 1 | .crle => 2 | .bz2 => 3 | .heatshrink => 4 | .zstd => 5 | .lz4 => 6

/-- `convert_compression`. detools/apply.py:123-141. -/
def convertCompression : Nat → Except PyErr Compression
  | 0 => .ok .none | 1 => .ok .lzma | 2 => .ok .crle | 3 => .ok .bz2
  | 4 => .ok .heatshrink | 5 => .ok .zstd | 6 => .ok .lz4
  | _ => .error (.error "Expected compression ...")

/-- Patch types. detools/common.py:9-11. -/
def PATCH_TYPE_SEQUENTIAL : Nat := 0
def PATCH_TYPE_IN_PLACE : Nat := 1
def PATCH_TYPE_HDIFFPATCH : Nat := 2

/-- `pack_header`: one padding bit, three bits patch type, four bits compression
(bitstruct 'p1u3u4'; all callers pass values in range). detools/create.py:42-43. -/
def packHeader (patchType compression : Nat) : Bytes :=
  [UInt8.ofNat (((patchType &&& 7) <<< 4) ||| (compression &&& 15))]

/-- `unpack_header`. detools/common.py:190-191. -/
def unpackHeader (b : UInt8) : Nat × Nat :=
  ((b.toNat >>> 4) &&& 7, b.toNat &&& 15)

/-- The external pieces: the codecs detools takes from other libraries (lzma, bz2,
heatshrink, zstd, lz4) and the suffix array construction. -/
structure Lib where
  codec : Compression → PyCodec
  /-- `sais` or `divsufsort`: contents of the suffix array for the given data.
  detools/create.py:70-76. -/
  suffixArray : Bytes → List Nat

/-- The codec of a compression: `none` and `crle` are detools' own.
detools/create.py:46-67, detools/apply.py:35-53. -/
def Lib.codecOf (lib : Lib) : Compression → PyCodec
  | .none => noneCodec
  | .crle => crleCodec
  | c => lib.codec c

/-- A data format: its number, its encoder and its readers. The readers are
`BytesIO` objects, given by their contents. detools/data_format/__init__.py:18-47. -/
structure DataFormat where
  number : Nat
  /-- new from-data, new to-data, patch -/
  encode : Bytes → Bytes → Except PyErr (Bytes × Bytes × Bytes)
  /-- contents of the diff reader and of the from reader, from the original
  from-data, the patch and the to size -/
  readers : Bytes → Bytes → Int → Except PyErr (Bytes × Bytes)

/-- Outcome of the C function `bsdiff.create_patch` seen from Python: the model's
`none` is undefined behaviour. -/
def liftUb (o : Option α) : Except PyErr α :=
  match o with
  | some a => .ok a
  | none => .error (.ub "create_patch")

/-- `create_chunks`: heap and mmap variants call the same functions on the same
data. detools/create.py:96-160. -/
def createChunks (lib : Lib) (fr to : Bytes) : Except PyErr (List Bytes) :=
  liftUb (bsdiffCreatePatch (lib.suffixArray fr) fr to (to.length + 1))

/-- `create_patch_sequential_data`: the bytes written to the patch.
detools/create.py:163-202. -/
def createSequentialData (lib : Lib) (codec : PyCodec) (fmt : Option DataFormat) (fr to : Bytes) :
    Except PyErr Bytes :=
  if to.length = 0 then .ok []
  else do
    let (fr, to, dfpatch) ←
      match fmt with
      | none => do
        let p ← pyPackSize 0
        pure (fr, to, p)
      | some f => do
        let (fr, to, patch) ← f.encode fr to
        let a ← pyPackSize patch.length
        let b ← pyPackSize f.number
        pure (fr, to, a ++ b ++ patch)
    let chunks ← createChunks lib fr to
    return codec.comp.run (dfpatch :: chunks)

/-- `create_patch_sequential`. detools/create.py:209-231. -/
def createSequential (lib : Lib) (compression : Compression) (fmt : Option DataFormat) (fr to : Bytes) :
    Except PyErr Bytes := do
  let size ← pyPackSize to.length
  let body ← createSequentialData lib (lib.codecOf compression) fmt fr to
  return packHeader PATCH_TYPE_SEQUENTIAL compression.toNumber ++ size ++ body

/-- `read_header_sequential`: compression, to size and unread bytes.
detools/apply.py:144-164. -/
def readHeaderSequential (patch : Bytes) : Except PyErr (Compression × Int × Bytes) :=
  match patch with
  | [] => .error (.error "Failed to read the patch header.")
  | b :: rest => do
    let (patchType, compression) := unpackHeader b
    if patchType ≠ PATCH_TYPE_SEQUENTIAL then .error (.error "Expected patch type ...")
    else do
      let compression ← convertCompression compression
      let (toSize, rest) ← unpackSize rest
      return (compression, toSize, rest)

/-- The open files during application: patch reader, from-file and, with a data
format, the diff reader. -/
structure Streams (D : Decompressor) where
  reader : PatchReader D
  from_ : PyFile
  dfdiff : Option PyFile

/-- `if dfdiff is not None: data = add_bytes(data, dfdiff.read(chunk_size))`.
detools/apply.py:367-369, 380-382. -/
def applyDfdiff (dfdiff : Option PyFile) (data : Bytes) (chunkSize : Nat) :
    Except PyErr (Bytes × Option PyFile) :=
  match dfdiff with
  | none => .ok (data, none)
  | some f => do
    let (d, f) := f.read chunkSize
    let data ← addBytes data d
    return (data, some f)

/-- The chunk loop of `iter_chunks` fused with the loop bodies of
`apply_patch_sequential`; `left` is `size - offset`. `diff` selects the diff loop
body over the extra loop body. detools/apply.py:95-102, 361-372, 375-385. -/
def chunkLoop {D : Decompressor} (diff : Bool) :
    (fuel : Nat) → (left : Nat) → Streams D → W (Streams D)
  | 0, left, s => if left = 0 then W.pure s else W.lift (.error .timeout)
  | fuel + 1, left, s =>
    if left = 0 then W.pure s
    else do
      let chunkSize := min left 4096
      let (patchData, reader) ← W.lift (s.reader.read fuel chunkSize)
      let (data, from_) ←
        if diff then
          let (fromData, from_) := s.from_.read chunkSize
          W.lift ((addBytes patchData fromData).map (·, from_))
        else W.pure (patchData, s.from_)
      let (data, dfdiff) ← W.lift (applyDfdiff s.dfdiff data chunkSize)
      W.write data
      chunkLoop diff fuel (left - chunkSize) { reader := reader, from_ := from_, dfdiff := dfdiff }

/-- `for chunk_size, patch_data in iter_diff_chunks(...)` or `iter_extra_chunks`:
the size, its check, and the loop. Returns the new `to_pos`. A negative size
yields no chunks. detools/apply.py:89-116, 361-385. -/
def processChunks {D : Decompressor} (fuel : Nat) (diff : Bool) (toPos toSize : Int) (s : Streams D) :
    W (Int × Streams D) := do
  let (size, reader) ← W.lift (s.reader.unpackSize fuel)
  if toPos + size > toSize then W.lift (.error (.error "Patch data too long."))
  else do
    let s ← chunkLoop diff fuel size.toNat { s with reader := reader }
    return (toPos + size.toNat, s)

/-- `while to_pos < to_size` of `apply_patch_sequential`. detools/apply.py:359-389. -/
def applyLoop {D : Decompressor} : (fuel : Nat) → (toPos toSize : Int) → Streams D → W (Streams D)
  | 0, toPos, toSize, s => if toPos < toSize then W.lift (.error .timeout) else W.pure s
  | fuel + 1, toPos, toSize, s =>
    if toPos < toSize then do
      let (toPos, s) ← processChunks fuel true toPos toSize s
      let (toPos, s) ← processChunks fuel false toPos toSize s
      let (size, reader) ← W.lift (s.reader.unpackSize fuel)
      let from_ ← W.lift (s.from_.seekCur size)
      applyLoop fuel toPos toSize { s with reader := reader, from_ := from_ }
    else W.pure s

/-- `create_data_format_readers`. `formats` looks up a data format by number.
detools/apply.py:307-322. -/
def createDataFormatReaders {D : Decompressor} (formats : Int → Option DataFormat) (fuel : Nat)
    (reader : PatchReader D) (from_ : PyFile) (toSize : Int) : Except PyErr (Streams D) := do
  let (dfpatchSize, reader) ← reader.unpackSize fuel
  if dfpatchSize > 0 then do
    let (dataFormat, reader) ← reader.unpackSize fuel
    let (patch, reader) ← reader.read fuel dfpatchSize.toNat
    match formats dataFormat with
    | none => .error (.error "Expected data format ...")
    | some f => do
      let (dfdiff, fr) ← f.readers from_.data patch toSize
      return { reader := reader
               from_ := { data := fr, pos := 0, clampSeek := true }
               dfdiff := some { data := dfdiff, pos := 0, clampSeek := true } }
  else return { reader := reader, from_ := from_, dfdiff := none }

/-- The part of `apply_patch_sequential` after the header. detools/apply.py:355-394. -/
def applySequentialBody (codec : PyCodec) (formats : Int → Option DataFormat) (fuel : Nat)
    (from_ : PyFile) (rest : Bytes) (toSize : Int) : W Int := do
  let reader : PatchReader codec.decomp := { st := codec.initDecomp rest.length, file := rest }
  let s ← W.lift (createDataFormatReaders formats fuel reader from_ toSize)
  let s ← applyLoop fuel 0 toSize s
  if codec.decomp.eof s.reader.st then return toSize
  else W.lift (.error (.error "End of patch not found."))

/-- `apply_patch_sequential`: what is written to the to-file and the returned size
or exception. detools/apply.py:349-394. -/
def applySequential (lib : Lib) (formats : Int → Option DataFormat) (fuel : Nat) (from_ : PyFile)
    (patch : Bytes) : W Int := do
  let (compression, toSize, rest) ← W.lift (readHeaderSequential patch)
  if toSize = 0 then return toSize
  else applySequentialBody (lib.codecOf compression) formats fuel from_ rest toSize

end Detools
