import Verif.Model.Bsdiff
/-
Model of the Python streaming layer: files, compressors, decompressors and the
patch reader of detools/apply.py.
-/
namespace Detools

/-- A readable, seekable Python binary file: contents and position.
`clampSeek` distinguishes `io.BytesIO`, whose relative seek clamps at zero, from
real files, whose seek to a negative position raises OSError. -/
structure PyFile where
  data : Bytes
  pos : Nat := 0
  clampSeek : Bool := false
deriving DecidableEq, Repr

/-- `f.read(size)` for a non-negative size. -/
def PyFile.read (f : PyFile) (size : Nat) : Bytes × PyFile :=
  let d := (f.data.drop f.pos).take size
  (d, { f with pos := f.pos + d.length })

/-- `f.seek(offset, os.SEEK_CUR)`. -/
def PyFile.seekCur (f : PyFile) (offset : Int) : Except PyErr PyFile :=
  let p := (f.pos : Int) + offset
  if p < 0 then
    if f.clampSeek then .ok { f with pos := 0 }
    else .error (.builtin "OSError")
  else .ok { f with pos := p.toNat }

/-- A decompressor object: what `PatchReader` uses of it. The signatures are those of
`lzma.LZMADecompressor` and the classes in detools/compression. -/
structure Decompressor where
  σ : Type
  eof : σ → Bool
  needsInput : σ → Bool
  /-- `decompress(data, size)`. -/
  decompress : σ → Bytes → Nat → Except PyErr (σ × Bytes)

/-- A compressor object: `compress(data)` and `flush()`. -/
structure Compressor where
  σ : Type
  init : σ
  compress : σ → Bytes → σ × Bytes
  flush : σ → Bytes

/-- A compression algorithm as used by detools: `create_compressor` makes the
compressor (detools/create.py:46-67) and `PatchReader.__init__` the decompressor,
given the number of bytes left in the patch file (detools/apply.py:35-53). -/
structure PyCodec where
  comp : Compressor
  decomp : Decompressor
  initDecomp : Nat → decomp.σ

/-- `PatchReader`: the decompressor and the unread rest of the patch file.
detools/apply.py:33-53. -/
structure PatchReader (D : Decompressor) where
  st : D.σ
  file : Bytes

/-- `PatchReader.decompress(size)`: the `while` loop. Reading at most 4096 bytes
from the file when the decompressor needs input; any exception of the
decompressor becomes an `Error`. detools/apply.py:58-82. -/
def PatchReader.loop {D : Decompressor} :
    (fuel : Nat) → PatchReader D → (size : Nat) → (buf : Bytes) → Except PyErr (Bytes × PatchReader D)
  | fuel, r, size, buf =>
    if buf.length < size then
      match fuel with
      | 0 => .error .timeout
      | fuel + 1 =>
        if D.eof r.st then .error (.error "Early end of patch data.")
        else
          let needs := D.needsInput r.st
          let data := if needs then r.file.take 4096 else []
          let file := if needs then r.file.drop 4096 else r.file
          if needs ∧ data = [] then .error (.error "Out of patch data.")
          else
            match D.decompress r.st data (size - buf.length) with
            | .error _ => .error (.error "Patch decompression failed.")
            | .ok (st, out) => PatchReader.loop fuel { st := st, file := file } size (buf ++ out)
    else .ok (buf, r)

/-- `PatchReader.decompress(size)` and `PatchReader.read(size)`; a negative size
reads nothing. detools/apply.py:55-82. -/
def PatchReader.read {D : Decompressor} (fuel : Nat) (r : PatchReader D) (size : Nat) :
    Except PyErr (Bytes × PatchReader D) :=
  PatchReader.loop fuel r size []

/-- `fin.read(1)[0]` with `fin` a patch reader: `read` never returns less than
asked for, so the IndexError branch is only kept for completeness.
detools/common.py:121-124, 131-134. -/
def PatchReader.readByte {D : Decompressor} (fuel : Nat) (r : PatchReader D) (msg : String) :
    Except PyErr (UInt8 × PatchReader D) :=
  match r.read fuel 1 with
  | .error e => .error e
  | .ok ([], _) => .error (.error msg)
  | .ok (b :: _, r) => .ok (b, r)

/-- The `while byte & 0x80` loop of `unpack_size` on a patch reader.
detools/common.py:130-137. -/
def PatchReader.unpackLoop {D : Decompressor} (readFuel : Nat) :
    (fuel : Nat) → PatchReader D → (value offset : Nat) → Except PyErr (Nat × PatchReader D)
  | 0, _, _, _ => .error .timeout
  | fuel + 1, r, value, offset => do
    let (byte, r) ← r.readByte readFuel "Failed to read consecutive size byte."
    let value := value ||| ((byte.toNat &&& 0x7f) <<< offset)
    if byte &&& 0x80 ≠ 0 then PatchReader.unpackLoop readFuel fuel r value (offset + 7)
    else .ok (value, r)

/-- `unpack_size(patch_reader)`. detools/common.py:120-146. -/
def PatchReader.unpackSize {D : Decompressor} (fuel : Nat) (r : PatchReader D) :
    Except PyErr (Int × PatchReader D) := do
  let (byte, r) ← r.readByte fuel "Failed to read first size byte."
  let isSigned := byte &&& 0x40 ≠ 0
  let value := byte.toNat &&& 0x3f
  let (value, r) ←
    if byte &&& 0x80 ≠ 0 then PatchReader.unpackLoop fuel fuel r value 6 else .ok (value, r)
  return (if isSigned then -(value : Int) else value, r)

/-- Compress the chunks one after the other and flush, concatenating everything
written to the patch file. detools/create.py:195-202. -/
def Compressor.run (C : Compressor) (chunks : List Bytes) : Bytes :=
  let rec go : C.σ → List Bytes → Bytes
    | s, [] => C.flush s
    | s, c :: cs =>
      let (s, out) := C.compress s c
      out ++ go s cs
  go C.init chunks

/-! ### The `none` codec, detools/compression/none.py -/

/-- `NoneCompressor`. detools/compression/none.py:8-14. -/
def noneCompressor : Compressor where
  σ := Unit
  init := ()
  compress := fun s d => (s, d)
  flush := fun _ => []

/-- State of `NoneDecompressor`. detools/compression/none.py:19-21. -/
structure NoneD where
  bytesLeft : Int
  data : Bytes
deriving DecidableEq, Repr

/-- `NoneDecompressor`. detools/compression/none.py:17-40. -/
def noneDecompressor : Decompressor where
  σ := NoneD
  eof := fun s => s.bytesLeft == 0
  needsInput := fun s => s.data.isEmpty && !(s.bytesLeft == 0)
  decompress := fun s data size =>
    if s.bytesLeft == 0 then .error (.error "Already at end of stream.")
    else
      let d := s.data ++ data
      let out := d.take size
      .ok ({ bytesLeft := s.bytesLeft - out.length, data := d.drop size }, out)

/-- The `none` compression. -/
def noneCodec : PyCodec where
  comp := noneCompressor
  decomp := noneDecompressor
  initDecomp := fun n => { bytesLeft := n, data := [] }

/-! ### The `crle` codec, detools/compression/crle.py -/

/-- Length of the run of bytes equal to `b` at the start. The `while` loop of
`find_repeated_segment`. detools/compression/crle.py:70-72. -/
def runLength (b : UInt8) : Bytes → Nat
  | [] => 0
  | c :: cs => if b = c then runLength b cs + 1 else 0

/-- `find_repeated_segment`: offset and length of the first run of at least
MINIMUM_REPEATED_SIZE = 6 equal bytes. detools/compression/crle.py:59-77. -/
def findRepeated (offset : Nat) : Bytes → Option (Nat × Nat)
  | [] => none
  | b :: bs =>
    let length := runLength b (b :: bs)
    if length ≥ 6 then some (offset, length) else findRepeated (offset + 1) bs

/-- State of `CrleCompressor`, without the `_flushing` flag, which is an argument
of the functions below. detools/compression/crle.py:21-24. -/
structure CrleC where
  data : Bytes := []
  written : Nat := 0
deriving DecidableEq, Repr

/-- `get_segment`: `none` for `(None, None)`, otherwise whether the segment is
repeated, its data and the data left. detools/compression/crle.py:79-108. -/
def crleGetSegment (flushing : Bool) (data : Bytes) : Option (Bool × Bytes × Bytes) :=
  match findRepeated 0 data with
  | none => if flushing then some (false, data, []) else none
  | some (offset, length) =>
    if offset > 0 then some (false, data.take offset, data.drop offset)
    else if offset + length < data.length ∨ flushing then
      some (true, data.take length, data.drop length)
    else none

/-- `compress_segment`. The model does not limit the segment length to 2^63
(`pack_size` raises Error for larger ones). detools/compression/crle.py:110-133. -/
def crleCompressSegment (flushing : Bool) (s : CrleC) : CrleC × Bytes :=
  if s.data = [] then (s, [])
  else
    match crleGetSegment flushing s.data with
    | none => (s, [])
    | some (repeated, data, rest) =>
      let out :=
        if repeated then 1 :: (crlePackSize data.length ++ data.take 1)
        else 0 :: (crlePackSize data.length ++ data)
      ({ data := rest, written := s.written + out.length }, out)

/-- The `while True` loop of `flush`. detools/compression/crle.py:47-55. -/
def crleFlushLoop : (fuel : Nat) → CrleC → Bytes
  | 0, _ => []
  | fuel + 1, s =>
    let (s, chunk) := crleCompressSegment true s
    if chunk = [] then [] else chunk ++ crleFlushLoop fuel s

/-- `CrleCompressor`. detools/compression/crle.py:19-57. -/
def crleCompressor : Compressor where
  σ := CrleC
  init := {}
  compress := fun s d => crleCompressSegment false { s with data := s.data ++ d }
  flush := fun s =>
    if s.written = s.data.length ∧ s.data.length = 0 then 0 :: crlePackSize 0
    else crleFlushLoop (s.data.length + 1) s

/-- State of `CrleDecompressor`. detools/compression/crle.py:138-142. -/
structure CrleD where
  indataLeft : Nat
  indata : Bytes := []
  outdata : Bytes := []
  scatteredLeft : Nat := 0
deriving DecidableEq, Repr

/-- `unpack_size(buf, position)`: `none` is the IndexError. Returns the value and
the number of bytes consumed. detools/compression/crle.py:244-255. -/
def crleUnpackSize (value offset : Nat) : Bytes → Option (Nat × Bytes)
  | [] => none
  | byte :: rest =>
    let value := value ||| ((byte.toNat &&& 0x7f) <<< offset)
    if byte &&& 0x80 ≠ 0 then crleUnpackSize value (offset + 7) rest
    else some (value, rest)

/-- Outcome of `decompress_segment`. -/
inductive CrleSeg where
  /-- IndexError: not enough input. The state may have changed. -/
  | more (scatteredLeft : Nat)
  /-- Error: bad kind. -/
  | bad
  /-- A decoded segment: data, rest of indata, scattered bytes left. -/
  | seg (data rest : Bytes) (scatteredLeft : Nat)
deriving DecidableEq, Repr

/-- `decompress_segment` on `_indata` and `_number_of_scattered_bytes_left`.
detools/compression/crle.py:184-223. -/
def crleSegment (indata : Bytes) (scatteredLeft : Nat) : CrleSeg :=
  if scatteredLeft = 0 then
    match indata with
    | [] => .more 0
    | kind :: rest =>
      if kind = 0 then
        match crleUnpackSize 0 0 rest with
        | none => .more 0
        | some (length, rest) =>
          -- `remaining = offset + length - len(indata)`
          if length > rest.length then .seg rest [] (length - rest.length)
          else .seg (rest.take length) (rest.drop length) 0
      else if kind = 1 then
        match crleUnpackSize 0 0 rest with
        | none => .more 0
        | some (repetitions, rest) =>
          match rest with
          | [] => .more 0
          | b :: rest => .seg (List.replicate repetitions b) rest 0
      else .bad
  else if indata = [] then .more scatteredLeft
  else
    let length := min indata.length scatteredLeft
    .seg (indata.take length) (indata.drop length) (scatteredLeft - length)

/-- `decompress_segments`: decode segments until IndexError. Returns the decoded
data, the rest of indata and the scattered bytes left.
detools/compression/crle.py:173-182. -/
def crleSegments : (fuel : Nat) → Bytes → Nat → Except PyErr (Bytes × Bytes × Nat)
  | 0, _, _ => .error .timeout
  | fuel + 1, indata, scatteredLeft =>
    match crleSegment indata scatteredLeft with
    | .more left => .ok ([], indata, left)
    | .bad => .error (.error "Expected kind scattered(0) or repeated(1)")
    | .seg data rest left => do
      let (out, rest, left) ← crleSegments fuel rest left
      return (data ++ out, rest, left)

/-- `CrleDecompressor.eof`. detools/compression/crle.py:167-171. -/
def CrleD.eof (s : CrleD) : Bool :=
  s.indataLeft == 0 && s.outdata.isEmpty && s.indata.isEmpty

/-- `CrleDecompressor`. detools/compression/crle.py:136-182. -/
def crleDecompressor : Decompressor where
  σ := CrleD
  eof := CrleD.eof
  needsInput := fun s => s.outdata.isEmpty && !s.eof
  decompress := fun s data size =>
    if s.eof then .error (.error "Already at end of stream.")
    else do
      let data := data.take s.indataLeft
      let indata := s.indata ++ data
      let (out, indata, left) ← crleSegments (indata.length + 1) indata s.scatteredLeft
      let outdata := s.outdata ++ out
      return ({ indataLeft := s.indataLeft - data.length, indata := indata,
                outdata := outdata.drop size, scatteredLeft := left }, outdata.take size)

/-- The `crle` compression. -/
def crleCodec : PyCodec where
  comp := crleCompressor
  decomp := crleDecompressor
  initDecomp := fun n => { indataLeft := n }

end Detools
