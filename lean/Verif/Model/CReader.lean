import Verif.Model.Heatshrink
/-
Model of the patch readers of the C library: none, LZMA, CRLE and heatshrink (static).
c/detools.c:174-1068. liblzma itself is a parameter.
-/
namespace Detools

/-- `struct detools_unpack_usize_t`. c/detools.h:256-260. -/
structure USize where
  state : SizeState := .first
  value : Nat := 0
  offset : Nat := 0
deriving DecidableEq, Repr

/-- `struct detools_apply_patch_patch_reader_crle_t`: the state with the members of
the union it uses. c/detools.h:262-284. -/
inductive CCrle where
  | idle
  | scatteredSize (size : USize)
  | scatteredData (left : Nat)
  | repeatedRepetitions (size : USize)
  | repeatedData (left : Nat)
  | repeatedDataRead (value : UInt8) (left : Nat)
deriving DecidableEq, Repr

/-- `struct detools_apply_patch_patch_reader_heatshrink_t`: `none` while
`window_sz2 == -1` (no header read, `decoder_p == NULL`); `decoder_p` always points
to `decoder` otherwise. c/detools.h:240-247. -/
abbrev CHs := Option Hsd

/-- What a call of `lzma_code(&stream, LZMA_RUN)` does: whether it returned `LZMA_OK` or
`LZMA_STREAM_END`, the input bytes used, the bytes put in the output buffer and the new
state of the decoder. -/
structure LzmaOut where
  good : Bool
  used : Nat
  out : Bytes
  st : Nat

/-- liblzma's `lzma_alone_decoder` and `lzma_code`, as far as the C library sees them.
Decoder states are numbered. `code st input room` is a call with `avail_in` bytes
`input` and `avail_out = room`. It stays inside its buffers, and the bytes it can put
out are bounded by what was put in: `held` are those it may still owe for input already
used. c/detools.c:385-576. -/
structure LzmaLib where
  start : Nat
  code : Nat → Bytes → Nat → LzmaOut
  held : Nat → Nat
  used_le : ∀ st input room, (code st input room).used ≤ input.length
  out_le : ∀ st input room, (code st input room).out.length ≤ room
  held_start : held start = 0
  bounded : ∀ st input room,
    held (code st input room).st + (code st input room).out.length ≤ held st + 2 ^ 32 * (code st input room).used

/-- How the C library was built: without LZMA (`DETOOLS_CONFIG_COMPRESSION_LZMA` is 0), or
with LZMA and the library it is linked to. c/detools.h:46-48. -/
class Build where
  lzma : Option LzmaLib

/-- A build without LZMA. -/
def noLzma : Build := ⟨none⟩

/-- The build is without LZMA. -/
class NoLzma [B : Build] : Prop where
  off : B.lzma = none

instance : @NoLzma noLzma := @NoLzma.mk noLzma rfl

/-- `struct detools_apply_patch_patch_reader_lzma_t`: the state of the decoder, the
`avail_in` bytes at `next_in`, the `output_size` bytes at `output_p`. Destroy frees both
buffers and leaves the pointers to them: this model is of a reader that is not used after
destroy, that is of an object on which finalize is called once, as c/detools.h:482-483
asks. c/detools.h:227-232, c/detools.c:530-552. -/
structure CLzma where
  dec : Nat
  input : Bytes := []
  output : Bytes := []
deriving DecidableEq, Repr

/-- The union `compression` of the patch reader with its function pointers.
c/detools.h:286-307. -/
inductive CReader where
  | raw (patchSize patchOffset : Nat)
  | lzma (s : CLzma)
  | crle (s : CCrle)
  | heatshrink (h : CHs)
deriving DecidableEq, Repr

/-- Result of a decompress function: `ok data` is return value 0 with
`*size_p = data.length`, `more` is return value 1. -/
inductive DRes where
  | ok (data : Bytes)
  | more
  | fail (code : Int)
deriving DecidableEq, Repr

/-- `patch_reader_none_decompress`. The sum is a `size_t`. c/detools.c:180-205. -/
def noneDecompress (patchSize patchOffset : Nat) (c : Chunk) (cap size : Nat) : C (DRes × CReader × Chunk) :=
  if sz (patchOffset + size) > patchSize then .ok (.fail CORRUPT_PATCH, .raw patchSize patchOffset, c)
  else do
    match ← c.read cap size with
    | none => .ok (.more, .raw patchSize patchOffset, c)
    | some (data, c) => .ok (.ok data, .raw patchSize (sz (patchOffset + data.length)), c)

/-- The `do ... while` loop of `unpack_usize`. c/detools.c:614-631. -/
def unpackUsizeLoop : (fuel : Nat) → Chunk → USize → C (SizeRes × Chunk × USize)
  | 0, _, _ => .error .timeout
  | fuel + 1, c, s => do
    match ← c.get with
    | none => .ok (.more, c, s)
    | some (byte, c) =>
      if isOverflow s.offset then .ok (.fail CORRUPT_PATCH_OVERFLOW, c, s)
      else do
        let v ← orShift s.value byte s.offset
        let s := { s with value := v, offset := s.offset + 7 }
        if byte &&& 0x80 ≠ 0 then unpackUsizeLoop fuel c s
        else .ok (.value s.value, c, s)

/-- `unpack_usize`. c/detools.c:592-632. -/
def unpackUsizeC (c : Chunk) (s : USize) : C (SizeRes × Chunk × USize) :=
  let s := match s.state with
    | .first => { state := .consecutive, value := 0, offset := 0 }
    | .consecutive => s
  unpackUsizeLoop (c.left + 1) c s

/-- One pass of the `do ... while (res == 2)` loop of `patch_reader_crle_decompress`:
`none` is `res == 2`. c/detools.c:634-775, 788-823. -/
def crleStep (s : CCrle) (c : Chunk) (cap size : Nat) : C (Option DRes × CCrle × Chunk) :=
  match s with
  | .idle => do
    -- patch_reader_crle_decompress_idle, 634-667
    match ← c.get with
    | none => .ok (some .more, s, c)
    | some (kind, c) =>
      if kind = 0 then .ok (none, .scatteredSize {}, c)
      else if kind = 1 then .ok (none, .repeatedRepetitions {}, c)
      else .ok (some (.fail CORRUPT_PATCH_CRLE_KIND), s, c)
  | .scatteredSize u => do
    -- patch_reader_crle_decompress_scattered_size, 669-688
    match ← unpackUsizeC c u with
    | (.value v, c, _) => .ok (none, .scatteredData (szOfInt v), c)
    | (.more, c, u) => .ok (some .more, .scatteredSize u, c)
    | (.fail e, c, u) => .ok (some (.fail e), .scatteredSize u, c)
  | .scatteredData left => do
    -- patch_reader_crle_decompress_scattered_data, 690-712
    match ← c.read cap (min size left) with
    | none => .ok (some .more, s, c)
    | some (data, c) =>
      let left := left - data.length
      .ok (some (.ok data), if left = 0 then .idle else .scatteredData left, c)
  | .repeatedRepetitions u => do
    -- patch_reader_crle_decompress_repeated_repetitions, 714-733
    match ← unpackUsizeC c u with
    | (.value v, c, _) => .ok (none, .repeatedData (szOfInt v), c)
    | (.more, c, u) => .ok (some .more, .repeatedRepetitions u, c)
    | (.fail e, c, u) => .ok (some (.fail e), .repeatedRepetitions u, c)
  | .repeatedData left => do
    -- patch_reader_crle_decompress_repeated_data, 735-751
    match ← c.get with
    | none => .ok (some .more, s, c)
    | some (value, c) => .ok (none, .repeatedDataRead value left, c)
  | .repeatedDataRead value left =>
    -- patch_reader_crle_decompress_repeated_data_read, 753-775
    let n := min size left
    if cap < n then .error .oob
    else
      let left := left - n
      .ok (some (.ok (List.replicate n value)), if left = 0 then .idle else .repeatedDataRead value left, c)

/-- The loop of `patch_reader_crle_decompress`: at most four passes.
c/detools.c:777-827. -/
def crleDecompressLoop : (fuel : Nat) → CCrle → Chunk → (cap size : Nat) → C (DRes × CCrle × Chunk)
  | 0, _, _, _, _ => .error .timeout
  | fuel + 1, s, c, cap, size => do
    match ← crleStep s c cap size with
    | (some r, s, c) => .ok (r, s, c)
    | (none, s, c) => crleDecompressLoop fuel s c cap size

/-- `unpack_heatshrink_header`. c/detools.c:243-249. -/
def hsHeader (byte : UInt8) : Nat × Nat :=
  (((byte.toNat >>> 4) &&& 0xf) + 4, (byte.toNat &&& 0xf) + 3)

/-- The `while (1)` loop of `patch_reader_heatshrink_decompress`; `left = size -
out.length`. Fuel: one pass per byte of the chunk. c/detools.c:299-338. -/
def hsDecompressLoop : (fuel : Nat) → Hsd → Chunk → (size : Nat) → (out : Bytes) → C (DRes × Hsd × Chunk)
  | 0, _, _, _, _ => .error .timeout
  | fuel + 1, h, c, size, out => do
    let (h, data) ← hsPoll hsStatic h (size - out.length)
    let out := out ++ data
    if size - out.length = 0 then .ok (.ok out, h, c)
    else
      match ← c.get with
      | some (byte, c) => do
        let (n, h) ← hsSink hsStatic h [byte]
        if n ≠ 1 then .ok (.fail HEATSHRINK_SINK, h, c)
        else hsDecompressLoop fuel h c size out
      | none => if out.length ≠ 0 then .ok (.ok out, h, c) else .ok (.more, h, c)

/-- `patch_reader_heatshrink_decompress`, statically allocated decoder.
c/detools.c:251-341. -/
def hsDecompress (h : CHs) (c : Chunk) (cap size : Nat) : C (DRes × CHs × Chunk) :=
  if cap < size then .error .oob
  else
    match h with
    | some h => do
      let (r, h, c) ← hsDecompressLoop (c.left + 1) h c size []
      return (r, some h, c)
    | none => do
      match ← c.get with
      | none => .ok (.more, none, c)
      | some (byte, c) =>
        if hsHeader byte ≠ (hsStatic.window, hsStatic.lookahead) then .ok (.fail HEATSHRINK_HEADER, none, c)
        else do
          let (r, h, c) ← hsDecompressLoop (c.left + 1) (hsReset hsStatic) c size []
          return (r, some h, c)

/-- `get_decompressed_data`: `none` is return value 1. c/detools.c:391-410. -/
def lzmaGet (s : CLzma) (size : Nat) : Option (Bytes × CLzma) :=
  if s.output.length ≥ size then some (s.output.take size, { s with output := s.output.drop size }) else none

/-- `lzma_code` on the input left, into an output buffer of `size` bytes that begins with
the output left: `prepare_output_buffer` and the call. `malloc` succeeds. The output left
and the `avail_out` bytes behind it have to fit in the buffer.
c/detools.c:446-470, 490-511. -/
def lzmaStep (L : LzmaLib) (s : CLzma) (size : Nat) : C (Bool × CLzma) :=
  if s.input.length > 0 then
    let room := size - s.output.length
    if s.output.length + room > size then .error .oob
    else
      let r := L.code s.dec s.input room
      .ok (r.good, { s with dec := r.st, input := s.input.drop r.used, output := s.output ++ r.out })
  else .ok (true, s)

/-- The `while (1)` loop of `patch_reader_lzma_decompress`, with `prepare_input_buffer`:
at most two passes, the chunk is read to its end in the first. c/detools.c:412-444,
488-527. -/
def lzmaLoop (L : LzmaLib) : (fuel : Nat) → CLzma → Chunk → (size : Nat) → C (DRes × CLzma × Chunk)
  | 0, _, _, _ => .error .timeout
  | fuel + 1, s, c, size => do
    match ← lzmaStep L s size with
    | (false, s) => .ok (.fail LZMA_DECODE, s, c)
    | (true, s) =>
      match lzmaGet s size with
      | some (data, s) => .ok (.ok data, s, c)
      | none =>
        if c.left = 0 then .ok (.more, s, c)
        else do
          let (data, c) ← c.readAllNoCheck c.left c.left
          lzmaLoop L fuel { s with input := s.input ++ data } c size

/-- `patch_reader_lzma_decompress`. c/detools.c:472-528. -/
def lzmaDecompress (L : LzmaLib) (s : CLzma) (c : Chunk) (cap size : Nat) : C (DRes × CLzma × Chunk) :=
  if cap < size then .error .oob
  else
    match lzmaGet s size with
    | some (data, s) => .ok (.ok data, s, c)
    | none => lzmaLoop L 3 s c size

/-- `patch_reader_decompress`: up to `size` bytes into a buffer of `cap` bytes.
c/detools.c:1001-1007. -/
def CReader.decompress [B : Build] (r : CReader) (c : Chunk) (cap size : Nat) : C (DRes × CReader × Chunk) :=
  match r with
  | .raw patchSize patchOffset => noneDecompress patchSize patchOffset c cap size
  | .lzma s =>
    match B.lzma with
    | none => .error .uninit
    | some L => do
      let (r, s, c) ← lzmaDecompress L s c cap size
      return (r, .lzma s, c)
  | .crle s => do
    let (r, s, c) ← crleDecompressLoop 5 s c cap size
    return (r, .crle s, c)
  | .heatshrink h => do
    let (r, h, c) ← hsDecompress h c cap size
    return (r, .heatshrink h, c)

/-- `destroy`: the return code. c/detools.c:207-219, 343-366, 522-546, 829-835. -/
def CReader.destroy : CReader → Int
  | .raw patchSize patchOffset => if patchOffset = patchSize then 0 else CORRUPT_PATCH
  | .lzma s => if s.input.length = 0 ∧ s.output.length = 0 then 0 else CORRUPT_PATCH
  | .crle _ => 0
  | .heatshrink none => 0
  | .heatshrink (some h) => if hsFinish h then 0 else CORRUPT_PATCH

/-- `patch_reader_init`: `none` is BAD_COMPRESSION. `lzma_alone_decoder` succeeds.
c/detools.c:554-574, 858-904. -/
def CReader.init [B : Build] (patchSize : Nat) (compression : Nat) : Option CReader :=
  if compression = 0 then some (.raw patchSize 0)
  else if compression = 2 then some (.crle .idle)
  else if compression = 4 then some (.heatshrink none)
  else if compression = 1 then B.lzma.map fun L => .lzma { dec := L.start }
  else none

/-- One pass of the loop of `patch_reader_unpack_size` after a byte was read: `none`
if another byte is needed. c/detools.c:1022-1067. -/
def sizeByte (s : SizeAcc) (byte : UInt8) : C (SizeAcc × Option SizeRes) :=
  match s.state with
  | .first =>
    let s := { isSigned := byte &&& 0x40 = 0x40, value := byte.toNat &&& 0x3f, offset := 6, state := .consecutive }
    if byte &&& 0x80 ≠ 0 then .ok (s, none)
    else .ok ({ s with state := .first }, some (.value (if s.isSigned then -(s.value : Int) else s.value)))
  | .consecutive =>
    if isOverflow s.offset then .ok (s, some (.fail CORRUPT_PATCH_OVERFLOW))
    else do
      let v ← orShift s.value byte s.offset
      let s := { s with value := v, offset := s.offset + 7 }
      if byte &&& 0x80 ≠ 0 then .ok (s, none)
      else .ok ({ s with state := .first }, some (.value (if s.isSigned then -(s.value : Int) else s.value)))

/-- `patch_reader_unpack_size`. `decompress` may return success with no byte (an empty
CRLE segment): then `byte` is used uninitialised. Fuel: one pass per byte.
c/detools.c:1012-1068. -/
def unpackSizeC [Build] : (fuel : Nat) → CReader → Chunk → SizeAcc → C (SizeRes × CReader × Chunk × SizeAcc)
  | 0, _, _, _ => .error .timeout
  | fuel + 1, r, c, s => do
    match ← r.decompress c 1 1 with
    | (.more, r, c) => .ok (.more, r, c, s)
    | (.fail e, r, c) => .ok (.fail e, r, c, s)
    | (.ok [], _, _) => .error .uninit
    | (.ok (byte :: _), r, c) =>
      match ← sizeByte s byte with
      | (s, some v) => .ok (v, r, c, s)
      | (s, none) => unpackSizeC fuel r c s

/-- An encoding has at most five bytes before the overflow check fails. -/
def patchReaderUnpackSize [Build] (r : CReader) (c : Chunk) (s : SizeAcc) : C (SizeRes × CReader × Chunk × SizeAcc) :=
  unpackSizeC 6 r c s

end Detools
