import Verif.Model.PyStream
/-
detools/compression/heatshrink.py, zstd.py and lz4.py: the classes around the libraries
heatshrink2, zstandard and lz4. The libraries are parameters. Exceptions of the libraries
while compressing are not modelled.
-/
namespace Detools

/-! ### heatshrink -/

/-- `heatshrink2.core.Encoder(Reader(window_sz2, lookahead_sz2))`: a decoder object with
`fill` and `finish`. The constructor may raise. -/
structure HsReaderLib where
  σ : Type
  new : (window lookahead : Nat) → Except PyErr σ
  fill : σ → Bytes → Except PyErr (σ × Bytes)
  finish : σ → Except PyErr Bytes

/-- `heatshrink2.core`. `writer window lookahead` is `Encoder(Writer(window_sz2,
lookahead_sz2))`, with `fill` as `compress` and `finish` as `flush`. -/
structure HsLib where
  writer : (window lookahead : Nat) → Compressor
  reader : HsReaderLib

/-- `pack_header`: `bitstruct.pack('u4u4', window_sz2 - 4, lookahead_sz2 - 3)`. Only for
values that fit in the fields. detools/compression/heatshrink.py:12-13. -/
def hsPackHeader (window lookahead : Nat) : UInt8 := UInt8.ofNat ((window - 4) * 16 + (lookahead - 3))

/-- `unpack_header`. detools/compression/heatshrink.py:16-19. -/
def hsUnpackHeader (b : UInt8) : Nat × Nat := (b.toNat / 16 + 4, b.toNat % 16 + 3)

/-- `HeatshrinkCompressor`: `_data` and the encoder. detools/compression/heatshrink.py:22-39. -/
def heatshrinkCompressor (L : HsLib) (window lookahead : Nat) : Compressor where
  σ := Bytes × (L.writer window lookahead).σ
  init := ([hsPackHeader window lookahead], (L.writer window lookahead).init)
  compress := fun (data, enc) d =>
    let (enc, compressed) := (L.writer window lookahead).compress enc d
    if data ≠ [] then (([], enc), data ++ compressed) else ((data, enc), compressed)
  flush := fun (data, enc) => data ++ (L.writer window lookahead).flush enc

/-- State of `HeatshrinkDecompressor`. detools/compression/heatshrink.py:44-49. -/
structure HsPyD (R : HsReaderLib) where
  bytesLeft : Int
  data : Bytes
  encoder : Option R.σ

/-- `HeatshrinkDecompressor.eof`. detools/compression/heatshrink.py:79-81. -/
def HsPyD.eof {R : HsReaderLib} (s : HsPyD R) : Bool := s.bytesLeft == -1 && s.data == []

/-- `HeatshrinkDecompressor.needs_input`. detools/compression/heatshrink.py:75-77. -/
def HsPyD.needsInput {R : HsReaderLib} (s : HsPyD R) : Bool := s.data == [] && !s.eof

/-- The part of `HeatshrinkDecompressor.decompress` after the header was read.
detools/compression/heatshrink.py:62-73. -/
def HsPyD.more {R : HsReaderLib} (bytesLeft : Int) (buffered : Bytes) (enc : R.σ) (data : Bytes) (size : Nat) :
    Except PyErr (HsPyD R × Bytes) := do
  let (bytesLeft, buffered, enc) ←
    if 0 < bytesLeft then do
      let (enc, d) ← R.fill enc data
      pure (bytesLeft - data.length, buffered ++ d, enc)
    else pure (bytesLeft, buffered, enc)
  let (bytesLeft, buffered) ←
    if bytesLeft = 0 then do
      let d ← R.finish enc
      pure ((-1 : Int), buffered ++ d)
    else pure (bytesLeft, buffered)
  return ({ bytesLeft := bytesLeft, data := buffered.drop size, encoder := some enc }, buffered.take size)

/-- `HeatshrinkDecompressor.decompress`. detools/compression/heatshrink.py:51-73. -/
def HsPyD.decompress {R : HsReaderLib} (s : HsPyD R) (data : Bytes) (size : Nat) : Except PyErr (HsPyD R × Bytes) :=
  match s.encoder, data with
  | none, [] => .ok (s, [])
  | none, b :: data =>
    match R.new (hsUnpackHeader b).1 (hsUnpackHeader b).2 with
    | .error e => .error e
    | .ok enc => HsPyD.more (s.bytesLeft - 1) s.data enc data size
  | some enc, data => HsPyD.more s.bytesLeft s.data enc data size

/-- The heatshrink codec with the given parameters (detools/create.py:57-59,
detools/apply.py:44-45). -/
def heatshrinkCodec (L : HsLib) (window lookahead : Nat) : PyCodec where
  comp := heatshrinkCompressor L window lookahead
  decomp :=
    { σ := HsPyD L.reader
      eof := HsPyD.eof
      needsInput := HsPyD.needsInput
      decompress := HsPyD.decompress }
  initDecomp := fun n => { bytesLeft := n, data := [], encoder := none }

/-! ### zstd -/

/-- `zstandard`: `compress` in one go, and a decompressor writing what it can decompress
to a file. -/
structure ZstdLib where
  compress : Bytes → Bytes
  σ : Type
  init : σ
  /-- `write(data)` of the stream writer: the new state and what is written to the file -/
  write : σ → Bytes → Except PyErr (σ × Bytes)

/-- `ZstdCompressor`: the data is collected. detools/compression/zstd.py:11-22. -/
def zstdCompressor (L : ZstdLib) : Compressor where
  σ := List Bytes
  init := []
  compress := fun s d => (s ++ [d], [])
  flush := fun s => L.compress s.flatten

/-- State of `ZstdDecompressor`; `fout` is the content of the file, whose position is
its end. detools/compression/zstd.py:27-32. -/
structure ZstdD (L : ZstdLib) where
  bytesLeft : Int
  outputOffset : Nat
  fout : Bytes
  dec : L.σ

/-- `ZstdDecompressor.eof`. detools/compression/zstd.py:52-55. -/
def ZstdD.eof {L : ZstdLib} (s : ZstdD L) : Bool := s.bytesLeft == 0 && s.outputOffset == s.fout.length

/-- `ZstdDecompressor.needs_input`. detools/compression/zstd.py:48-50. -/
def ZstdD.needsInput {L : ZstdLib} (s : ZstdD L) : Bool := s.outputOffset == s.fout.length && !s.eof

/-- `ZstdDecompressor.decompress`. detools/compression/zstd.py:34-46. -/
def ZstdD.decompress {L : ZstdLib} (s : ZstdD L) (data : Bytes) (size : Nat) : Except PyErr (ZstdD L × Bytes) :=
  if s.eof then .error (.error "Already at end of stream.")
  else
    match L.write s.dec data with
    | .error e => .error e
    | .ok (dec, d) =>
      let fout := s.fout ++ d
      let out := (fout.drop s.outputOffset).take size
      .ok ({ bytesLeft := s.bytesLeft - data.length, outputOffset := s.outputOffset + out.length, fout := fout, dec := dec }, out)

/-- The zstd codec (detools/create.py:60-61, detools/apply.py:46-47). -/
def zstdCodec (L : ZstdLib) : PyCodec where
  comp := zstdCompressor L
  decomp :=
    { σ := ZstdD L
      eof := ZstdD.eof
      needsInput := ZstdD.needsInput
      decompress := ZstdD.decompress }
  initDecomp := fun n => { bytesLeft := n, outputOffset := 0, fout := [], dec := L.init }

/-! ### lz4 -/

/-- `lz4.frame`: the compressor with `begin` (its header), and the decompressor, which
detools uses as it is. -/
structure Lz4Lib where
  begin_ : Bytes
  comp : Compressor
  decomp : Decompressor
  initDecomp : decomp.σ

/-- `Lz4Compressor`: the header of the frame goes before the first piece.
detools/compression/lz4.py:11-29. -/
def lz4Compressor (L : Lz4Lib) : Compressor where
  σ := Option Bytes × L.comp.σ
  init := (some L.begin_, L.comp.init)
  compress := fun (header, s) d =>
    let (s, compressed) := L.comp.compress s d
    match header with
    | some h => ((none, s), h ++ compressed)
    | none => ((none, s), compressed)
  flush := fun (_, s) => L.comp.flush s

/-- The lz4 codec (detools/create.py:62-63, detools/apply.py:48-49). -/
def lz4Codec (L : Lz4Lib) : PyCodec where
  comp := lz4Compressor L
  decomp := L.decomp
  initDecomp := fun _ => L.initDecomp

end Detools
