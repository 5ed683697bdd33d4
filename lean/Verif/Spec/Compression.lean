import Verif.Model.PyCompression
import Verif.Spec.Heatshrink
import Verif.Spec.Codec
import Verif.Model.PySequential
/-
What detools expects of heatshrink2, zstandard and lz4.
-/
namespace Detools

/-- Parameters heatshrink supports. -/
def HsParams (window lookahead : Nat) : Prop := 4 ≤ window ∧ window ≤ 15 ∧ 3 ≤ lookahead ∧ lookahead < window

/-- `fill` with one piece after the other; what they return, put together. -/
def HsReaderLib.fillAll (R : HsReaderLib) : R.σ → List Bytes → Except PyErr (R.σ × Bytes)
  | s, [] => .ok (s, [])
  | s, p :: ps =>
    match R.fill s p with
    | .error e => .error e
    | .ok (s, d) =>
      match R.fillAll s ps with
      | .error e => .error e
      | .ok (s, d') => .ok (s, d ++ d')

/-- heatshrink2 follows the heatshrink format: encoders encode, and what a decoder returns
in all is what the symbols in its input mean, whatever the pieces. -/
structure HsLib.Ok (L : HsLib) : Prop where
  writes : ∀ w l, HsParams w l → ∀ chunks, HsEncodes w l ((L.writer w l).run chunks) chunks.flatten
  reads : ∀ w l, HsParams w l → ∃ s0, L.reader.new w l = .ok s0 ∧
    ∀ pieces, ∃ s out fin, L.reader.fillAll s0 pieces = .ok (s, out) ∧ L.reader.finish s = .ok fin ∧
      ∀ syms, HsParses w l (bytesBits pieces.flatten) syms → out ++ fin = hsExpand [] syms

/-- `lib` compresses heatshrink patches with detools' default parameters, which are those
the C library is built with, and a heatshrink2 that follows the format. -/
def HsDefault (lib : Lib) : Prop := ∃ L : HsLib, L.Ok ∧ lib.codec .heatshrink = heatshrinkCodec L 8 7

/-- `write` with one piece after the other. -/
def ZstdLib.writeAll (L : ZstdLib) : L.σ → List Bytes → Except PyErr (L.σ × Bytes)
  | s, [] => .ok (s, [])
  | s, p :: ps =>
    match L.write s p with
    | .error e => .error e
    | .ok (s, d) =>
      match L.writeAll s ps with
      | .error e => .error e
      | .ok (s, d') => .ok (s, d ++ d')

/-- zstandard: a compressed stream can be decompressed in any pieces, and not all of the
data is written before the last byte of the stream was. -/
structure ZstdLib.Ok (L : ZstdLib) : Prop where
  writes : ∀ data, data ≠ [] → ∀ pieces, pieces.flatten = L.compress data → ∃ s, L.writeAll L.init pieces = .ok (s, data)
  last : ∀ data, data ≠ [] → ∀ pieces z s out, pieces.flatten ++ z = L.compress data → z ≠ [] →
    L.writeAll L.init pieces = .ok (s, out) → out ≠ data
  nonempty : ∀ data, data ≠ [] → L.compress data ≠ []

/-- lz4: the decompressor delivers what was compressed, given the header and the rest of
the frame. -/
structure Lz4Lib.Ok (L : Lz4Lib) extends Delivers L.decomp where
  init : ∀ chunks : List Bytes, chunks.flatten ≠ [] →
    owes L.initDecomp (L.begin_ ++ L.comp.run chunks) chunks.flatten

end Detools
