import Verif.Model.CReader
import Verif.Model.PySequential
/-
What the C library needs of liblzma: that it decompresses what was compressed.
-/
namespace Detools

/-- `lzma_code` keeps to the relation `owes` between the state of the decoder, the
compressed bytes it has not used yet and the decompressed bytes it has not delivered yet:
given some of the compressed bytes it does not fail, delivers the next of the
decompressed bytes, and stops before the end of its input only if the output buffer is
full and more is to come. It holds nothing back once all compressed bytes are used. -/
structure LzmaLib.Keeps (L : LzmaLib) (owes : Nat → Bytes → Bytes → Prop) : Prop where
  code : ∀ st input later data room, owes st (input ++ later) data → input ≠ [] → 0 < room →
    (L.code st input room).good = true ∧
    ∃ data', data = (L.code st input room).out ++ data' ∧
      owes (L.code st input room).st (input.drop (L.code st input room).used ++ later) data' ∧
      ((L.code st input room).out.length < room ∨ data' = [] → (L.code st input room).used = input.length)
  nothing : ∀ st data, owes st [] data → data = []

/-- The library decompresses `stream` to `data`, however it is called. -/
def LzmaLib.Decompresses (L : LzmaLib) (stream data : Bytes) : Prop := ∃ owes, L.Keeps owes ∧ owes L.start stream data

/-- The C library is built with an LZMA library that decompresses what Python's `lzma`
module compresses for detools. -/
def LzmaLinked [Build] (lib : Lib) : Prop :=
  ∃ L, Build.lzma = some L ∧ ∀ pieces, L.Decompresses ((lib.codec .lzma).comp.run pieces) pieces.flatten

end Detools
