import Verif.Model.PyStream
/-
What it means for a streaming compression codec to be lossless, in terms of the
calls `PatchReader` makes.
-/
namespace Detools

/-- A decompressor together with the claim of which output it still owes.
`owes st file out`: in state `st`, with `file` the unread rest of the patch file,
the decompressor will deliver exactly `out`. -/
structure Delivers (D : Decompressor) where
  owes : D.σ → Bytes → Bytes → Prop
  /-- Bounds how many calls can return no data. -/
  measure : D.σ → Bytes → Nat
  /-- End of stream is reported exactly when everything has been delivered. -/
  eof_iff : ∀ {st file out}, owes st file out → (D.eof st = true ↔ out = [])
  /-- As long as data is owed, the decompressor only asks for input the file still
  has, and a call asking for `size ≥ 1` bytes delivers the next at most `size`
  bytes; a call delivering nothing makes progress otherwise. -/
  step : ∀ {st file out} (size : Nat), owes st file out → out ≠ [] → 0 < size →
    (D.needsInput st = true → file ≠ []) ∧
    ∃ st' o out',
      D.decompress st (if D.needsInput st then file.take 4096 else []) size = .ok (st', o) ∧
      out = o ++ out' ∧ o.length ≤ size ∧
      owes st' (if D.needsInput st then file.drop 4096 else file) out' ∧
      (o = [] → measure st' (if D.needsInput st then file.drop 4096 else file) < measure st file)

/-- A codec is lossless if, whatever non-empty data is compressed in whatever
slices, the decompressor created for a patch file ending with the compressed
bytes delivers exactly that data. -/
structure Lossless (C : PyCodec) extends Delivers C.decomp where
  init : ∀ chunks : List Bytes, chunks.flatten ≠ [] →
    owes (C.initDecomp (C.comp.run chunks).length) (C.comp.run chunks) chunks.flatten

end Detools
