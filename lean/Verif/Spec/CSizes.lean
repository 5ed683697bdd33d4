import Verif.Model.CReader
/-
A caller of the C size decoders: pass successive pieces until the decoder no longer
asks for more. The result comes with the bytes not consumed.
-/
namespace Detools

variable [Build]

/-- The header size decoder. -/
def feedHeaderSize : SizeAcc → List Bytes → C (SizeRes × Bytes)
  | _, [] => .ok (.more, [])
  | s, p :: ps => do
    let (r, c, s) ← chunkUnpackHeaderSize (p.length + 1) { buf := p, offset := 0 } s
    if r = .more then feedHeaderSize s ps else .ok (r, p.drop c.offset ++ ps.flatten)

/-- The decoder of sizes in the body of the patch, through a patch reader. -/
def feedBodySize : CReader → SizeAcc → List Bytes → C (SizeRes × Bytes)
  | _, _, [] => .ok (.more, [])
  | r, s, p :: ps => do
    let (v, r, c, s) ← patchReaderUnpackSize r { buf := p, offset := 0 } s
    if v = .more then feedBodySize r s ps else .ok (v, p.drop c.offset ++ ps.flatten)

/-- The decoder of sizes in a CRLE stream. -/
def feedCrleSize : USize → List Bytes → C (SizeRes × Bytes)
  | _, [] => .ok (.more, [])
  | s, p :: ps => do
    let (v, c, s) ← unpackUsizeC { buf := p, offset := 0 } s
    if v = .more then feedCrleSize s ps else .ok (v, p.drop c.offset ++ ps.flatten)

end Detools
