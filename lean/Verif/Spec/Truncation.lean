import Verif.Model.PyStream
/-
What is expected of a foreign codec (lzma, bz2, heatshrink, zstd, lz4) for truncated
patches to be rejected: its decompressor does not report the end of the stream as long
as it has only seen part of it.
-/
namespace Detools

/-- `I st file`: the decompressor is in state `st`, the unread rest of the patch file
is `file`, and the stream is incomplete. -/
structure Incomplete (D : Decompressor) where
  I : D.σ → Bytes → Prop
  noEof : ∀ {st file}, I st file → D.eof st = false
  step : ∀ {st file size st' o}, I st file →
    D.decompress st (if D.needsInput st then file.take 4096 else []) size = .ok (st', o) →
    I st' (if D.needsInput st then file.drop 4096 else file)

/-- Every strict prefix of a compressed stream is incomplete. -/
def DetectsTruncation (C : PyCodec) : Prop :=
  ∃ inc : Incomplete C.decomp, ∀ (chunks : List Bytes) (p z : Bytes),
    chunks.flatten ≠ [] → C.comp.run chunks = p ++ z → z ≠ [] → inc.I (C.initDecomp p.length) p

end Detools
