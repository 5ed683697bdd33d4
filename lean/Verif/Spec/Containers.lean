import Verif.Model.PyContainers
import Verif.Spec.Sequential
import Verif.Spec.Ops
/-
What the BSDIFF40, hdiffpatch and match-blocks containers assume of the libraries they
use.
-/
namespace Detools

/-- What `apply_patch_bsdiff` needs of bz2. After a decompressor was given a whole
compressed stream (asking for no output), it owes the data that was compressed, delivers
exactly as many bytes as it is asked for, and reports the end of the stream exactly when
everything has been delivered. -/
structure WholeStream (C : PyCodec) where
  owes : C.decomp.σ → Bytes → Prop
  start : ∀ chunks : List Bytes, ∃ st,
    C.decomp.decompress (C.initDecomp 0) (C.comp.run chunks) 0 = .ok (st, []) ∧ owes st chunks.flatten
  read : ∀ {st} {a b : Bytes}, owes st (a ++ b) → a ≠ [] →
    ∃ st', C.decomp.decompress st [] a.length = .ok (st', a) ∧ owes st' b
  eof_iff : ∀ {st out}, owes st out → (C.decomp.eof st = true ↔ out = [])

/-- The eight bytes of an integer in a BSDIFF40 patch: the magnitude, least significant byte first, and the
sign in the last bit. -/
def off8 (x : Int) : Bytes := leBytes 8 (if x < 0 then x.natAbs ||| 2 ^ 63 else x.natAbs)

/-- Everything in a record can be written in eight bytes. -/
def Op.Fits (op : Op) : Prop :=
  op.diff.length < 2 ^ 63 ∧ op.extra.length < 2 ^ 63 ∧ op.adjustment.natAbs < 2 ^ 63

/-- The control data of a record. -/
def Op.ctrl (op : Op) : List Bytes := [off8 op.diff.length, off8 op.extra.length, off8 op.adjustment]

/-- The first eight bytes of a BSDIFF40 patch, in ASCII. -/
def magic40 : Bytes := "BSDIFF40".toList.map fun c => UInt8.ofNat c.toNat

/-- A BSDIFF40 patch of three data streams compressed by bz2: magic, sizes of the first two
compressed streams, size of the to-data, streams. -/
def bsdiffFile (codec : PyCodec) (toSize : Int) (ctrl diff extra : List Bytes) : Bytes :=
  magic40 ++ off8 (codec.comp.run ctrl).length ++ off8 (codec.comp.run diff).length ++ off8 toSize ++
    codec.comp.run ctrl ++ codec.comp.run diff ++ codec.comp.run extra

/-- Applying an hdiffpatch patch undoes its creation. -/
def HDiff.Inverts (h : HDiff) : Prop :=
  ∀ fr to score blockSize patch, h.create fr to score blockSize PATCH_TYPE_HDIFFPATCH = .ok patch →
    h.apply fr patch = .ok to

/-- For patch type sequential, HDiffPatch writes the records of a detools patch. -/
def HDiff.WritesRecords (h : HDiff) : Prop :=
  ∀ fr to score blockSize patch, h.create fr to score blockSize PATCH_TYPE_SEQUENTIAL = .ok patch →
    ∃ ops, patch = encodeOps ops ∧ Rebuilds fr 0 ops to

end Detools
