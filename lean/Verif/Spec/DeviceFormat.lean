import Verif.Spec.Device
import Verif.Spec.Segments
import Verif.Spec.CFormat
/-
In-place patches for a device, whoever made them.
-/
namespace Detools

variable [Build]

/-- `body` is `plain`, compressed in a way the C library can decompress: CRLE without empty
segments and with sizes of at most four bytes, heatshrink with a window of 8 and a
lookahead of 7 bits, or whatever the LZMA library the C library is built with decompresses. -/
inductive DeviceBody : Compression → Bytes → Bytes → Prop
  | none {plain} : DeviceBody .none plain plain
  | crle {body plain} : CrleDec 0 body plain → CrleSmall 0 body → DeviceBody .crle body plain
  | heatshrink {x plain} : HsEncodes 8 7 x plain → plain ≠ [] → DeviceBody .heatshrink (0x44 :: x) plain
  | lzma {L body plain} : Build.lzma = some L → L.Decompresses body plain → DeviceBody .lzma body plain
  /-- There is nothing to decompress. -/
  | nothing {c} : c = .none ∨ c = .crle ∨ c = .heatshrink ∨ c = .lzma ∧ Build.lzma ≠ none → DeviceBody c [] []

/-- `patch` is an in-place patch with this header, for a device with `memory` bytes. It has
one list of records per segment of `to`, which rebuild it from the part of the from-data
that was moved by `shift` and is not overwritten by the segment. The moved segments are
inside the memory, the shift is at least one segment, and sizes are of at most four bytes. -/
structure DeviceFormat (c : Compression) (memory seg shift : Nat) (fr to patch : Bytes) : Prop where
  format : ∃ (body : Bytes) (opss : List (List Op)),
    patch = packHeader PATCH_TYPE_IN_PLACE c.toNumber ++ packSize memory ++ packSize seg ++ packSize shift ++ packSize fr.length ++
      packSize to.length ++ body ∧
    DeviceBody c body (encodeSegments opss) ∧
    SegOps (fr.take (memory - shift)) to seg shift 0 opss ∧
    opss.length = toSegments seg to.length ∧
    ∀ ops ∈ opss, ∀ op ∈ ops, op.adjustment.natAbs < 2 ^ 27
  segPos : 0 < seg
  segLe : seg ≤ shift
  room : movedSegments memory seg shift fr.length * seg + shift ≤ memory
  fits : to.length ≤ memory
  small : memory < 2 ^ 27
  size : patch.length < 2 ^ 62

end Detools
