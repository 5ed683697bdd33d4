import Verif.Model.PyContainers
/-
Model of detools/info.py: information about a patch without applying it. The
compression info (window and lookahead sizes of heatshrink) is left out.
-/
namespace Detools

/-- The `while byte & 0x80` loop of `unpack_size_with_length` on a patch reader, with the
number of bits. detools/common.py:130-137. -/
def PatchReader.unpackLoopLen {D : Decompressor} (readFuel : Nat) :
    (fuel : Nat) → PatchReader D → (value offset : Nat) → Except PyErr (Nat × Nat × PatchReader D)
  | 0, _, _, _ => .error .timeout
  | fuel + 1, r, value, offset => do
    let (byte, r) ← r.readByte readFuel "Failed to read consecutive size byte."
    let value := value ||| ((byte.toNat &&& 0x7f) <<< offset)
    if byte &&& 0x80 ≠ 0 then PatchReader.unpackLoopLen readFuel fuel r value (offset + 7)
    else .ok (value, offset + 7, r)

/-- `unpack_size_with_length(patch_reader)`. The length is a float in Python, always
integral. detools/common.py:120-142. -/
def PatchReader.unpackSizeWithLength {D : Decompressor} (fuel : Nat) (r : PatchReader D) :
    Except PyErr (Int × Nat × PatchReader D) := do
  let (byte, r) ← r.readByte fuel "Failed to read first size byte."
  let isSigned := byte &&& 0x40 ≠ 0
  let value := byte.toNat &&& 0x3f
  let (value, offset, r) ←
    if byte &&& 0x80 ≠ 0 then PatchReader.unpackLoopLen fuel fuel r value 6 else .ok (value, 6, r)
  return (if isSigned then -(value : Int) else value, (offset - 6) / 7 + 1, r)

/-- The result of `patch_info_sequential_inner`. detools/info.py:69-73. -/
structure RecordsInfo where
  toSize : Int
  diffSizes : List Int
  extraSizes : List Int
  adjustmentSizes : List Int
  numberOfSizeBytes : Nat
deriving DecidableEq, Repr

/-- The loop of `patch_info_sequential_inner`, prepending instead of appending: the
information of the records from here on. detools/info.py:41-67. -/
def infoLoop {D : Decompressor} : (fuel : Nat) → (toPos toSize : Int) → PatchReader D → Except PyErr (RecordsInfo × PatchReader D)
  | 0, toPos, toSize, r => if toPos < toSize then .error .timeout else .ok (⟨toSize, [], [], [], 0⟩, r)
  | fuel + 1, toPos, toSize, r =>
    if toPos < toSize then do
      let (diffSize, n1, r) ← r.unpackSizeWithLength fuel
      if toPos + diffSize > toSize then .error (.error "Patch diff data too long.")
      else do
        let (_, r) ← r.read fuel diffSize.toNat
        let toPos := toPos + diffSize
        let (extraSize, n2, r) ← r.unpackSizeWithLength fuel
        if toPos + extraSize > toSize then .error (.error "Patch extra data too long.")
        else do
          let (_, r) ← r.read fuel extraSize.toNat
          let toPos := toPos + extraSize
          let (adjustment, n3, r) ← r.unpackSizeWithLength fuel
          let (info, r) ← infoLoop fuel toPos toSize r
          return (⟨toSize, diffSize :: info.diffSizes, extraSize :: info.extraSizes,
            adjustment :: info.adjustmentSizes, n1 + n2 + n3 + info.numberOfSizeBytes⟩, r)
    else .ok (⟨toSize, [], [], [], 0⟩, r)

/-- The result of `patch_info_sequential`: patch size, compression, size of the data
format patch, data format, and the records. The text made of the data format patch is
left out. detools/info.py:101-107. -/
structure SequentialInfo where
  patchSize : Nat
  compression : Compression
  dfpatchSize : Int
  dataFormat : Option Int
  records : RecordsInfo
deriving DecidableEq, Repr

/-- The data format part of `patch_info_sequential`. `dfInfo` is `data_format_info`
followed by `data_format_number_to_string`, which raise for unknown data formats.
detools/info.py:87-93. -/
def infoDataFormat {D : Decompressor} (dfInfo : Int → Bytes → Except PyErr Unit) (fuel : Nat) (r : PatchReader D) :
    Except PyErr (Int × Option Int × PatchReader D) := do
  let (dfpatchSize, r) ← r.unpackSize fuel
  if dfpatchSize > 0 then do
    let (dataFormat, r) ← r.unpackSize fuel
    let (patch, r) ← r.read fuel dfpatchSize.toNat
    dfInfo dataFormat patch
    return (dfpatchSize, some dataFormat, r)
  else return (dfpatchSize, none, r)

/-- `patch_info_sequential`. detools/info.py:76-107. -/
def infoSequential (lib : Lib) (dfInfo : Int → Bytes → Except PyErr Unit) (fuel : Nat) (patch : Bytes) : Except PyErr SequentialInfo := do
  let (compression, toSize, rest) ← readHeaderSequential patch
  if toSize = 0 then return ⟨patch.length, compression, 0, none, ⟨0, [], [], [], 0⟩⟩
  else do
    let codec := lib.codecOf compression
    let reader : PatchReader codec.decomp := { st := codec.initDecomp rest.length, file := rest }
    let (dfpatchSize, dataFormat, reader) ← infoDataFormat dfInfo fuel reader
    let (info, reader) ← infoLoop fuel 0 toSize reader
    if ¬ codec.decomp.eof reader.st then .error (.error "End of patch not found.")
    else return ⟨patch.length, compression, dfpatchSize, dataFormat, info⟩

/-- The loop over the segments of `patch_info_in_place`. `knows` tells whether
`data_format_number_to_string` knows a data format. detools/info.py:125-136. -/
def infoSegments {D : Decompressor} (knows : Int → Bool) (fuel : Nat) (segmentSize toSize : Int) :
    (left : Nat) → (i : Nat) → PatchReader D → Except PyErr (List (Int × Option Int × RecordsInfo) × PatchReader D)
  | 0, _, r => .ok ([], r)
  | left + 1, i, r => do
    let segmentToSize := min segmentSize (toSize - i * segmentSize)
    let (dfpatchSize, r) ← r.unpackSize fuel
    if dfpatchSize > 0 then do
      let (dataFormat, r) ← r.unpackSize fuel
      if ¬ knows dataFormat then .error (.error "Expected data format ...")
      else do
        let (_, r) ← r.read fuel dfpatchSize.toNat
        let (info, r) ← infoLoop fuel 0 segmentToSize r
        let (segments, r) ← infoSegments knows fuel segmentSize toSize left (i + 1) r
        return ((dfpatchSize, some dataFormat, info) :: segments, r)
    else do
      let (info, r) ← infoLoop fuel 0 segmentToSize r
      let (segments, r) ← infoSegments knows fuel segmentSize toSize left (i + 1) r
      return ((dfpatchSize, none, info) :: segments, r)

/-- The result of `patch_info_in_place`. detools/info.py:138-146. -/
structure InPlaceInfo where
  patchSize : Nat
  header : InPlaceHeader
  segments : List (Int × Option Int × RecordsInfo)
deriving DecidableEq, Repr

/-- `patch_info_in_place`. The end of the patch is not checked. detools/info.py:110-146. -/
def infoInPlace (lib : Lib) (knows : Int → Bool) (fuel : Nat) (patch : Bytes) : Except PyErr InPlaceInfo := do
  let (h, rest) ← readHeaderInPlace patch
  if h.toSize > 0 then
    let codec := lib.codecOf h.compression
    let reader : PatchReader codec.decomp := { st := codec.initDecomp rest.length, file := rest }
    if h.segmentSize = 0 then .error (.builtin "ValueError")
    else do
      let (segments, _) ← infoSegments knows fuel h.segmentSize h.toSize (rangeLength h.toSize h.segmentSize) 0 reader
      return ⟨patch.length, h, segments⟩
  else return ⟨patch.length, h, []⟩

/-- The result of `patch_info`. -/
inductive PatchInfo where
  | sequential (info : SequentialInfo)
  | inPlace (info : InPlaceInfo)
  /-- patch size, compression and to size -/
  | hdiffpatch (patchSize : Nat) (compression : Compression) (toSize : Int)
deriving DecidableEq, Repr

/-- `patch_info` with `patch_info_hdiffpatch`. detools/info.py:149-180. -/
def patchInfo (lib : Lib) (dfInfo : Int → Bytes → Except PyErr Unit) (knows : Int → Bool) (fuel : Nat) (patch : Bytes) : Except PyErr PatchInfo := do
  let patchType ← peekHeaderType patch
  if patchType = PATCH_TYPE_SEQUENTIAL then (infoSequential lib dfInfo fuel patch).map .sequential
  else if patchType = PATCH_TYPE_IN_PLACE then (infoInPlace lib knows fuel patch).map .inPlace
  else if patchType = PATCH_TYPE_HDIFFPATCH then do
    let (compression, toSize, _, _) ← readHeaderHdiffpatch patch
    return .hdiffpatch patch.length compression toSize
  else .error (.error "Bad patch type ...")

end Detools
