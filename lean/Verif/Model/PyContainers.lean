import Verif.Model.PyInPlace
/-
Model of the other patch containers in Python: BSDIFF40, hdiffpatch and match-blocks,
and of the dispatch in `create_patch` and `apply_patch`.
-/
namespace Detools

/-! ### BSDIFF40 integers -/

/-- `n` bytes of `v`, least significant first: `struct.pack('<Q', v)` for `n = 8`. -/
def leBytes : (n : Nat) → (v : Nat) → Bytes
  | 0, _ => []
  | n + 1, v => UInt8.ofNat (v % 256) :: leBytes n (v / 256)

/-- `struct.unpack('<Q', data)` for 8 bytes. -/
def leValue : Bytes → Nat
  | [] => 0
  | b :: bs => b.toNat + 256 * leValue bs

/-- `offtout`. `struct.pack` raises outside the range of 64 bits.
detools/create.py:330-335. -/
def offtout (x : Int) : Except PyErr Bytes :=
  let v : Nat := if x < 0 then x.natAbs ||| 2 ^ 63 else x.natAbs
  if 2 ^ 64 ≤ v then .error (.builtin "struct.error") else .ok (leBytes 8 v)

/-- `offtin`. `struct.unpack` raises unless there are 8 bytes. detools/apply.py:218-225. -/
def offtin (data : Bytes) : Except PyErr Int :=
  if data.length ≠ 8 then .error (.builtin "struct.error")
  else
    let x := leValue data
    if 2 ^ 63 ≤ x then .ok (-((x - 2 ^ 63 : Nat) : Int)) else .ok x

/-! ### BSDIFF40 patches -/

/-- `offtout(unpack_size_bytes(chunk))`. detools/create.py:363. -/
def sizeChunk (chunk : Bytes) : Except PyErr Bytes := do
  let (v, _) ← unpackSize chunk
  offtout v

/-- The three lists of strings given to the compressors by the loop over the chunks:
control, diff and extra. detools/create.py:362-370. -/
def bsdiffSplit : List Bytes → Except PyErr (List Bytes × List Bytes × List Bytes)
  | [] => .ok ([], [], [])
  | a :: diff :: b :: extra :: c :: rest => do
    let a ← sizeChunk a
    let b ← sizeChunk b
    let c ← sizeChunk c
    let (ctrl, diffs, extras) ← bsdiffSplit rest
    return (a :: b :: c :: ctrl, diff :: diffs, extra :: extras)
  | _ => .error (.builtin "IndexError")

/-- `b'BSDIFF40'`. -/
def bsdiffMagic : Bytes := [66, 83, 68, 73, 70, 70, 52, 48]

/-- `create_patch_bsdiff`. detools/create.py:338-386. -/
def createBsdiff (lib : Lib) (fr to : Bytes) : Except PyErr Bytes := do
  let chunks ← createChunks lib fr to
  let (ctrl, diffs, extras) ← bsdiffSplit chunks
  let comp := (lib.codecOf .bz2).comp
  let fctrl := comp.run ctrl
  let fdiff := comp.run diffs
  let fextra := comp.run extras
  let a ← offtout fctrl.length
  let b ← offtout fdiff.length
  let c ← offtout to.length
  return bsdiffMagic ++ a ++ b ++ c ++ fctrl ++ fdiff ++ fextra

/-- `f.read(n)` on the unread rest of a file: a negative `n` reads everything. -/
def readInt (file : Bytes) (n : Int) : Bytes × Bytes :=
  if n < 0 then (file, []) else (file.take n.toNat, file.drop n.toNat)

/-- `read_header_bsdiff`: control size, diff size, to size and the unread rest.
detools/apply.py:228-244. -/
def readHeaderBsdiff (patch : Bytes) : Except PyErr (Int × Int × Int × Bytes) :=
  if patch.take 8 ≠ bsdiffMagic then .error (.error "Expected magic 'BSDIFF40' ...")
  else do
    let ctrlSize ← offtin ((patch.drop 8).take 8)
    let diffSize ← offtin ((patch.drop 16).take 8)
    let toSize ← offtin ((patch.drop 24).take 8)
    return (ctrlSize, diffSize, toSize, patch.drop 32)

/-- The state of the loop of `apply_patch_bsdiff`: the three decompressors and the
from-file. -/
structure BsdiffStreams (D : Decompressor) where
  ctrl : D.σ
  diff : D.σ
  extra : D.σ
  from_ : PyFile

/-- `offtin(ctrl_decompressor.decompress(b'', 8))`. detools/apply.py:464-466. -/
def readCtrl {D : Decompressor} (st : D.σ) : Except PyErr (Int × D.σ) := do
  let (st, data) ← D.decompress st [] 8
  let v ← offtin data
  return (v, st)

/-- The diff part of a round: new `to_pos`. detools/apply.py:468-476. -/
def bsdiffDiff {D : Decompressor} (s : BsdiffStreams D) (toPos toSize size : Int) : W (Int × BsdiffStreams D) :=
  if toPos + size > toSize then W.lift (.error (.error "Patch diff data too long."))
  else if size > 0 then do
    let (diff, data) ← W.lift (D.decompress s.diff [] size.toNat)
    let (fromData, from_) := s.from_.read size.toNat
    let data ← W.lift (addBytes data fromData)
    W.write data
    return (toPos + size, { s with diff := diff, from_ := from_ })
  else W.pure (toPos, s)

/-- The extra part of a round: new `to_pos`. detools/apply.py:478-485. -/
def bsdiffExtra {D : Decompressor} (s : BsdiffStreams D) (toPos toSize size : Int) : W (Int × BsdiffStreams D) :=
  if toPos + size > toSize then W.lift (.error (.error "Patch extra data too long."))
  else if size > 0 then do
    let (extra, data) ← W.lift (D.decompress s.extra [] size.toNat)
    W.write data
    return (toPos + size, { s with extra := extra })
  else W.pure (toPos, s)

/-- `while to_pos < to_size` of `apply_patch_bsdiff`. detools/apply.py:462-488. -/
def bsdiffLoop {D : Decompressor} : (fuel : Nat) → (toPos toSize : Int) → BsdiffStreams D → W (BsdiffStreams D)
  | 0, toPos, toSize, s => if toPos < toSize then W.lift (.error .timeout) else W.pure s
  | fuel + 1, toPos, toSize, s =>
    if toPos < toSize then do
      let (diffSize, ctrl) ← W.lift (readCtrl s.ctrl)
      let (extraSize, ctrl) ← W.lift (readCtrl ctrl)
      let (adjustment, ctrl) ← W.lift (readCtrl ctrl)
      let (toPos, s) ← bsdiffDiff { s with ctrl := ctrl } toPos toSize diffSize
      let (toPos, s) ← bsdiffExtra s toPos toSize extraSize
      let from_ ← W.lift (s.from_.seekCur adjustment)
      bsdiffLoop fuel toPos toSize { s with from_ := from_ }
    else W.pure s

/-- `apply_patch_bsdiff`: what is written to the to-file and the returned size or
exception. `BZ2Decompressor()` takes no argument: `initDecomp 0`.
detools/apply.py:436-499. -/
def applyBsdiff (lib : Lib) (fuel : Nat) (from_ : PyFile) (patch : Bytes) : W Int := do
  let (ctrlSize, diffSize, toSize, rest) ← W.lift (readHeaderBsdiff patch)
  let codec := lib.codecOf .bz2
  let (ctrl, rest) := readInt rest ctrlSize
  let (diff, rest) := readInt rest diffSize
  let (ctrl, _) ← W.lift (codec.decomp.decompress (codec.initDecomp 0) ctrl 0)
  let (diff, _) ← W.lift (codec.decomp.decompress (codec.initDecomp 0) diff 0)
  let (extra, _) ← W.lift (codec.decomp.decompress (codec.initDecomp 0) rest 0)
  let s ← bsdiffLoop fuel 0 toSize { ctrl := ctrl, diff := diff, extra := extra, from_ := from_ }
  if ¬ codec.decomp.eof s.ctrl then W.lift (.error (.error "End of control data not found."))
  else if ¬ codec.decomp.eof s.diff then W.lift (.error (.error "End of diff data not found."))
  else if ¬ codec.decomp.eof s.extra then W.lift (.error (.error "End of extra data not found."))
  else return toSize

/-! ### HDiffPatch -/

/-- The extension module `hdiffpatch` (its library, HDiffPatch, is not part of the
repository). `create from to match_score match_block_size patch_type`, `apply from patch`.
detools/hdiffpatch.cpp:185-226, 300-370. -/
structure HDiff where
  create : Bytes → Bytes → (score blockSize patchType : Nat) → Except PyErr Bytes
  apply : Bytes → Bytes → Except PyErr Bytes

/-- `mmap_read_only`: needs a file with a file number, and one that is not empty.
detools/create.py:88-89. -/
def mmapReadOnly (realFile : Bool) (data : Bytes) : Except PyErr Bytes :=
  if ¬ realFile then .error (.builtin "UnsupportedOperation")
  else if data = [] then .error (.builtin "ValueError")
  else .ok data

/-- `create_patch_hdiffpatch_generic`. detools/create.py:389-408. -/
def createHdiffGeneric (h : HDiff) (realFiles useMmap : Bool) (fr to : Bytes) (score blockSize patchType : Nat) :
    Except PyErr Bytes :=
  if useMmap then do
    let fr ← mmapReadOnly realFiles fr
    let to ← mmapReadOnly realFiles to
    h.create fr to score blockSize patchType
  else h.create fr to score blockSize patchType

/-- `create_patch_hdiffpatch`. detools/create.py:411-443. -/
def createHdiffpatch (lib : Lib) (h : HDiff) (realFiles useMmap : Bool) (c : Compression) (score : Nat) (fr to : Bytes) :
    Except PyErr Bytes := do
  let patch ← createHdiffGeneric h realFiles useMmap fr to score 0 PATCH_TYPE_HDIFFPATCH
  let toSize ← pyPackSize to.length
  let patchSize ← pyPackSize patch.length
  return packHeader PATCH_TYPE_HDIFFPATCH c.toNumber ++ toSize ++ patchSize ++ (lib.codecOf c).comp.run [patch]

/-- The argument `patch_type` of `create_patch`. -/
inductive PatchType where
  | sequential | inPlace | bsdiff | hdiffpatch
  /-- any other string -/
  | other
deriving DecidableEq, Repr

/-- The argument `algorithm` of `create_patch`. -/
inductive Algorithm where
  | bsdiff | hdiffpatch | matchBlocks
  /-- any other string -/
  | other
deriving DecidableEq, Repr

/-- `PATCH_TYPES[patch_type]`. detools/common.py:13-17. -/
def PatchType.number : PatchType → Except PyErr Nat
  | .sequential => .ok PATCH_TYPE_SEQUENTIAL
  | .inPlace => .ok PATCH_TYPE_IN_PLACE
  | .hdiffpatch => .ok PATCH_TYPE_HDIFFPATCH
  | _ => .error (.builtin "KeyError")

/-- `create_patch_match_blocks`. detools/create.py:446-488. -/
def createMatchBlocks (lib : Lib) (h : HDiff) (realFiles useMmap : Bool) (c : Compression) (patchType : PatchType)
    (blockSize : Nat) (fr to : Bytes) : Except PyErr Bytes := do
  let number ← patchType.number
  let patch ← createHdiffGeneric h realFiles useMmap fr to 0 blockSize number
  match patchType with
  | .hdiffpatch => do
    let toSize ← pyPackSize to.length
    let patchSize ← pyPackSize patch.length
    return packHeader PATCH_TYPE_HDIFFPATCH c.toNumber ++ toSize ++ patchSize ++ (lib.codecOf c).comp.run [patch]
  | .sequential => do
    let toSize ← pyPackSize to.length
    let zero ← pyPackSize 0
    return packHeader PATCH_TYPE_SEQUENTIAL c.toNumber ++ toSize ++ (lib.codecOf c).comp.run [zero, patch]
  | _ => .error (.error "Bad patch type ...")

/-- `read_header_hdiffpatch`: compression, to size, patch size and the unread rest.
detools/apply.py:167-188. -/
def readHeaderHdiffpatch (patch : Bytes) : Except PyErr (Compression × Int × Int × Bytes) :=
  match patch with
  | [] => .error (.error "Failed to read the patch header.")
  | b :: rest => do
    let (patchType, compression) := unpackHeader b
    if patchType ≠ PATCH_TYPE_HDIFFPATCH then .error (.error "Expected patch type ...")
    else do
      let compression ← convertCompression compression
      let (toSize, rest) ← unpackSize rest
      let (patchSize, rest) ← unpackSize rest
      return (compression, toSize, patchSize, rest)

/-- `apply_patch_hdiffpatch`. It returns the number of bytes written.
detools/apply.py:502-525. -/
def applyHdiffpatch (lib : Lib) (h : HDiff) (fuel : Nat) (from_ : PyFile) (patch : Bytes) : W Int := do
  let (compression, toSize, patchSize, rest) ← W.lift (readHeaderHdiffpatch patch)
  if toSize = 0 then return toSize
  else do
    let codec := lib.codecOf compression
    let reader : PatchReader codec.decomp := { st := codec.initDecomp rest.length, file := rest }
    let (data, _) ← W.lift (reader.read fuel patchSize.toNat)
    let toData ← W.lift (h.apply from_.data data)
    W.write toData
    return toData.length

/-! ### Dispatch -/

/-- The arguments of `create_patch` other than the files; the arguments of the data
format are part of `dataFormat`. Defaults are those of the function: lzma,
sequential, bsdiff. detools/create.py:491-518. -/
structure CreateArgs where
  compression : Compression := .lzma
  patchType : PatchType := .sequential
  algorithm : Algorithm := .bsdiff
  memorySize : Option Int := none
  segmentSize : Option Int := none
  minimumShiftSize : Option Int := none
  dataFormat : Option DataFormat := none
  matchScore : Nat := 6
  matchBlockSize : Nat := 64
  useMmap : Bool := true

/-- `create_patch`. In-place creation computes with `None` when a size is missing:
TypeError. detools/create.py:491-612. -/
def createPatch (lib : Lib) (h : HDiff) (realFiles : Bool) (args : CreateArgs) (fr to : Bytes) : Except PyErr Bytes :=
  match args.algorithm, args.patchType with
  | .bsdiff, .sequential => createSequential lib args.compression args.dataFormat fr to
  | .bsdiff, .inPlace =>
    match args.memorySize, args.segmentSize with
    | some memory, some segment => createInPlace lib args.compression memory segment args.minimumShiftSize args.dataFormat fr to
    | _, _ => .error (.builtin "TypeError")
  | .bsdiff, .bsdiff => createBsdiff lib fr to
  | .hdiffpatch, .hdiffpatch => createHdiffpatch lib h realFiles args.useMmap args.compression args.matchScore fr to
  | .matchBlocks, t => createMatchBlocks lib h realFiles args.useMmap args.compression t args.matchBlockSize fr to
  | _, _ => .error (.error "Bad algorithm and patch type combination.")

/-- `peek_header_type`. detools/common.py:194-202. -/
def peekHeaderType (patch : Bytes) : Except PyErr Nat :=
  match patch with
  | [] => .error (.error "Failed to read the patch header.")
  | b :: _ => .ok (unpackHeader b).1

/-- `apply_patch`. detools/apply.py:325-347. -/
def applyPatch (lib : Lib) (h : HDiff) (formats : Int → Option DataFormat) (fuel : Nat) (from_ : PyFile) (patch : Bytes) : W Int := do
  let patchType ← W.lift (peekHeaderType patch)
  if patchType = PATCH_TYPE_SEQUENTIAL then applySequential lib formats fuel from_ patch
  else if patchType = PATCH_TYPE_HDIFFPATCH then applyHdiffpatch lib h fuel from_ patch
  else W.lift (.error (.error "Bad patch type ..."))

end Detools
