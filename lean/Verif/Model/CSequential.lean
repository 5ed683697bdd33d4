import Verif.Model.CReader
/-
Model of the low level sequential API of the C library: detools_apply_patch_init,
_process, _finalize, _dump and _restore. c/detools.c:1091-1523.
-/
namespace Detools

variable [Build]

/-- The user's callbacks, over the user's state `σ` (what `arg_p` points to). A read
returns the return code and the bytes put in the buffer. c/detools.h:97-128. -/
structure SeqEnv (σ : Type) where
  fromRead : σ → Nat → Int × Bytes × σ
  fromSeek : σ → Int → Int × σ
  toWrite : σ → Bytes → Int × σ

/-- Observable effects, in order. -/
inductive Ev where
  | read (n : Nat) (res : Int)
  | seek (offset : Int) (res : Int)
  | write (data : Bytes) (res : Int)
deriving DecidableEq, Repr

/-- The user's state and the (ghost) record of the callbacks made, newest first. -/
structure World (σ : Type) where
  arg : σ
  trace : List Ev := []
deriving DecidableEq, Repr

/-- `enum detools_apply_patch_state_t`. c/detools.h:315-325. -/
inductive SeqPhase where
  | init | dfpatchSize | diffSize | diffData | extraSize | extraData | adjustment | done | failed
deriving DecidableEq, Repr

/-- `enum detools_apply_patch_init_state_t`. c/detools.h:327-330. -/
inductive InitPhase where
  | fixedHeader | toSize
deriving DecidableEq, Repr

/-- `struct detools_apply_patch_t`. Members never written are 0 here; `reader = none`
while `patch_reader.destroy == NULL`. c/detools.h:335-354. -/
structure ApplyPatch where
  state : SeqPhase := .init
  initState : InitPhase := .fixedHeader
  patchSize : Nat
  patchOffset : Nat := 0
  compression : Nat := 0
  toOffset : Nat := 0
  toSize : Nat := 0
  fromOffset : Int := 0
  chunkSize : Nat := 0
  /-- `size` -/
  size : SizeAcc := {}
  /-- `patch_reader.size` -/
  readerSize : SizeAcc := {}
  reader : Option CReader := none
  chunk : Chunk := {}
deriving DecidableEq, Repr

/-- `detools_apply_patch_init`. c/detools.c:1395-1415. -/
def applyPatchInit (patchSize : Nat) : ApplyPatch := { patchSize := patchSize }

/-- Result of one processing step: the return value and the new state. -/
abbrev SeqRes (σ : Type) := Int × ApplyPatch × World σ

/-- `process_init_fixed_header`. c/detools.c:1095-1115. -/
def processInitFixedHeader (s : ApplyPatch) (w : World σ) : C (SeqRes σ) := do
  match ← s.chunk.get with
  | none => .ok (SHORT_HEADER, s, w)
  | some (byte, chunk) =>
    let s := { s with chunk := chunk, compression := byte.toNat &&& 0xf }
    if (byte.toNat >>> 4) &&& 0x7 ≠ 0 then .ok (BAD_PATCH_TYPE, s, w)
    else .ok (0, { s with initState := .toSize, size := { s.size with state := .first } }, w)

/-- `process_init_to_size`. `patch_size - chunk.offset` is a `size_t`; `to_size < 0`
is dead code (the header size is never negative) kept as written.
c/detools.c:1117-1150. -/
def processInitToSize (s : ApplyPatch) (w : World σ) : C (SeqRes σ) := do
  match ← chunkUnpackHeaderSize (s.chunk.left + 1) s.chunk s.size with
  | (.more, chunk, size) => .ok (1, { s with chunk := chunk, size := size }, w)
  | (.fail e, chunk, size) => .ok (e, { s with chunk := chunk, size := size }, w)
  | (.value toSize, chunk, size) =>
    let s := { s with chunk := chunk, size := size, readerSize := { s.readerSize with state := .first } }
    match CReader.init (szOfInt (s.patchSize - s.chunk.offset)) s.compression with
    | none => .ok (BAD_COMPRESSION, s, w)
    | some r =>
      let s := { s with reader := some r }
      if toSize < 0 then .ok (CORRUPT_PATCH, s, w)
      else
        let s := { s with toSize := szOfInt toSize }
        if toSize > 0 then .ok (0, { s with state := .dfpatchSize }, w)
        else .ok (0, { s with state := .done }, w)

/-- `process_init`. c/detools.c:1152-1172. -/
def processInit (s : ApplyPatch) (w : World σ) : C (SeqRes σ) :=
  match s.initState with
  | .fixedHeader => processInitFixedHeader s w
  | .toSize => processInitToSize s w

/-- `patch_reader_unpack_size(&self_p->patch_reader, &size)`. -/
def ApplyPatch.unpackSize (s : ApplyPatch) : C (SizeRes × ApplyPatch) :=
  match s.reader with
  | none => .error .uninit
  | some r => do
    let (v, r, c, a) ← patchReaderUnpackSize r s.chunk s.readerSize
    return (v, { s with reader := some r, chunk := c, readerSize := a })

/-- `process_dfpatch_size`. c/detools.c:1174-1192. -/
def processDfpatchSize (s : ApplyPatch) (w : World σ) : C (SeqRes σ) := do
  match ← s.unpackSize with
  | (.more, s) => .ok (1, s, w)
  | (.fail e, s) => .ok (e, s, w)
  | (.value size, s) =>
    if size > 0 then .ok (NOT_IMPLEMENTED, s, w)
    else .ok (0, { s with state := .diffSize }, w)

/-- `common_process_size`: the sum is a `size_t`. c/detools.c:1070-1089. -/
def sizeTooBig (toPos toSize : Nat) (size : Int) : Bool := sz (toPos + szOfInt size) > toSize

/-- `process_size`. c/detools.c:1194-1213. -/
def processSize (s : ApplyPatch) (w : World σ) (next : SeqPhase) : C (SeqRes σ) := do
  match ← s.unpackSize with
  | (.more, s) => .ok (1, s, w)
  | (.fail e, s) => .ok (e, s, w)
  | (.value size, s) =>
    if sizeTooBig s.toOffset s.toSize size then .ok (CORRUPT_PATCH, s, w)
    else .ok (0, { s with state := next, chunkSize := szOfInt size }, w)

/-- Value of an out-of-range conversion to a 32-bit `int` (GCC, Clang). -/
def wrapInt (x : Int) : Int := (x + 2 ^ 31) % 2 ^ 32 - 2 ^ 31

/-- `to[i] = (uint8_t)(to[i] + from[i])` for `i < to_size`. c/detools.c:1251-1253. -/
def sumBytes (to fr : Bytes) : Bytes := List.zipWith (· + ·) to fr

/-- The end of `process_data`, from the update of `to_offset`. c/detools.c:1256-1264. -/
def processWrite (E : SeqEnv σ) (s : ApplyPatch) (w : World σ) (to : Bytes) : C (SeqRes σ) :=
  let s := { s with
    toOffset := sz (s.toOffset + to.length)
    chunkSize := szOfInt ((s.chunkSize : Int) - to.length) }
  let (res, arg) := E.toWrite w.arg to
  let w := { arg := arg, trace := .write to res :: w.trace }
  if res ≠ 0 then .ok (IO_FAILED, s, w) else .ok (0, s, w)

/-- The size of the buffers `to` and `from` of `process_data`. c/detools.c:1220-1222. -/
def dataCap : Nat := 128

/-- `process_data`. `diff` is `next_state == detools_apply_patch_state_extra_size_t`. A
read callback that returns 0 without filling the buffer makes the sum use
uninitialised bytes. c/detools.c:1215-1264. -/
def processData (E : SeqEnv σ) (s : ApplyPatch) (w : World σ) (next : SeqPhase) (diff : Bool) : C (SeqRes σ) :=
  let size := min dataCap s.chunkSize
  if size = 0 then .ok (0, { s with state := next }, w)
  else
    match s.reader with
    | none => .error .uninit
    | some r => do
      match ← r.decompress s.chunk dataCap size with
      | (.more, r, c) => .ok (1, { s with reader := some r, chunk := c }, w)
      | (.fail e, r, c) => .ok (e, { s with reader := some r, chunk := c }, w)
      | (.ok to, r, c) =>
        let s := { s with reader := some r, chunk := c }
        if diff then
          let (res, fr, arg) := E.fromRead w.arg to.length
          let w := { arg := arg, trace := .read to.length res :: w.trace }
          if res ≠ 0 then .ok (IO_FAILED, s, w)
          else if fr.length ≠ to.length then .error .uninit
          else
            let s := { s with fromOffset := wrapInt (s.fromOffset + to.length) }
            processWrite E s w (sumBytes to fr)
        else processWrite E s w to

/-- `process_adjustment`. `from_offset += offset` is a signed sum.
c/detools.c:1286-1312. -/
def processAdjustment (E : SeqEnv σ) (s : ApplyPatch) (w : World σ) : C (SeqRes σ) := do
  match ← s.unpackSize with
  | (.more, s) => .ok (1, s, w)
  | (.fail e, s) => .ok (e, s, w)
  | (.value offset, s) =>
    let (res, arg) := E.fromSeek w.arg offset
    let w := { arg := arg, trace := .seek offset res :: w.trace }
    if res ≠ 0 then .ok (IO_FAILED, s, w)
    else if s.fromOffset + offset < -2 ^ 31 ∨ 2 ^ 31 ≤ s.fromOffset + offset then .error .overflow
    else
      let s := { s with fromOffset := s.fromOffset + offset }
      if s.toOffset = s.toSize then .ok (0, { s with state := .done }, w)
      else .ok (0, { s with state := .diffSize }, w)

/-- The `switch` of `apply_patch_process_once`. c/detools.c:1318-1358. -/
def processSwitch (E : SeqEnv σ) (s : ApplyPatch) (w : World σ) : C (SeqRes σ) :=
  match s.state with
  | .init => processInit s w
  | .dfpatchSize => processDfpatchSize s w
  | .diffSize => processSize s w .diffData
  | .diffData => processData E s w .extraSize true
  | .extraSize => processSize s w .extraData
  | .extraData => processData E s w .adjustment false
  | .adjustment => processAdjustment E s w
  | .done => .ok (ALREADY_DONE, s, w)
  | .failed => .ok (ALREADY_FAILED, s, w)

/-- `apply_patch_process_once`. c/detools.c:1314-1365. -/
def processOnce (E : SeqEnv σ) (s : ApplyPatch) (w : World σ) : C (SeqRes σ) :=
  if s.state = .done then .ok (ALREADY_DONE, s, w)
  else do
    let (res, s, w) ← processSwitch E s w
    if res < 0 then .ok (res, { s with state := .failed }, w) else .ok (res, s, w)

/-- Bytes (and empty segments) the reader can still deliver without input, an upper
bound; used for the fuel only. -/
def CReader.backlog : CReader → Nat
  | .raw .. => 0
  | .lzma s => s.output.length + 2 ^ 32 * s.input.length + match Build.lzma with | none => 0 | some L => L.held s.dec
  | .crle (.repeatedDataRead _ left) => left + 1
  | .crle (.repeatedData left) => left + 1
  | .crle (.scatteredData _) => 1
  | .crle _ => 0
  | .heatshrink none => 0
  | .heatshrink (some h) =>
    2 ^ 16 * (8 * (h.inputSize - h.inputIndex) + (if h.bitIndex = 0 then 0 else h.bitIndex.log2 + 1)) +
      (if h.state = .yieldBackref then h.outputCount else 0)

/-- Fuel for the loops of process and finalize: more than the steps they take
(C13). -/
@[irreducible] def ApplyPatch.fuel (s : ApplyPatch) : Nat :=
  8 + 3 * (2 ^ 32 * (1 + s.chunk.left) + match s.reader with | none => 0 | some r => r.backlog)

/-- The `while` loop of `detools_apply_patch_process`. c/detools.c:1498-1500. -/
def processLoop (E : SeqEnv σ) : (fuel : Nat) → (res : Int) → ApplyPatch → World σ → C (SeqRes σ)
  | 0, _, _, _ => .error .timeout
  | fuel + 1, res, s, w =>
    if s.chunk.available ∧ res ≥ 0 then do
      let (res, s, w) ← processOnce E s w
      processLoop E fuel res s w
    else .ok (res, s, w)

/-- `detools_apply_patch_process`. c/detools.c:1486-1507. -/
def applyPatchProcess (E : SeqEnv σ) (s : ApplyPatch) (w : World σ) (patch : Bytes) : C (SeqRes σ) := do
  let s := { s with
    patchOffset := sz (s.patchOffset + patch.length)
    chunk := { buf := patch, offset := 0 } }
  let (res, s, w) ← processLoop E s.fuel 0 s w
  if res = 1 ∨ res = ALREADY_DONE then .ok (0, s, w) else .ok (res, s, w)

/-- The `do ... while` loop of `detools_apply_patch_finalize`. c/detools.c:1516-1518. -/
def finalizeLoop (E : SeqEnv σ) : (fuel : Nat) → ApplyPatch → World σ → C (SeqRes σ)
  | 0, _, _ => .error .timeout
  | fuel + 1, s, w => do
    let (res, s, w) ← processOnce E s w
    if res = 0 then finalizeLoop E fuel s w else .ok (res, s, w)

/-- `apply_patch_common_finalize`; the last conversion is `(int)to_size`.
c/detools.c:1367-1393. -/
def commonFinalize (res : Int) (reader : Option CReader) (toSize : Nat) : Int :=
  let res := if res = 1 then NOT_ENOUGH_PATCH_DATA else res
  let res := if res = ALREADY_DONE then 0 else res
  let res := match reader with
    | none => res
    | some r => if res = 0 then r.destroy else res
  if res = 0 then wrapInt toSize else res

/-- `detools_apply_patch_finalize`. `chunk.buf_p` is left as it is; with `size` 0 it
is never read. c/detools.c:1509-1523. -/
def applyPatchFinalize (E : SeqEnv σ) (s : ApplyPatch) (w : World σ) : C (SeqRes σ) := do
  let s := { s with chunk := { buf := [], offset := 0 } }
  let (res, s, w) ← finalizeLoop E s.fuel s w
  .ok (commonFinalize res s.reader s.toSize, s, w)

/-- `detools_apply_patch_dump` with a `state_write` that succeeds: the bytes written
are the object itself. Patch reader dumps only check the compression.
c/detools.c:1417-1435, 907-943. -/
def applyPatchDump (s : ApplyPatch) : Int × ApplyPatch :=
  if s.state = .init then (0, s)
  else if s.compression = 0 ∨ s.compression = 2 ∨ s.compression = 4 then (0, s)
  else (NOT_IMPLEMENTED, s)

/-- `detools_apply_patch_restore` with a `state_read` that succeeds and returns
`dumped`. `readerSize` and `reader` are parts of `patch_reader`.
c/detools.c:1437-1474, 945-992. -/
def applyPatchRestore (E : SeqEnv σ) (s : ApplyPatch) (w : World σ) (dumped : ApplyPatch) : SeqRes σ :=
  let s := { s with state := dumped.state, patchSize := dumped.patchSize }
  if s.state = .init then (0, s, w)
  else
    let s := { s with
      compression := dumped.compression, patchOffset := dumped.patchOffset
      toOffset := dumped.toOffset, toSize := dumped.toSize
      fromOffset := dumped.fromOffset, chunkSize := dumped.chunkSize }
    let (res, arg) := E.fromSeek w.arg s.fromOffset
    let w := { arg := arg, trace := .seek s.fromOffset res :: w.trace }
    if res ≠ 0 then (IO_FAILED, s, w)
    else
      let s := { s with reader := dumped.reader, readerSize := dumped.readerSize }
      if s.compression = 0 ∨ s.compression = 2 ∨ s.compression = 4 then (0, s, w)
      else (NOT_IMPLEMENTED, s, w)

/-- Process the pieces in order, stopping at the first non-zero return value: the
loop a user of the low level API writes (as `process` in c/detools.c:2187-2214). -/
def processAll (E : SeqEnv σ) : ApplyPatch → World σ → List Bytes → C (SeqRes σ)
  | s, w, [] => .ok (0, s, w)
  | s, w, p :: ps => do
    let (res, s, w) ← applyPatchProcess E s w p
    if res ≠ 0 then .ok (res, s, w) else processAll E s w ps

/-- A whole update through the low level API: init, process every piece, finalize. -/
def applyPieces (E : SeqEnv σ) (patchSize : Nat) (w : World σ) (pieces : List Bytes) : C (SeqRes σ) := do
  let (res, s, w) ← processAll E (applyPatchInit patchSize) w pieces
  if res ≠ 0 then .ok (res, s, w) else applyPatchFinalize E s w

/-! The environment with files: the old image is a byte sequence with a position, the
new image is what was written so far. -/

/-- The user's state for images in memory or files. -/
structure Files where
  pos : Int := 0
  out : Bytes := []
deriving DecidableEq, Repr

/-- `file_io_from_read`, `file_io_from_seek` and `file_io_to_write` on an old image
`fr`, with writes that succeed: reading past the end fails, seeking before the start
fails. c/detools.c:2429-2487. -/
def fileEnv (fr : Bytes) : SeqEnv Files where
  fromRead f n :=
    if n = 0 ∨ f.pos + n ≤ fr.length then (0, (fr.drop f.pos.toNat).take n, { f with pos := f.pos + n })
    else (FILE_READ_FAILED, [], f)
  fromSeek f off :=
    if f.pos + off < 0 then (-1, f) else (0, { f with pos := f.pos + off })
  toWrite f data := (0, { f with out := f.out ++ data })

end Detools
