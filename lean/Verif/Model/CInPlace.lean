import Verif.Model.CSequential
/-
Model of the low level in-place API of the C library:
detools_apply_patch_in_place_init, _process and _finalize. c/detools.c:1525-2181.
-/
namespace Detools

variable [Build]

/-- The user's callbacks, over the user's state `σ`. `stepSet` and `stepGet` may be
NULL (`none`). A memory read returns the return code and the bytes put in the buffer;
`stepGet` the return code and the completed step. c/detools.h:127-210. -/
structure MemEnv (σ : Type) where
  memRead : σ → (addr n : Nat) → Int × Bytes × σ
  memWrite : σ → (addr : Nat) → Bytes → Int × σ
  memErase : σ → (addr n : Nat) → Int × σ
  stepSet : Option (σ → Int → Int × σ)
  stepGet : Option (σ → Int × Int × σ)

/-- Observable effects: the callbacks made, their arguments and return values. -/
inductive MEv where
  | read (addr n : Nat) (res : Int)
  | write (addr : Nat) (data : Bytes) (res : Int)
  | erase (addr n : Nat) (res : Int)
  | stepSet (step : Int) (res : Int)
  | stepGet (step : Int) (res : Int)
deriving DecidableEq, Repr

/-- The user's state and the (ghost) record of the callbacks made, newest first. -/
structure MWorld (σ : Type) where
  arg : σ
  trace : List MEv := []
deriving DecidableEq, Repr

/-- `enum detools_apply_patch_in_place_init_state_t`. c/detools.h:354-361. -/
inductive IPInit where
  | fixedHeader | memorySize | segmentSize | shiftSize | fromSize | toSize
deriving DecidableEq, Repr

/-- The `segment` member. c/detools.h:386-392. -/
structure Segment where
  index : Nat := 0
  fromOffset : Int := 0
  toOffset : Nat := 0
  toSize : Nat := 0
  toPos : Nat := 0
deriving DecidableEq, Repr

/-- `struct detools_apply_patch_in_place_t`. Members never written are 0 here; `reader
= none` while `patch_reader.destroy == NULL`. c/detools.h:366-396. -/
structure InPlace where
  state : SeqPhase := .init
  initState : IPInit := .fixedHeader
  patchSize : Nat
  compression : Nat := 0
  ongoingStep : Int := 1
  toPos : Nat := 0
  toSize : Nat := 0
  fromSize : Nat := 0
  memorySize : Nat := 0
  segmentSize : Nat := 0
  shiftSize : Nat := 0
  chunkSize : Nat := 0
  segment : Segment := {}
  /-- `patch_reader.size` -/
  readerSize : SizeAcc := {}
  reader : Option CReader := none
  chunk : Chunk := {}
  /-- `size` -/
  size : SizeAcc := {}
deriving DecidableEq, Repr

/-- `detools_apply_patch_in_place_init`. c/detools.c:2118-2141. -/
def inPlaceInit (patchSize : Nat) : InPlace := { patchSize := patchSize }

/-- Result of one processing step: the return value and the new state. -/
abbrev IPRes (σ : Type) := Int × InPlace × MWorld σ

/-- Call `step_set` if it is not NULL; any return value but 0 becomes
STEP_SET_FAILED. c/detools.c:1535-1541, 1581-1585. -/
def callStepSet (E : MemEnv σ) (w : MWorld σ) (step : Int) : Int × MWorld σ :=
  match E.stepSet with
  | none => (0, w)
  | some f =>
    let (res, arg) := f w.arg step
    (if res ≠ 0 then STEP_SET_FAILED else 0, { arg := arg, trace := .stepSet step res :: w.trace })

/-- `in_place_all_steps_completed`. c/detools.c:1529-1544. -/
def allStepsCompleted (E : MemEnv σ) (w : MWorld σ) : Int × MWorld σ := callStepSet E w 0

/-- `in_place_is_step_completed`: the return value and `*res_p`.
c/detools.c:1546-1565. -/
def isStepCompleted (E : MemEnv σ) (ongoing : Int) (w : MWorld σ) : Int × Bool × MWorld σ :=
  match E.stepGet with
  | none => (0, false, w)
  | some f =>
    let (res, completed, arg) := f w.arg
    let w := { arg := arg, trace := .stepGet completed res :: w.trace }
    if res ≠ 0 then (STEP_GET_FAILED, false, w) else (0, ongoing ≤ completed, w)

/-- `in_place_next_step`. The `int` `ongoing_step` counts segments and cannot
overflow: it is kept unbounded. c/detools.c:1567-1593. -/
def nextStep (E : MemEnv σ) (s : InPlace) (w : MWorld σ) : IPRes σ :=
  match E.stepSet with
  | none => (0, { s with ongoingStep := s.ongoingStep + 1 }, w)
  | some _ =>
    let (res, completed, w) := isStepCompleted E s.ongoingStep w
    if res ≠ 0 then (res, s, w)
    else if completed then (0, { s with ongoingStep := s.ongoingStep + 1 }, w)
    else
      let (res, w) := callStepSet E w s.ongoingStep
      (res, { s with ongoingStep := s.ongoingStep + 1 }, w)

/-- `in_place_mem_read` into a buffer of at least `n` bytes. A callback that returns 0
without filling the buffer leaves bytes uninitialised. c/detools.c:1595-1616. -/
def ipRead (E : MemEnv σ) (ongoing : Int) (w : MWorld σ) (addr n : Nat) : C (Int × Bytes × MWorld σ) :=
  let (res, completed, w) := isStepCompleted E ongoing w
  if res ≠ 0 then .ok (res, [], w)
  else if completed then .ok (0, List.replicate n 0, w)
  else
    let (res, data, arg) := E.memRead w.arg addr n
    let w := { arg := arg, trace := .read addr n res :: w.trace }
    if res ≠ 0 then .ok (res, [], w)
    else if data.length ≠ n then .error .uninit
    else .ok (0, data, w)

/-- `in_place_mem_write`. c/detools.c:1618-1637. -/
def ipWrite (E : MemEnv σ) (ongoing : Int) (w : MWorld σ) (addr : Nat) (data : Bytes) : Int × MWorld σ :=
  let (res, completed, w) := isStepCompleted E ongoing w
  if res ≠ 0 then (res, w)
  else if completed then (0, w)
  else
    let (res, arg) := E.memWrite w.arg addr data
    (res, { arg := arg, trace := .write addr data res :: w.trace })

/-- `in_place_mem_erase`. c/detools.c:1639-1657. -/
def ipErase (E : MemEnv σ) (ongoing : Int) (w : MWorld σ) (addr n : Nat) : Int × MWorld σ :=
  let (res, completed, w) := isStepCompleted E ongoing w
  if res ≠ 0 then (res, w)
  else if completed then (0, w)
  else
    let (res, arg) := E.memErase w.arg addr n
    (res, { arg := arg, trace := .erase addr n res :: w.trace })

/-- The size of the buffer of `in_place_shift_memory`. c/detools.c:1668. -/
def shiftCap : Nat := 128

/-- The inner `while` loop of `in_place_shift_memory`: copy a segment. Fuel: one pass
moves at least one byte. c/detools.c:1688-1710. -/
def copyLoop (E : MemEnv σ) (ongoing : Int) (segmentSize readAddr writeAddr : Nat) :
    (fuel : Nat) → (offset : Nat) → MWorld σ → C (Int × MWorld σ)
  | 0, _, _ => .error .timeout
  | fuel + 1, offset, w =>
    if offset < segmentSize then do
      let size := min shiftCap (segmentSize - offset)
      let (res, buf, w) ← ipRead E ongoing w (sz (readAddr + offset)) size
      if res ≠ 0 then .ok (res, w)
      else
        let (res, w) := ipWrite E ongoing w (sz (writeAddr + offset)) buf
        if res ≠ 0 then .ok (res, w)
        else copyLoop E ongoing segmentSize readAddr writeAddr fuel (offset + size) w
    else .ok (0, w)

/-- One pass of the `for` loop of `in_place_shift_memory`. c/detools.c:1677-1717. -/
def shiftOne (E : MemEnv σ) (s : InPlace) (w : MWorld σ) (readAddr writeAddr : Nat) : C (IPRes σ) := do
  let (res, w) := ipErase E s.ongoingStep w writeAddr s.segmentSize
  if res ≠ 0 then .ok (res, s, w)
  else
    let (res, w) ← copyLoop E s.ongoingStep s.segmentSize readAddr writeAddr (s.segmentSize + 1) 0 w
    if res ≠ 0 then .ok (res, s, w) else .ok (nextStep E s w)

/-- The `for` loop of `in_place_shift_memory`, `n` passes left. Addresses are
unsigned. c/detools.c:1677-1721. -/
def shiftLoop (E : MemEnv σ) : (n : Nat) → InPlace → MWorld σ → (readAddr writeAddr : Nat) → C (IPRes σ)
  | 0, s, w, _, _ => .ok (0, s, w)
  | n + 1, s, w, readAddr, writeAddr => do
    let (res, s, w) ← shiftOne E s w readAddr writeAddr
    if res ≠ 0 then .ok (res, s, w)
    else shiftLoop E n s w (szOfInt ((readAddr : Int) - s.segmentSize)) (szOfInt ((writeAddr : Int) - s.segmentSize))

/-- `in_place_shift_memory`. All arithmetic is in `size_t`. c/detools.c:1659-1724. -/
def inPlaceShiftMemory (E : MemEnv σ) (s : InPlace) (w : MWorld σ) (memorySize fromSize : Nat) : C (IPRes σ) :=
  if s.segmentSize = 0 then .error .divZero
  else
    let n := sz (sz (min fromSize (szOfInt ((memorySize : Int) - s.shiftSize)) + s.segmentSize) + (2 ^ 64 - 1)) / s.segmentSize
    let readAddr := szOfInt (((n : Int) - 1) * s.segmentSize)
    shiftLoop E n s w readAddr (sz (readAddr + s.shiftSize))

/-- `in_place_process_init_fixed_header`. c/detools.c:1726-1747. -/
def ipInitFixedHeader (s : InPlace) (w : MWorld σ) : C (IPRes σ) := do
  match ← s.chunk.get with
  | none => .ok (SHORT_HEADER, s, w)
  | some (byte, chunk) =>
    let s := { s with chunk := chunk, compression := byte.toNat &&& 0xf }
    if (byte.toNat >>> 4) &&& 0x7 ≠ 1 then .ok (BAD_PATCH_TYPE, s, w)
    else .ok (0, { s with initState := .memorySize, size := { s.size with state := .first } }, w)

/-- `chunk_unpack_header_size(&self_p->chunk, &self_p->size, ...)`. -/
def InPlace.headerSize (s : InPlace) : C (SizeRes × InPlace) := do
  let (r, chunk, size) ← chunkUnpackHeaderSize (s.chunk.left + 1) s.chunk s.size
  return (r, { s with chunk := chunk, size := size })

/-- `in_place_process_init_memory_size`, `_segment_size`, `_shift_size` and
`_from_size`: decode a size and store it with `set`. c/detools.c:1749-1823. -/
def ipInitSize (s : InPlace) (w : MWorld σ) (next : IPInit) (set : InPlace → Nat → InPlace) : C (IPRes σ) := do
  match ← s.headerSize with
  | (.more, s) => .ok (1, s, w)
  | (.fail e, s) => .ok (e, s, w)
  | (.value v, s) =>
    let s := set s (szOfInt v)
    .ok (0, { s with initState := next, size := { s.size with state := .first } }, w)

/-- `in_place_process_init_to_size`. c/detools.c:1825-1869. -/
def ipInitToSize (E : MemEnv σ) (s : InPlace) (w : MWorld σ) : C (IPRes σ) := do
  match ← s.headerSize with
  | (.more, s) => .ok (1, s, w)
  | (.fail e, s) => .ok (e, s, w)
  | (.value toSize, s) =>
    let s := { s with readerSize := { s.readerSize with state := .first } }
    match CReader.init (szOfInt (s.patchSize - s.chunk.offset)) s.compression with
    | none => .ok (BAD_COMPRESSION, s, w)
    | some r =>
      let s := { s with reader := some r }
      if toSize < 0 then .ok (CORRUPT_PATCH, s, w)
      else
        let s := { s with toPos := 0, toSize := szOfInt toSize, segment := { s.segment with index := 0 } }
        if toSize > 0 then do
          let (res, s, w) ← inPlaceShiftMemory E s w s.memorySize s.fromSize
          if res ≠ 0 then .ok (res, s, w) else .ok (0, { s with state := .dfpatchSize }, w)
        else .ok (0, { s with state := .done }, w)

/-- `in_place_process_init`. c/detools.c:1871-1907. -/
def ipInit (E : MemEnv σ) (s : InPlace) (w : MWorld σ) : C (IPRes σ) :=
  match s.initState with
  | .fixedHeader => ipInitFixedHeader s w
  | .memorySize => ipInitSize s w .segmentSize (fun s v => { s with memorySize := v })
  | .segmentSize => ipInitSize s w .shiftSize (fun s v => { s with segmentSize := v })
  | .shiftSize => ipInitSize s w .fromSize (fun s v => { s with shiftSize := v })
  | .fromSize => ipInitSize s w .toSize (fun s v => { s with fromSize := v })
  | .toSize => ipInitToSize E s w

/-- `patch_reader_unpack_size(&self_p->patch_reader, &size)`. -/
def InPlace.unpackSize (s : InPlace) : C (SizeRes × InPlace) :=
  match s.reader with
  | none => .error .uninit
  | some r => do
    let (v, r, c, a) ← patchReaderUnpackSize r s.chunk s.readerSize
    return (v, { s with reader := some r, chunk := c, readerSize := a })

/-- `in_place_process_dfpatch_size`. Sizes are `size_t`; the return value of the erase
is returned as it is. c/detools.c:1909-1938. -/
def ipDfpatchSize (E : MemEnv σ) (s : InPlace) (w : MWorld σ) : C (IPRes σ) := do
  match ← s.unpackSize with
  | (.more, s) => .ok (1, s, w)
  | (.fail e, s) => .ok (e, s, w)
  | (.value size, s) =>
    if size > 0 then .ok (NOT_IMPLEMENTED, s, w)
    else
      let toOffset := sz (s.segment.index * s.segmentSize)
      let s := { s with
        state := .diffSize
        segment := {
          index := sz (s.segment.index + 1)
          fromOffset := wrapInt (max (sz (s.segmentSize * sz (s.segment.index + 1))) s.shiftSize : Nat)
          toOffset := toOffset
          toSize := min s.segmentSize (szOfInt ((s.toSize : Int) - toOffset))
          toPos := 0 } }
      let (res, w) := ipErase E s.ongoingStep w s.segment.toOffset s.segment.toSize
      .ok (res, s, w)

/-- `in_place_process_size` with `common_process_size`. c/detools.c:1940-1959,
1070-1089. -/
def ipSize (s : InPlace) (w : MWorld σ) (next : SeqPhase) : C (IPRes σ) := do
  match ← s.unpackSize with
  | (.more, s) => .ok (1, s, w)
  | (.fail e, s) => .ok (e, s, w)
  | (.value size, s) =>
    if sizeTooBig s.toPos s.toSize size then .ok (CORRUPT_PATCH, s, w)
    else .ok (0, { s with state := next, chunkSize := szOfInt size }, w)

/-- The end of `in_place_process_data`, from the write. c/detools.c:2003-2016. -/
def ipDataWrite (E : MemEnv σ) (s : InPlace) (w : MWorld σ) (to : Bytes) : C (IPRes σ) :=
  let (res, w) := ipWrite E s.ongoingStep w (sz (s.segment.toPos + s.segment.toOffset)) to
  if res ≠ 0 then .ok (IO_FAILED, s, w)
  else
    .ok (0, { s with
      toPos := sz (s.toPos + to.length)
      segment := { s.segment with toPos := sz (s.segment.toPos + to.length) }
      chunkSize := szOfInt ((s.chunkSize : Int) - to.length) }, w)

/-- `in_place_process_data`. `diff` is `next_state ==
detools_apply_patch_state_extra_size_t`. `from_offset += (int)to_size` is a signed
sum. c/detools.c:1961-2017. -/
def ipData (E : MemEnv σ) (s : InPlace) (w : MWorld σ) (next : SeqPhase) (diff : Bool) : C (IPRes σ) :=
  let size := min dataCap s.chunkSize
  if size = 0 then .ok (0, { s with state := next }, w)
  else
    match s.reader with
    | none => .error .uninit
    | some r => do
      match ← r.decompress s.chunk dataCap size with
      | (.more, r, c) => .ok (1, { s with reader := some r, chunk := c }, w)
      | (.fail e, r, c) => .ok (e, { s with reader := some r, chunk := c }, w)
      | (.ok to, r, c) =>
        let s := { s with reader := some r, chunk := c }
        if diff then do
          let (res, fr, w) ← ipRead E s.ongoingStep w (szOfInt s.segment.fromOffset) to.length
          if res ≠ 0 then .ok (IO_FAILED, s, w)
          else if 2 ^ 31 ≤ s.segment.fromOffset + to.length then .error .overflow
          else
            let s := { s with segment := { s.segment with fromOffset := s.segment.fromOffset + to.length } }
            ipDataWrite E s w (sumBytes to fr)
        else ipDataWrite E s w to

/-- `in_place_process_adjustment`. `from_offset += offset` is a signed sum.
c/detools.c:2039-2062. -/
def ipAdjustment (E : MemEnv σ) (s : InPlace) (w : MWorld σ) : C (IPRes σ) := do
  match ← s.unpackSize with
  | (.more, s) => .ok (1, s, w)
  | (.fail e, s) => .ok (e, s, w)
  | (.value offset, s) =>
    if s.toPos = s.toSize then
      let (res, w) := allStepsCompleted E w
      .ok (res, { s with state := .done }, w)
    else if s.segment.toPos = s.segment.toSize then
      let (res, s, w) := nextStep E s w
      .ok (res, { s with state := .dfpatchSize }, w)
    else if s.segment.fromOffset + offset < -2 ^ 31 ∨ 2 ^ 31 ≤ s.segment.fromOffset + offset then .error .overflow
    else
      .ok (0, { s with
        segment := { s.segment with fromOffset := s.segment.fromOffset + offset }
        state := .diffSize }, w)

/-- The `switch` of `apply_patch_in_place_process_once`. c/detools.c:2069-2108. -/
def ipSwitch (E : MemEnv σ) (s : InPlace) (w : MWorld σ) : C (IPRes σ) :=
  match s.state with
  | .init => ipInit E s w
  | .dfpatchSize => ipDfpatchSize E s w
  | .diffSize => ipSize s w .diffData
  | .diffData => ipData E s w .extraSize true
  | .extraSize => ipSize s w .extraData
  | .extraData => ipData E s w .adjustment false
  | .adjustment => ipAdjustment E s w
  | .done => .ok (ALREADY_DONE, s, w)
  | .failed => .ok (ALREADY_FAILED, s, w)

/-- `apply_patch_in_place_process_once`. c/detools.c:2064-2116. -/
def ipOnce (E : MemEnv σ) (s : InPlace) (w : MWorld σ) : C (IPRes σ) :=
  if s.state = .done then .ok (ALREADY_DONE, s, w)
  else do
    let (res, s, w) ← ipSwitch E s w
    if res < 0 then .ok (res, { s with state := .failed }, w) else .ok (res, s, w)

/-- Fuel for the loops of process and finalize. -/
@[irreducible] def InPlace.fuel (s : InPlace) : Nat :=
  16 + 3 * (2 ^ 32 * (1 + s.chunk.left) + match s.reader with | none => 0 | some r => r.backlog)

/-- The `while` loop of `detools_apply_patch_in_place_process`.
c/detools.c:2155-2157. -/
def ipProcessLoop (E : MemEnv σ) : (fuel : Nat) → (res : Int) → InPlace → MWorld σ → C (IPRes σ)
  | 0, _, _, _ => .error .timeout
  | fuel + 1, res, s, w =>
    if s.chunk.available ∧ res ≥ 0 then do
      let (res, s, w) ← ipOnce E s w
      ipProcessLoop E fuel res s w
    else .ok (res, s, w)

/-- `detools_apply_patch_in_place_process`. c/detools.c:2143-2164. -/
def inPlaceProcess (E : MemEnv σ) (s : InPlace) (w : MWorld σ) (patch : Bytes) : C (IPRes σ) := do
  let s := { s with chunk := { buf := patch, offset := 0 } }
  let (res, s, w) ← ipProcessLoop E s.fuel 0 s w
  if res = 1 ∨ res = ALREADY_DONE then .ok (0, s, w) else .ok (res, s, w)

/-- The `do ... while` loop of `detools_apply_patch_in_place_finalize`.
c/detools.c:2174-2176. -/
def ipFinalizeLoop (E : MemEnv σ) : (fuel : Nat) → InPlace → MWorld σ → C (IPRes σ)
  | 0, _, _ => .error .timeout
  | fuel + 1, s, w => do
    let (res, s, w) ← ipOnce E s w
    if res = 0 then ipFinalizeLoop E fuel s w else .ok (res, s, w)

/-- `detools_apply_patch_in_place_finalize`. `chunk.buf_p` is left as it is; with
`size` 0 it is never read. c/detools.c:2166-2181. -/
def inPlaceFinalize (E : MemEnv σ) (s : InPlace) (w : MWorld σ) : C (IPRes σ) := do
  let s := { s with chunk := { buf := [], offset := 0 } }
  let (res, s, w) ← ipFinalizeLoop E s.fuel s w
  .ok (commonFinalize res s.reader s.toSize, s, w)

/-- Process the pieces in order, stopping at the first non-zero return value: the
loop a user of the low level API writes (as `process` in c/detools.c:2187-2214). -/
def inPlaceProcessAll (E : MemEnv σ) : InPlace → MWorld σ → List Bytes → C (IPRes σ)
  | s, w, [] => .ok (0, s, w)
  | s, w, p :: ps => do
    let (res, s, w) ← inPlaceProcess E s w p
    if res ≠ 0 then .ok (res, s, w) else inPlaceProcessAll E s w ps

/-- A whole in-place update through the low level API: init, process every piece,
finalize. -/
def inPlacePieces (E : MemEnv σ) (patchSize : Nat) (w : MWorld σ) (pieces : List Bytes) : C (IPRes σ) := do
  let (res, s, w) ← inPlaceProcessAll E (inPlaceInit patchSize) w pieces
  if res ≠ 0 then .ok (res, s, w) else inPlaceFinalize E s w

end Detools
