import Verif.Model.CBase
/-
Model of the heatshrink decoder. c/heatshrink/heatshrink_decoder.c.
-/
namespace Detools

/-- Configuration: window bits, lookahead bits and input buffer size. The macros
HEATSHRINK_DECODER_WINDOW_BITS etc. c/heatshrink/heatshrink_decoder.h:28-42. -/
structure HsCfg where
  window : Nat
  lookahead : Nat
  inputSize : Nat
deriving DecidableEq, Repr

/-- The static configuration. c/heatshrink/heatshrink_config.h:13-18. -/
def hsStatic : HsCfg := { window := 8, lookahead := 7, inputSize := 256 }

/-- `HSD_state`. c/heatshrink/heatshrink_decoder.c:6-14. -/
inductive HsState where
  | tagBit | yieldLiteral | indexMsb | indexLsb | countMsb | countLsb | yieldBackref
deriving DecidableEq, Repr

/-- `heatshrink_decoder`. `buffers` is split into its two parts, the input buffer
and the window: every access is through one of them at an index the model checks.
c/heatshrink/heatshrink_decoder.h:44-67. -/
structure Hsd where
  inputSize : Nat
  inputIndex : Nat
  outputCount : Nat
  outputIndex : Nat
  headIndex : Nat
  state : HsState
  currentByte : UInt8
  bitIndex : Nat
  input : Bytes
  window : Bytes
deriving DecidableEq, Repr

/-- `uint16_t` arithmetic. -/
def u16 (n : Nat) : Nat := n % 2 ^ 16

/-- `heatshrink_decoder_reset`. c/heatshrink/heatshrink_decoder.c:80-92. -/
def hsReset (cfg : HsCfg) : Hsd :=
  { inputSize := 0, inputIndex := 0, outputCount := 0, outputIndex := 0, headIndex := 0
    state := .tagBit, currentByte := 0, bitIndex := 0
    input := List.replicate cfg.inputSize 0, window := List.replicate (2 ^ cfg.window) 0 }

/-- Write `data` at `index`, in bounds. -/
def writeAt (buf : Bytes) (index : Nat) (data : Bytes) : C Bytes :=
  if index + data.length ≤ buf.length then
    .ok (buf.take index ++ data ++ buf.drop (index + data.length))
  else .error .oob

/-- `heatshrink_decoder_sink`: the number of bytes taken (0 when full).
c/heatshrink/heatshrink_decoder.c:95-114. -/
def hsSink (cfg : HsCfg) (h : Hsd) (data : Bytes) : C (Nat × Hsd) :=
  let rem := cfg.inputSize - h.inputSize
  if rem = 0 then .ok (0, h)
  else do
    let size := min rem data.length
    let input ← writeAt h.input h.inputSize (data.take size)
    return (size, { h with input := input, inputSize := u16 (h.inputSize + size) })

/-- Fetch the next input byte into `current_byte`.
c/heatshrink/heatshrink_decoder.c:309-315. -/
def hsPull (h : Hsd) : C Hsd :=
  match h.input[h.inputIndex]? with
  | none => .error .oob
  | some b =>
    let index := u16 (h.inputIndex + 1)
    .ok { h with
      currentByte := b
      inputIndex := if index = h.inputSize then 0 else index
      inputSize := if index = h.inputSize then 0 else h.inputSize
      bitIndex := 0x80 }

/-- The `for` loop of `get_bits`: `none` is NO_BITS.
c/heatshrink/heatshrink_decoder.c:302-331. -/
def hsBitLoop : (count : Nat) → Hsd → (acc : Nat) → C (Option Nat × Hsd)
  | 0, h, acc => .ok (some acc, h)
  | count + 1, h, acc =>
    if h.bitIndex = 0 then
      if h.inputSize = 0 then .ok (none, h)
      else do
        let h ← hsPull h
        let bit := if h.currentByte.toNat &&& h.bitIndex ≠ 0 then 1 else 0
        hsBitLoop count { h with bitIndex := h.bitIndex >>> 1 } (u16 (acc <<< 1) ||| bit)
    else
      let bit := if h.currentByte.toNat &&& h.bitIndex ≠ 0 then 1 else 0
      hsBitLoop count { h with bitIndex := h.bitIndex >>> 1 } (u16 (acc <<< 1) ||| bit)

/-- `get_bits`: `none` is NO_BITS. c/heatshrink/heatshrink_decoder.c:290-335. -/
def hsGetBits (h : Hsd) (count : Nat) : C (Option Nat × Hsd) :=
  if count > 15 then .ok (none, h)
  else if h.inputSize = 0 ∧ h.bitIndex < 1 <<< (count - 1) then .ok (none, h)
  else hsBitLoop count h 0

/-- `buf[index] = c` in the window. -/
def hsSetWindow (h : Hsd) (index : Nat) (c : UInt8) : C Hsd := do
  let w ← writeAt h.window index [c]
  return { h with window := w }

/-- `push_byte`: `room` is what is left of the output buffer; returns the bytes
output so far. c/heatshrink/heatshrink_decoder.c:363-367. -/
def hsPush (bufSize : Nat) (out : Bytes) (c : UInt8) : C Bytes :=
  if out.length < bufSize then .ok (out ++ [c]) else .error .oob

/-- `st_tag_bit`. c/heatshrink/heatshrink_decoder.c:186-198. -/
def hsTagBit (cfg : HsCfg) (h : Hsd) : C (HsState × Hsd) := do
  match ← hsGetBits h 1 with
  | (none, h) => .ok (.tagBit, h)
  | (some bits, h) =>
    if bits ≠ 0 then .ok (.yieldLiteral, h)
    else if cfg.window > 8 then .ok (.indexMsb, h)
    else .ok (.indexLsb, { h with outputIndex := 0 })

/-- `st_yield_literal`. c/heatshrink/heatshrink_decoder.c:200-218. -/
def hsYieldLiteral (cfg : HsCfg) (bufSize : Nat) (h : Hsd) (out : Bytes) : C (HsState × Hsd × Bytes) :=
  if out.length < bufSize then do
    match ← hsGetBits h 8 with
    | (none, h) => .ok (.yieldLiteral, h, out)
    | (some byte, h) => do
      let mask := 2 ^ cfg.window - 1
      let c := UInt8.ofNat (byte &&& 0xff)
      let index := h.headIndex &&& mask
      let h ← hsSetWindow { h with headIndex := u16 (h.headIndex + 1) } index c
      let out ← hsPush bufSize out c
      .ok (.tagBit, h, out)
  else .ok (.yieldLiteral, h, out)

/-- `st_backref_index_msb`. c/heatshrink/heatshrink_decoder.c:220-228. -/
def hsIndexMsb (cfg : HsCfg) (h : Hsd) : C (HsState × Hsd) := do
  match ← hsGetBits h (cfg.window - 8) with
  | (none, h) => .ok (.indexMsb, h)
  | (some bits, h) => .ok (.indexLsb, { h with outputIndex := u16 (bits <<< 8) })

/-- `st_backref_index_lsb`. c/heatshrink/heatshrink_decoder.c:230-240. -/
def hsIndexLsb (cfg : HsCfg) (h : Hsd) : C (HsState × Hsd) := do
  match ← hsGetBits h (if cfg.window < 8 then cfg.window else 8) with
  | (none, h) => .ok (.indexLsb, h)
  | (some bits, h) =>
    .ok (if cfg.lookahead > 8 then .countMsb else .countLsb,
      { h with outputIndex := u16 ((h.outputIndex ||| bits) + 1), outputCount := 0 })

/-- `st_backref_count_msb`. c/heatshrink/heatshrink_decoder.c:242-250. -/
def hsCountMsb (cfg : HsCfg) (h : Hsd) : C (HsState × Hsd) := do
  match ← hsGetBits h (cfg.lookahead - 8) with
  | (none, h) => .ok (.countMsb, h)
  | (some bits, h) => .ok (.countLsb, { h with outputCount := u16 (bits <<< 8) })

/-- `st_backref_count_lsb`. c/heatshrink/heatshrink_decoder.c:252-260. -/
def hsCountLsb (cfg : HsCfg) (h : Hsd) : C (HsState × Hsd) := do
  match ← hsGetBits h (if cfg.lookahead < 8 then cfg.lookahead else 8) with
  | (none, h) => .ok (.countLsb, h)
  | (some bits, h) => .ok (.yieldBackref, { h with outputCount := u16 ((h.outputCount ||| bits) + 1) })

/-- The `for` loop of `st_yield_backref`. `(head_index - neg_offset) & mask` is
computed in `int` (two's complement). c/heatshrink/heatshrink_decoder.c:275-281. -/
def hsCopyLoop (cfg : HsCfg) (bufSize : Nat) : (count : Nat) → Hsd → Bytes → C (Hsd × Bytes)
  | 0, h, out => .ok (h, out)
  | count + 1, h, out => do
    let src := (((h.headIndex : Int) - h.outputIndex) % (2 ^ cfg.window : Nat)).toNat
    match h.window[src]? with
    | none => .error .oob
    | some c => do
      let out ← hsPush bufSize out c
      let h ← hsSetWindow h (h.headIndex &&& (2 ^ cfg.window - 1)) c
      hsCopyLoop cfg bufSize count { h with headIndex := u16 (h.headIndex + 1) } out

/-- `st_yield_backref`. c/heatshrink/heatshrink_decoder.c:262-286. -/
def hsYieldBackref (cfg : HsCfg) (bufSize : Nat) (h : Hsd) (out : Bytes) : C (HsState × Hsd × Bytes) :=
  let room := bufSize - out.length
  if room > 0 then do
    let count := if h.outputCount < room then h.outputCount else room
    let (h, out) ← hsCopyLoop cfg bufSize count h out
    let h := { h with outputCount := h.outputCount - count }
    if h.outputCount = 0 then .ok (.tagBit, h, out) else .ok (.yieldBackref, h, out)
  else .ok (.yieldBackref, h, out)

/-- The `switch` of `heatshrink_decoder_poll`.
c/heatshrink/heatshrink_decoder.c:151-175. -/
def hsStep (cfg : HsCfg) (bufSize : Nat) (h : Hsd) (out : Bytes) : C (HsState × Hsd × Bytes) :=
  match h.state with
  | .tagBit => (hsTagBit cfg h).map (fun (s, h) => (s, h, out))
  | .yieldLiteral => hsYieldLiteral cfg bufSize h out
  | .indexMsb => (hsIndexMsb cfg h).map (fun (s, h) => (s, h, out))
  | .indexLsb => (hsIndexLsb cfg h).map (fun (s, h) => (s, h, out))
  | .countMsb => (hsCountMsb cfg h).map (fun (s, h) => (s, h, out))
  | .countLsb => (hsCountLsb cfg h).map (fun (s, h) => (s, h, out))
  | .yieldBackref => hsYieldBackref cfg bufSize h out

/-- The `while (1)` loop of `heatshrink_decoder_poll`.
c/heatshrink/heatshrink_decoder.c:147-183. -/
def hsPollLoop (cfg : HsCfg) (bufSize : Nat) : (fuel : Nat) → Hsd → Bytes → C (Hsd × Bytes)
  | 0, _, _ => .error .timeout
  | fuel + 1, h, out => do
    let (state, h', out) ← hsStep cfg bufSize h out
    if state = h.state then .ok ({ h' with state := state }, out)
    else hsPollLoop cfg bufSize fuel { h' with state := state } out

/-- `heatshrink_decoder_poll` into a buffer of `bufSize` bytes: the bytes output. The
results POLL_EMPTY and POLL_MORE are not distinguished by the caller; the error
results need a NULL argument or an unknown state. Fuel: every pass but the last
either consumes a bit or ends a back-reference that consumed one.
c/heatshrink/heatshrink_decoder.c:135-184. -/
def hsPoll (cfg : HsCfg) (h : Hsd) (bufSize : Nat) : C (Hsd × Bytes) :=
  hsPollLoop cfg bufSize (16 * h.inputSize + 32) h []

/-- `heatshrink_decoder_finish`: true for HSDR_FINISH_DONE.
c/heatshrink/heatshrink_decoder.c:337-361. -/
def hsFinish (h : Hsd) : Bool :=
  match h.state with
  | .yieldBackref => false
  | _ => h.inputSize == 0

end Detools
