import Verif.Model.Varint
/-
Model of the C library, part 1: outcomes, return codes, the patch chunk and the
header size decoder. c/detools.h, c/detools.c.
-/
namespace Detools

/-- Ways a C function can leave the language: not return codes, but outcomes no
execution of a correct program has. -/
inductive Ub where
  /-- access outside an object -/
  | oob
  /-- use of a value never written -/
  | uninit
  /-- signed integer overflow or an out-of-range shift -/
  | overflow
  /-- division by zero -/
  | divZero
  /-- a model loop ran out of fuel (shown not to happen) -/
  | timeout
  /-- a push on a full stack of fixed size -/
  | stack
deriving DecidableEq, Repr

/-- A C computation: a result, or undefined behaviour. -/
abbrev C (α : Type) := Except Ub α

/-! Return codes (negated error codes). c/detools.h:66-93. -/
def NOT_IMPLEMENTED : Int := -1
def BAD_PATCH_TYPE : Int := -3
def BAD_COMPRESSION : Int := -4
def INTERNAL_ERROR : Int := -5
def LZMA_DECODE : Int := -7
def CORRUPT_PATCH : Int := -9
def IO_FAILED : Int := -10
def ALREADY_DONE : Int := -11
def FILE_OPEN_FAILED : Int := -12
def FILE_CLOSE_FAILED : Int := -13
def FILE_READ_FAILED : Int := -14
def FILE_WRITE_FAILED : Int := -15
def FILE_SEEK_FAILED : Int := -16
def FILE_TELL_FAILED : Int := -17
def SHORT_HEADER : Int := -18
def NOT_ENOUGH_PATCH_DATA : Int := -19
def HEATSHRINK_SINK : Int := -20
def HEATSHRINK_POLL : Int := -21
def STEP_SET_FAILED : Int := -22
def STEP_GET_FAILED : Int := -23
def ALREADY_FAILED : Int := -24
def CORRUPT_PATCH_OVERFLOW : Int := -25
def CORRUPT_PATCH_CRLE_KIND : Int := -26
def HEATSHRINK_HEADER : Int := -27

/-- `size_t` arithmetic: 64 bits. -/
def sz (n : Nat) : Nat := n % 2 ^ 64

/-- `(size_t)size` of an `int`. -/
def szOfInt (v : Int) : Nat := (v % 2 ^ 64).toNat

/-- `struct detools_apply_patch_chunk_t`; `size` is the length of `buf`.
c/detools.h:309-313. -/
structure Chunk where
  buf : Bytes := []
  offset : Nat := 0
deriving DecidableEq, Repr

/-- `chunk_left`, a `size_t` subtraction. c/detools.c:54-57. -/
def Chunk.left (c : Chunk) : Nat :=
  if c.offset ≤ c.buf.length then c.buf.length - c.offset else 2 ^ 64 - (c.offset - c.buf.length)

/-- `chunk_available`. c/detools.c:59-62. -/
def Chunk.available (c : Chunk) : Bool := c.left > 0

/-- `chunk_get_no_check`. c/detools.c:64-72. -/
def Chunk.getNoCheck (c : Chunk) : C (UInt8 × Chunk) :=
  match c.buf[c.offset]? with
  | none => .error .oob
  | some b => .ok (b, { c with offset := c.offset + 1 })

/-- `chunk_get`: `none` is the return value 1. c/detools.c:74-84. -/
def Chunk.get (c : Chunk) : C (Option (UInt8 × Chunk)) :=
  if c.available then do
    let r ← c.getNoCheck
    return some r
  else .ok none

/-- `chunk_read_all_no_check` into a buffer of `cap` bytes. c/detools.c:90-96. -/
def Chunk.readAllNoCheck (c : Chunk) (cap size : Nat) : C (Bytes × Chunk) :=
  if cap < size ∨ c.buf.length < c.offset + size then .error .oob
  else .ok ((c.buf.drop c.offset).take size, { c with offset := c.offset + size })

/-- `chunk_read`: `none` is the return value 1; `*size_p` becomes the number of
bytes returned. c/detools.c:103-115. -/
def Chunk.read (c : Chunk) (cap size : Nat) : C (Option (Bytes × Chunk)) :=
  if c.available then do
    let r ← c.readAllNoCheck cap (min size c.left)
    return some r
  else .ok none

/-- `is_overflow`, with 32-bit `int`. c/detools.c:119-122. -/
def isOverflow (value : Nat) : Bool := value + 7 > 32

/-- `value | ((byte & 0x7f) << offset)` in `int`: undefined if the shift leaves the
range of `int`. c/detools.c:157, 625, 1049. -/
def orShift (value : Nat) (byte : UInt8) (offset : Nat) : C Nat :=
  if (byte.toNat &&& 0x7f) <<< offset < 2 ^ 31 then .ok (value ||| ((byte.toNat &&& 0x7f) <<< offset))
  else .error .overflow

/-- `enum detools_unpack_usize_state_t`. c/detools.h:251-254. -/
inductive SizeState where
  | first | consecutive
deriving DecidableEq, Repr

/-- `struct detools_apply_patch_size_t`. `value` is kept before the sign is applied:
the sign-adjusted value is only returned, and the next first byte overwrites it.
c/detools.h:211-216. -/
structure SizeAcc where
  state : SizeState := .first
  value : Nat := 0
  offset : Nat := 0
  isSigned : Bool := false
deriving DecidableEq, Repr

/-- Result of a size decoder: a value, "more input needed" (return value 1), or a
negative return code. -/
inductive SizeRes where
  | value (v : Int)
  | more
  | fail (code : Int)
deriving DecidableEq, Repr

/-- One pass of the `do ... while` loop of `chunk_unpack_header_size` after a byte
was read: `none` if another byte is needed. The header ignores the sign bit.
c/detools.c:131-164. -/
def headerSizeByte (s : SizeAcc) (byte : UInt8) : C (SizeAcc × Option SizeRes) :=
  match s.state with
  | .first =>
    let s := { s with value := byte.toNat &&& 0x3f, offset := 6, state := .consecutive }
    if byte &&& 0x80 ≠ 0 then .ok (s, none)
    else .ok ({ s with state := .first }, some (.value s.value))
  | .consecutive =>
    if isOverflow s.offset then .ok (s, some (.fail CORRUPT_PATCH_OVERFLOW))
    else do
      let v ← orShift s.value byte s.offset
      let s := { s with value := v, offset := s.offset + 7 }
      if byte &&& 0x80 ≠ 0 then .ok (s, none)
      else .ok ({ s with state := .first }, some (.value s.value))

/-- `chunk_unpack_header_size`. Fuel: one pass per byte. c/detools.c:124-172. -/
def chunkUnpackHeaderSize : (fuel : Nat) → Chunk → SizeAcc → C (SizeRes × Chunk × SizeAcc)
  | 0, _, _ => .error .timeout
  | fuel + 1, c, s => do
    match ← c.get with
    | none => .ok (.more, c, s)
    | some (byte, c) =>
      match ← headerSizeByte s byte with
      | (s, some r) => .ok (r, c, s)
      | (s, none) => chunkUnpackHeaderSize fuel c s

end Detools
