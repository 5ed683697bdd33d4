/-
Model of the integer encodings shared by creation and application of patches.
-/
namespace Detools

/-- Byte strings: Python `bytes`, C `uint8_t` buffers. -/
abbrev Bytes := List UInt8

/-- The exceptions Python code in detools can raise, as far as they are
distinguished by the model. `timeout` is not an exception of the program: it is
the outcome of a model loop running out of fuel. -/
inductive PyErr where
  /-- detools/errors.py `Error` with the given message tag. -/
  | error (msg : String)
  /-- Python's own exceptions (ValueError, OverflowError, struct.error, ...). -/
  | builtin (msg : String)
  /-- detools/apply.py:278 `NotImplementedError`. -/
  | notImplemented
  /-- C undefined behaviour inside an extension module. -/
  | ub (msg : String)
  /-- The process ends inside an extension module, and no exception is raised. -/
  | ended (how : String)
  /-- The model loop ran out of fuel. -/
  | timeout
deriving DecidableEq, Repr

deriving instance DecidableEq for Except

/-- The `while (value > 0)` loop of `pack_size`, with every byte still carrying
the continuation bit. detools/bsdiff.c:118-122. -/
def packGroups (value : Nat) : Bytes :=
  if _h : value = 0 then []
  else UInt8.ofNat (0x80 ||| (value &&& 0x7f)) :: packGroups (value >>> 7)
termination_by value
decreasing_by
  rw [Nat.shiftRight_eq_div_pow]; omega

/-- `buf_p[res - 1] &= 0x7f`: clear the continuation bit of the last byte.
detools/bsdiff.c:125. -/
def clearLast : Bytes → Bytes
  | [] => []
  | [b] => [b &&& 0x7f]
  | b :: bs => b :: clearLast bs

/-- `pack_size` on mathematical integers, i.e. without the 64-bit range.
detools/bsdiff.c:93-128. -/
def packSize (value : Int) : Bytes :=
  if value = 0 then
    clearLast [0]
  else
    let sign : Nat := if value > 0 then 0 else 0x40
    let magnitude := value.natAbs
    clearLast (UInt8.ofNat (sign ||| (0x80 ||| (magnitude &&& 0x3f)))
      :: packGroups (magnitude >>> 6))

/-- The Python callable `pack_size`: `PyLong_AsLongLong` raises OverflowError
outside int64, and `value *= -1` on INT64_MIN is signed overflow.
detools/bsdiff.c:383-411 and 111. -/
def pyPackSize (value : Int) : Except PyErr Bytes :=
  if value < -2^63 ∨ 2^63 ≤ value then .error (.builtin "OverflowError")
  else if value = -2^63 then .error (.ub "signed overflow in pack_size")
  else .ok (packSize value)

/-- State of the consecutive-byte loop of `unpack_size_with_length` on a plain
file, given as the bytes not yet read. Returns the value, the final bit offset
and the bytes left. detools/common.py:130-137. -/
def unpackLoop (value offset : Nat) : Bytes → Except PyErr (Nat × Nat × Bytes)
  | [] => .error (.error "Failed to read consecutive size byte.")
  | byte :: rest =>
    let value := value ||| ((byte.toNat &&& 0x7f) <<< offset)
    let offset := offset + 7
    if byte &&& 0x80 ≠ 0 then unpackLoop value offset rest
    else .ok (value, offset, rest)

/-- `unpack_size_with_length` on a plain file. The length is `(offset-6)/7+1`
(a float in Python, always integral). detools/common.py:120-142. -/
def unpackSizeWithLength : Bytes → Except PyErr (Int × Nat × Bytes)
  | [] => .error (.error "Failed to read first size byte.")
  | byte :: rest => do
    let isSigned := byte &&& 0x40 ≠ 0
    let value := byte.toNat &&& 0x3f
    let (value, offset, rest) ←
      if byte &&& 0x80 ≠ 0 then unpackLoop value 6 rest else .ok (value, 6, rest)
    let value : Int := if isSigned then -(value : Int) else value
    return (value, (offset - 6) / 7 + 1, rest)

/-- `unpack_size` on a plain file: value and bytes left.
detools/common.py:145-146. -/
def unpackSize (bs : Bytes) : Except PyErr (Int × Bytes) := do
  let (v, _, rest) ← unpackSizeWithLength bs
  return (v, rest)

/-- Two's complement reinterpretation of a 64-bit unsigned value,
`struct.unpack('>q', struct.pack('>Q', value))`. detools/common.py:154. -/
def reinterpretSigned (value : Nat) : Int :=
  if value < 2^63 then value else (value : Int) - 2^64

/-- `struct.unpack('>Q', struct.pack('>q', value))`. detools/common.py:158. -/
def reinterpretUnsigned (value : Int) : Nat :=
  if 0 ≤ value then value.toNat else (value + 2^64).toNat

/-- `pack_usize`. `struct.pack('>Q', ..)` raises struct.error out of range.
detools/common.py:153-154. -/
def packUsize (value : Int) : Except PyErr Bytes :=
  if value < 0 ∨ 2^64 ≤ value then .error (.builtin "struct.error")
  else pyPackSize (reinterpretSigned value.toNat)

/-- `unpack_usize`. `struct.pack('>q', ..)` raises struct.error out of range.
detools/common.py:157-158. -/
def unpackUsize (bs : Bytes) : Except PyErr (Nat × Bytes) := do
  let (v, rest) ← unpackSize bs
  if v < -2^63 ∨ 2^63 ≤ v then .error (.builtin "struct.error")
  else return (reinterpretUnsigned v, rest)

/-- `pack_size` of the CRLE compressor, unsigned. detools/compression/crle.py:226-241.
The first group is always emitted, then the groups of the rest. -/
def crlePackSize (value : Nat) : Bytes :=
  clearLast (UInt8.ofNat (0x80 ||| (value &&& 0x7f)) :: packGroups (value >>> 7))

end Detools
