import Verif.Spec.CErrors
/-
What is wrong when the in-place C API returns a given error code. `given` is everything
that was passed to process.
-/
namespace Detools

/-- The type of the patch in its first byte is 1, in-place. -/
def TypeInPlace (b : UInt8) : Prop := b.toNat / 16 % 8 = 1

instance (b : UInt8) : Decidable (TypeInPlace b) := inferInstanceAs (Decidable (_ = _))

/-- The sizes `ns`, of at most four bytes each, one after the other, and what follows them. -/
def ShortSizes : List Nat → Bytes → Bytes → Prop
  | [], t, rest => t = rest
  | n :: ns, t, rest => ∃ v len t1, unpackSizeWithLength t = .ok (v, len, t1) ∧ len ≤ 4 ∧ n = v.natAbs ∧ ShortSizes ns t1 rest

/-- The patch has a complete header, of an in-place patch: compression, the sizes of the
memory, of a segment, of the shift and of the from-data, the size of the to-data, and what
follows. -/
def FullIPHead (given : Bytes) (compression toSize : Nat) (body : Bytes) : Prop :=
  ∃ b t memory segment shift from_, given = b :: t ∧ TypeInPlace b ∧ compression = b.toNat % 16 ∧
    ShortSizes [memory, segment, shift, from_, toSize] t body

/-- The patch has the type and the first of the five sizes of an in-place patch; `rest` is what
follows them, from the next size on. -/
def PartIPHead (given rest : Bytes) : Prop :=
  ∃ b t ns, given = b :: t ∧ TypeInPlace b ∧ ns.length < 5 ∧ ShortSizes ns t rest

variable [Build]

/-- The errors for which an in-place patch is refused, each with what is wrong. -/
inductive IPRefused (given : Bytes) : Int → Prop
  | type {b t} : given = b :: t → ¬ TypeInPlace b → IPRefused given BAD_PATCH_TYPE
  | headerSize {rest} : PartIPHead given rest → SizeTooLong rest → IPRefused given CORRUPT_PATCH_OVERFLOW
  | compression {c n body} : FullIPHead given c n body → ¬ BuiltIn c → IPRefused given BAD_COMPRESSION
  | body {c n body e} : FullIPHead given c n body → BuiltIn c → 0 < n →
      e = NOT_IMPLEMENTED ∨ e = CORRUPT_PATCH ∨ e = CORRUPT_PATCH_OVERFLOW ∨ DecoderError c body e → IPRefused given e

/-- An in-place patch that is not complete. -/
inductive IPUnfinished (given : Bytes) : Prop
  | header {rest} : PartIPHead given rest → SizeUnfinished rest → IPUnfinished given
  | body {c n body} : FullIPHead given c n body → BuiltIn c → 0 < n → IPUnfinished given

omit [Build] in
/-- A callback that returned another value than 0, and the error for it: while the memory is
moved and segments are erased its own value, in the data of a segment IO_FAILED, and
those for the steps. -/
inductive CallbackError : MEv → Int → Prop
  | read {addr n r} : r ≠ 0 → CallbackError (.read addr n r) r
  | write {addr d r} : r ≠ 0 → CallbackError (.write addr d r) r
  | erase {addr n r} : r ≠ 0 → CallbackError (.erase addr n r) r
  | stepSet {step r} : r ≠ 0 → CallbackError (.stepSet step r) STEP_SET_FAILED
  | stepGet {step r} : r ≠ 0 → CallbackError (.stepGet step r) STEP_GET_FAILED
  | dataRead {addr n r} : r ≠ 0 → CallbackError (.read addr n r) IO_FAILED
  | dataWrite {addr d r} : r ≠ 0 → CallbackError (.write addr d r) IO_FAILED
  | dataStep {step r} : r ≠ 0 → CallbackError (.stepGet step r) IO_FAILED

/-- What a negative return value of a call means, in terms of everything given so far and
the callbacks made in this call, newest first. -/
inductive IPMeans (given : Bytes) (made : List MEv) : Call → Int → Prop
  | refused {c e} : IPRefused given e → IPMeans given made c e
  /-- The last callback failed; the header is complete and in order. -/
  | callback {c n body ev earlier call e} : FullIPHead given c n body → BuiltIn c → 0 < n → made = ev :: earlier → CallbackError ev e →
      IPMeans given made call e
  | empty : given = [] → IPMeans given made .finalize SHORT_HEADER
  | unfinished : IPUnfinished given → IPMeans given made .finalize NOT_ENOUGH_PATCH_DATA
  /-- The patch ends before or after the end of its data. -/
  | leftOver {c n body} : FullIPHead given c n body → BuiltIn c → IPMeans given made .finalize CORRUPT_PATCH

/-- The patch is faulty in its header, and this is the error for it. -/
inductive IPHeaderFault (patch : Bytes) : Int → Prop
  | empty : patch = [] → IPHeaderFault patch SHORT_HEADER
  | type {b t} : patch = b :: t → ¬ TypeInPlace b → IPHeaderFault patch BAD_PATCH_TYPE
  | tooLong {rest} : PartIPHead patch rest → SizeTooLong rest → IPHeaderFault patch CORRUPT_PATCH_OVERFLOW
  | compression {c n body} : FullIPHead patch c n body → ¬ BuiltIn c → IPHeaderFault patch BAD_COMPRESSION
  | unfinished {rest} : PartIPHead patch rest → SizeUnfinished rest → IPHeaderFault patch NOT_ENOUGH_PATCH_DATA

end Detools
