import Verif.Spec.CCauses
/-
What is wrong with a patch when the sequential C API refuses it with a given error code.
`given` is everything that was passed to process.
-/
namespace Detools

/-- The type of the patch in its first byte is 0, sequential. -/
def TypeSequential (b : UInt8) : Prop := b.toNat / 16 % 8 = 0

instance (b : UInt8) : Decidable (TypeSequential b) := inferInstanceAs (Decidable (_ = _))

/-- A size is begun but not ended: all bytes given have the highest bit set. -/
def SizeUnfinished (t : Bytes) : Prop := t.length ≤ 4 ∧ ∀ b ∈ t, 128 ≤ b.toNat

/-- A size that takes more than four bytes. -/
def SizeTooLong (t : Bytes) : Prop := 4 < t.length ∧ ∀ b ∈ t.take 4, 128 ≤ b.toNat

/-- The patch has a complete header, of a sequential patch: compression, size of the
to-data, and what follows it. -/
def SeqHead (given : Bytes) (compression toSize : Nat) (body : Bytes) : Prop :=
  ∃ b t v len, given = b :: t ∧ TypeSequential b ∧ compression = b.toNat % 16 ∧
    unpackSizeWithLength t = .ok (v, len, body) ∧ len ≤ 4 ∧ toSize = v.natAbs

/-- `CrleBadKind k inp`: with `k` bytes of a scattered segment still to come, the rest `inp`
of a CRLE stream has, after complete segments, one that is neither scattered (0) nor
repeated (1). -/
inductive CrleBadKind : Nat → Bytes → Prop
  | here {kind inp} : kind ≠ 0 → kind ≠ 1 → CrleBadKind 0 (kind :: inp)
  | lit {k b inp} : CrleBadKind k inp → CrleBadKind (k + 1) (b :: inp)
  | scattered {n inp rest} : crleUnpackSize 0 0 inp = some (n, rest) → CrleBadKind n rest → CrleBadKind 0 (0 :: inp)
  | repeated {n b inp rest} : crleUnpackSize 0 0 inp = some (n, b :: rest) → CrleBadKind 0 rest → CrleBadKind 0 (1 :: inp)

variable [Build]

/-- The errors of a decompressor: its compression, and what its input is like. -/
inductive DecoderError (compression : Nat) (body : Bytes) : Int → Prop
  | lzma {L st input room} : compression = 1 → Build.lzma = some L → (L.code st input room).good = false →
      DecoderError compression body LZMA_DECODE
  | crle : compression = 2 → CrleBadKind 0 body → DecoderError compression body CORRUPT_PATCH_CRLE_KIND
  /-- Window 8, lookahead 7 is the byte 0x44. -/
  | heatshrink {b t} : compression = 4 → body = b :: t → b ≠ 0x44 → DecoderError compression body HEATSHRINK_HEADER

/-- The errors for which a patch is refused, each with what is wrong. -/
inductive Refused (given : Bytes) : Int → Prop
  | type {b t} : given = b :: t → ¬ TypeSequential b → Refused given BAD_PATCH_TYPE
  | headerSize {b t} : given = b :: t → TypeSequential b → SizeTooLong t → Refused given CORRUPT_PATCH_OVERFLOW
  | compression {c n body} : SeqHead given c n body → ¬ BuiltIn c → Refused given BAD_COMPRESSION
  | body {c n body e} : SeqHead given c n body → BuiltIn c → 0 < n →
      e = NOT_IMPLEMENTED ∨ e = CORRUPT_PATCH ∨ e = CORRUPT_PATCH_OVERFLOW ∨ e = IO_FAILED ∨ DecoderError c body e → Refused given e

/-- A patch that is not complete. -/
inductive Unfinished (given : Bytes) : Prop
  | header {b t} : given = b :: t → TypeSequential b → SizeUnfinished t → Unfinished given
  | body {c n body} : SeqHead given c n body → BuiltIn c → 0 < n → Unfinished given

/-- What a negative return value of a call means, in terms of everything given so far. -/
inductive Means (given : Bytes) : Call → Int → Prop
  | refused {c e} : Refused given e → Means given c e
  | empty : given = [] → Means given .finalize SHORT_HEADER
  | unfinished : Unfinished given → Means given .finalize NOT_ENOUGH_PATCH_DATA
  /-- The patch ends before or after the end of its data. -/
  | leftOver {c n body} : SeqHead given c n body → BuiltIn c → Means given .finalize CORRUPT_PATCH

/-- Every return value of a history of calls is explained by everything given up to then:
a negative one by what is wrong with the patch or an earlier negative one, a non-negative one
is 0 from process, and from finalize the size of the to-data in the header. `failed` is
whether a call before these returned a negative value. -/
def Explained : (failed : Prop) → (given : Bytes) → List Call → List Int → Prop
  | _, _, [], [] => True
  | failed, given, .process p :: cs, r :: rs =>
    (r = 0 ∨ (r < 0 ∧ (Means (given ++ p) (.process p) r ∨ (r = ALREADY_FAILED ∧ failed)))) ∧ Explained (failed ∨ r < 0) (given ++ p) cs rs
  | failed, given, .finalize :: cs, r :: rs =>
    ((0 ≤ r ∧ ∃ c body, SeqHead given c r.toNat body ∧ BuiltIn c) ∨
      (r < 0 ∧ (Means given .finalize r ∨ (r = ALREADY_FAILED ∧ failed)))) ∧ Explained (failed ∨ r < 0) given cs rs
  | _, _, _, _ => False

/-- The patch is faulty in its header, and this is the error for it. -/
inductive HeaderFault (patch : Bytes) : Int → Prop
  | empty : patch = [] → HeaderFault patch SHORT_HEADER
  | type {b t} : patch = b :: t → ¬ TypeSequential b → HeaderFault patch BAD_PATCH_TYPE
  | tooLong {b t} : patch = b :: t → TypeSequential b → SizeTooLong t → HeaderFault patch CORRUPT_PATCH_OVERFLOW
  | compression {c n body} : SeqHead patch c n body → ¬ BuiltIn c → HeaderFault patch BAD_COMPRESSION
  | unfinished {b t} : patch = b :: t → TypeSequential b → SizeUnfinished t → HeaderFault patch NOT_ENOUGH_PATCH_DATA

end Detools
