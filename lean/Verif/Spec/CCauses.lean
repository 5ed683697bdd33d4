import Verif.Spec.CApi
import Verif.Spec.Crle
import Verif.Spec.CInPlaceApi
import Verif.Spec.InPlaceMeans
/-
What a patch and the callbacks of a user have to be like for the C API to stay inside the
C language.
-/
namespace Detools

/-- `CrleEmpty k inp`: with `k` bytes of a scattered segment still to come, the rest `inp`
of a CRLE stream has, after complete segments, a segment of size zero. -/
inductive CrleEmpty : Nat → Bytes → Prop
  | here {kind inp rest} : kind = 0 ∨ kind = 1 → crleUnpackSize 0 0 inp = some (0, rest) → CrleEmpty 0 (kind :: inp)
  | lit {k b inp} : CrleEmpty k inp → CrleEmpty (k + 1) (b :: inp)
  | scattered {n inp rest} : crleUnpackSize 0 0 inp = some (n, rest) → CrleEmpty n rest → CrleEmpty 0 (0 :: inp)
  | repeated {n b inp rest} : crleUnpackSize 0 0 inp = some (n, b :: rest) → CrleEmpty 0 rest → CrleEmpty 0 (1 :: inp)

/-- The patch is compressed with CRLE, and its CRLE stream has an empty segment. -/
def EmptyCrleSegment (patch : Bytes) : Prop :=
  ∃ b t v len body, patch = b :: t ∧ b.toNat % 16 = 2 ∧ unpackSizeWithLength t = .ok (v, len, body) ∧ CrleEmpty 0 body

/-- The read callback may return 0 without having filled the buffer. -/
def ShortRead (E : SeqEnv σ) : Prop := ∃ arg n data arg', E.fromRead arg n = (0, data, arg') ∧ data.length ≠ n

/-- The callbacks keep a position `pos` in a from-image: a read that succeeds moves it by
the bytes read, a seek that succeeds by the distance asked for, a write leaves it. It
stays in the range of a 32-bit `int`. -/
structure HasPosition (E : SeqEnv σ) (pos : σ → Int) : Prop where
  read : ∀ {arg n data arg'}, E.fromRead arg n = (0, data, arg') → pos arg' = pos arg + n
  seek : ∀ {arg off arg'}, E.fromSeek arg off = (0, arg') → pos arg' = pos arg + off
  write : ∀ {arg data arg'}, E.toWrite arg data = (0, arg') → pos arg' = pos arg
  range : ∀ arg, -2 ^ 31 ≤ pos arg ∧ pos arg < 2 ^ 31

/-- The in-place patch is compressed with CRLE, and its CRLE stream has an empty segment. -/
def EmptyCrleInPlace (patch : Bytes) : Prop :=
  ∃ memory seg shift from_ to body, InPlaceHead patch 2 memory seg shift from_ to body ∧ CrleEmpty 0 body

/-- The segment size in the header of the in-place patch is zero, the to size is not. -/
def ZeroSegmentSize (patch : Bytes) : Prop :=
  ∃ c memory shift from_ to body, InPlaceHead patch c memory 0 shift from_ to body ∧ to ≠ 0

/-- The memory read callback may return 0 without having filled the buffer. -/
def ShortMemRead (E : MemEnv σ) : Prop := ∃ arg addr n data arg', E.memRead arg addr n = (0, data, arg') ∧ data.length ≠ n

/-- As c/detools.h asks: the memory callbacks return 0 or a negative value. -/
def NeverPositive (E : MemEnv σ) : Prop := ∀ res, E.Returns res → res ≤ 0

end Detools
