import Verif.Spec.Flash
import Verif.Spec.Sequential
import Verif.Spec.Compression
import Verif.Spec.Lzma
/-
A device that is updated in place: which patches it is given, and what may happen to
it before an update succeeds.
-/
namespace Detools

variable [Build]

/-- `patch` was created for a device with `memory` bytes, segments of `seg` bytes and the
given minimum shift, and is within the limits of the C library: at least one segment of
shift, no compression, CRLE, heatshrink with the default parameters, or LZMA if the C
library is built with it, and sizes of at most four bytes. -/
structure DevicePatch (lib : Lib) (c : Compression) (memory seg : Nat) (minShift : Option Nat) (fr to patch : Bytes) : Prop where
  created : createInPlace lib c memory seg (minShift.map Int.ofNat) none fr to = .ok patch
  comp : c = .none ∨ c = .crle ∨ (c = .heatshrink ∧ HsDefault lib) ∨ (c = .lzma ∧ LzmaLinked lib)
  plain : ∀ plain, createInPlace lib .none memory seg (minShift.map Int.ofNat) none fr to = .ok plain → plain.length < 2 ^ 28
  segPos : 0 < seg
  segLe : seg ≤ memory
  shift : 0 < minShift.getD (2 * seg)
  room : minShift.getD (2 * seg) ≤ memory
  fits : to.length ≤ memory
  small : memory < 2 ^ 27
  size : patch.length < 2 ^ 62

/-- If the patch is not compressed, its header is inside the first non-empty piece. -/
def WholeHeader (patch : Bytes) (pieces : List Bytes) : Prop :=
  ∀ h body, readHeaderInPlace patch = .ok (h, body) → h.compression = .none →
    ∀ piece, pieces.find? (· ≠ []) = some piece → patch.length - body.length ≤ piece.length

/-- The device has `memory` bytes which start with the from-data, and no update has begun. -/
structure Fresh (memory : Nat) (fr : Bytes) (f : Flash) : Prop where
  len : f.mem.length = memory
  mem : fr <+: f.mem
  step : f.step = 0

/-- Power on. -/
def powerOn (f : Flash) : MWorld Flash := { arg := { f with ops := 0 } }

/-- The run with these callbacks stored step 0: the update was completed. -/
def completed (w : MWorld Flash) : Prop := 0 ∈ stepsSet w.trace ∧ w.arg.step = 0

/-- The device `f'` after an attempt to update the device `f` that was not completed:
power is applied, which may be lost at any moment, a new update is begun, and some of
the patch is processed. -/
inductive Attempt (patch : Bytes) (f : Flash) : Flash → Prop
  /-- The attempt ends before finalize. -/
  | cut (P : Power) (pieces : List Bytes) (later : Bytes) (res : Int) (s : InPlace) (w : MWorld Flash) :
      pieces.flatten ++ later = patch → WholeHeader patch pieces →
      inPlaceProcessAll (flashEnv P true) (inPlaceInit patch.length) (powerOn f) pieces = .ok (res, s, w) →
      ¬ completed w → Attempt patch f w.arg
  /-- The attempt gets to finalize, or process fails. -/
  | full (P : Power) (pieces : List Bytes) (res : Int) (s : InPlace) (w : MWorld Flash) :
      pieces.flatten = patch → WholeHeader patch pieces →
      inPlacePieces (flashEnv P true) patch.length (powerOn f) pieces = .ok (res, s, w) →
      ¬ completed w → Attempt patch f w.arg

  /-- Finalize is called at any point of the patch, or after process failed. -/
  | early (P : Power) (pieces : List Bytes) (later : Bytes) (res res' : Int) (s s' : InPlace) (w w' : MWorld Flash) :
      pieces.flatten ++ later = patch → WholeHeader patch pieces →
      inPlaceProcessAll (flashEnv P true) (inPlaceInit patch.length) (powerOn f) pieces = .ok (res, s, w) →
      inPlaceFinalize (flashEnv P true) s w = .ok (res', s', w') →
      ¬ completed w' → Attempt patch f w'.arg

/-- The device `f'` after any number of attempts. -/
inductive Attempts (patch : Bytes) (f : Flash) : Flash → Prop
  | none : Attempts patch f f
  | one {f' f''} : Attempts patch f f' → Attempt patch f' f'' → Attempts patch f f''

/-- The number of segments to move out of the way. -/
def movedSegments (memory seg shift fromSize : Nat) : Nat := (min fromSize (memory - shift) + seg - 1) / seg

/-- The number of segments of the to-data. -/
def toSegments (seg toSize : Nat) : Nat := (toSize + seg - 1) / seg

end Detools
