import Verif.Model.CExampleInPlace
import Verif.Spec.Device
/-
Vocabulary for the in-place example: what the serial line gives, and runs of the update.
-/
namespace Detools

/-- The bytes of a read. -/
def SerialRead.bytes : SerialRead → Bytes
  | .data d => d
  | .error _ => []

/-- What the serial line gives in some reads. -/
def serialBytes (reads : List SerialRead) : Bytes := (reads.map SerialRead.bytes).flatten

/-- The world when the update was left. -/
def UpdateEnd.world : UpdateEnd σ → MWorld σ
  | .waiting w => w
  | .returned _ w => w

/-- One run of `update` on a device that stores its steps, from power on: power may be lost at
any moment, what the serial line gives is the patch up to any point, in any pieces, and it may
fail or stall at any time; the update was not completed. -/
inductive UpdateRun [Build] (verify : Flash → Int → Int) (patch : Bytes) (f : Flash) : Flash → Prop
  | run (P : Power) (reads : List SerialRead) (later : Bytes) (out : UpdateEnd Flash) :
      serialBytes reads ++ later = patch → WholeHeader patch (reads.map SerialRead.bytes) →
      exampleUpdate (flashEnv P true) verify patch.length (powerOn f) reads = .ok out →
      ¬ completed out.world → UpdateRun verify patch f out.world.arg

/-- The device after any number of such runs. -/
inductive UpdateRuns [Build] (verify : Flash → Int → Int) (patch : Bytes) (f : Flash) : Flash → Prop
  | none : UpdateRuns verify patch f f
  | one {f' f''} : UpdateRuns verify patch f f' → UpdateRun verify patch f' f'' → UpdateRuns verify patch f f''

end Detools
