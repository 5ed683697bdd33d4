import Verif.Model.CInPlace
import Verif.Model.PyInPlace
/-
The memory an in-place update works on, for statements about the C library: a byte
memory with a stored step number, which may lose power at any moment.
-/
namespace Detools

variable [Build]

/-- The memory, the stored step and the number of operations that changed either. -/
structure Flash where
  mem : Bytes
  step : Int := 0
  ops : Nat := 0
deriving DecidableEq, Repr

/-- The power supply and the whims of the hardware. With `limit = some n` the power is
lost during operation number `n` (counting writes, erases and step sets from 0);
nothing happens after that. `junk op i b` decides what operation `op` leaves in the
`i`th of its bytes, which held `b`, if it is an erase or a write cut short, and whether
a step set cut short took effect. -/
structure Power where
  limit : Option Nat := none
  junk : Nat → Nat → UInt8 → UInt8 := fun _ _ _ => 0xff

/-- The power has been lost. -/
def Power.lost (P : Power) (f : Flash) : Bool :=
  match P.limit with
  | none => false
  | some n => n < f.ops

/-- The bytes operation `op` leaves of `old` if it does not leave what it should. -/
def Power.bytes (P : Power) (op : Nat) (old : Bytes) : Bytes := old.mapIdx (P.junk op)

/-- Read memory. Outside the memory it fails. -/
def flashRead (P : Power) (f : Flash) (addr n : Nat) : Int × Bytes × Flash :=
  if P.lost f ∨ f.mem.length < addr + n then (-1, [], f)
  else (0, (f.mem.drop addr).take n, f)

/-- Write memory. Outside the memory it fails. -/
def flashWrite (P : Power) (f : Flash) (addr : Nat) (data : Bytes) : Int × Flash :=
  if P.lost f ∨ f.mem.length < addr + data.length then (-1, f)
  else if P.limit = some f.ops then
    (-1, { f with mem := fileWrite f.mem addr (P.bytes f.ops ((f.mem.drop addr).take data.length)), ops := f.ops + 1 })
  else (0, { f with mem := fileWrite f.mem addr data, ops := f.ops + 1 })

/-- Erase memory. Outside the memory it fails. -/
def flashErase (P : Power) (f : Flash) (addr n : Nat) : Int × Flash :=
  if P.lost f ∨ f.mem.length < addr + n then (-1, f)
  else (if P.limit = some f.ops then -1 else 0,
    { f with mem := fileWrite f.mem addr (P.bytes f.ops ((f.mem.drop addr).take n)), ops := f.ops + 1 })

/-- Store the step: old or new value when cut short. -/
def flashStepSet (P : Power) (f : Flash) (step : Int) : Int × Flash :=
  if P.lost f then (-1, f)
  else if P.limit = some f.ops then
    (-1, { f with step := if P.junk f.ops 0 0 = 0 then f.step else step, ops := f.ops + 1 })
  else (0, { f with step := step, ops := f.ops + 1 })

/-- The stored step. -/
def flashStepGet (P : Power) (f : Flash) : Int × Int × Flash :=
  if P.lost f then (-1, 0, f) else (0, f.step, f)

/-- The callbacks of a device; `steps`: with or without the step callbacks. -/
def flashEnv (P : Power) (steps : Bool) : MemEnv Flash where
  memRead := flashRead P
  memWrite := flashWrite P
  memErase := flashErase P
  stepSet := if steps then some (flashStepSet P) else none
  stepGet := if steps then some (flashStepGet P) else none

/-- A callback stays inside a memory of `size` bytes. -/
def MEv.Inside (size : Nat) : MEv → Prop
  | .read addr n _ => addr + n ≤ size
  | .write addr data _ => addr + data.length ≤ size
  | .erase addr n _ => addr + n ≤ size
  | .stepSet .. => True
  | .stepGet .. => True

/-- The steps passed to `step_set`, oldest first (the trace is newest first). -/
def stepsSet (trace : List MEv) : List Int :=
  trace.reverse.filterMap fun
    | .stepSet step _ => some step
    | _ => none

end Detools
