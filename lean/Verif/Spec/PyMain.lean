import Verif.Model.PyMain
/-
What C52 says about a run of the Python command line tool.
-/
namespace Detools

/-- No file other than those named differs. -/
def SameExcept (d d' : Disk) (names : List String) : Prop := ∀ n, n ∉ names → d'.files n = d.files n

/-- The files a command reads. -/
def Command.inputs : Command → List String
  | .createPatch _ _ _ _ _ _ _ _ _ _ fromfile tofile _ => [fromfile, tofile]
  | .createPatchInPlace _ _ _ _ _ _ _ _ _ fromfile tofile _ => [fromfile, tofile]
  | .createPatchBsdiff fromfile tofile _ => [fromfile, tofile]
  | .applyPatch fromfile patchfile _ => [fromfile, patchfile]
  | .applyPatchInPlace memfile patchfile => [memfile, patchfile]
  | .applyPatchBsdiff fromfile patchfile _ => [fromfile, patchfile]
  | .patchInfo patchfile => [patchfile]

/-- The file a command writes. -/
def Command.outputs : Command → List String
  | .createPatch _ _ _ _ _ _ _ _ _ _ _ _ patchfile => [patchfile]
  | .createPatchInPlace _ _ _ _ _ _ _ _ _ _ _ patchfile => [patchfile]
  | .createPatchBsdiff _ _ patchfile => [patchfile]
  | .applyPatch _ _ tofile => [tofile]
  | .applyPatchInPlace memfile _ => [memfile]
  | .applyPatchBsdiff _ _ tofile => [tofile]
  | .patchInfo _ => []

/-- A range as the tool prints it: `0x00000010-0x00000020`. -/
def hexRange (a b : Nat) : List Char := formatHex a ++ '-' :: formatHex b

end Detools
