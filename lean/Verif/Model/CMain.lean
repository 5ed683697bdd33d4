import Verif.Model.CCallbacks
import Verif.Model.CInPlaceFiles
/-
Model of the command line tool of the C library and of its error messages. c/main.c,
c/detools.c:2691-2783.
-/
namespace Detools

variable [Build]

/-- `detools_error_as_string`. `error *= -1` does not overflow for error codes.
c/detools.c:2691-2783. -/
def errorAsString (error : Int) : String :=
  let error := if error < 0 then error * -1 else error
  if error = 1 then "Function not implemented."
  else if error = 2 then "Not done."
  else if error = 3 then "Bad patch type."
  else if error = 4 then "Bad compression."
  else if error = 5 then "Internal error."
  else if error = 6 then "LZMA init."
  else if error = 7 then "LZMA decode."
  else if error = 8 then "Out of memory."
  else if error = 9 then "Corrupt patch."
  else if error = 10 then "Input/output failed."
  else if error = 11 then "Already done."
  else if error = 12 then "File open failed."
  else if error = 13 then "File close failed."
  else if error = 14 then "File read failed."
  else if error = 15 then "File write failed."
  else if error = 16 then "File seek failed."
  else if error = 17 then "File tell failed."
  else if error = 18 then "Short header."
  else if error = 19 then "Not enough patch data."
  else if error = 20 then "Heatshrink sink."
  else if error = 21 then "Heatshrink poll."
  else if error = 22 then "Step set failed."
  else if error = 23 then "Step get failed."
  else if error = 24 then "Already failed."
  else if error = 25 then "Corrupt patch, overflow."
  else if error = 26 then "Corrupt patch, CRLE kind."
  else if error = 27 then "Heatshrink header."
  else "Unknown error."

/-- The files of the machine by name, and the names that can be opened for writing.
Reading and writing open files, and closing them, succeeds. -/
structure Disk where
  files : String → Option Bytes
  writable : String → Bool := fun _ => true

/-- A file got new contents. -/
def Disk.put (d : Disk) (name : String) (data : Option Bytes) : Disk :=
  { d with files := fun n => if n = name then data else d.files n }

/-- How the program ends. -/
structure Exit where
  /-- the value returned by `main`, or passed to `exit` -/
  status : Int
  /-- what was printed -/
  output : String
  disk : Disk

/-- `print_usage_and_exit`. c/main.c:36-40. -/
def usageExit (name : String) (d : Disk) : Exit :=
  ⟨1, "Usage: " ++ name ++ " {apply_patch, apply_patch_in_place}\n", d⟩

/-- `print_apply_patch_usage_and_exit`. c/main.c:42-47. -/
def applyUsageExit (name : String) (d : Disk) : Exit :=
  ⟨1, "Usage: " ++ name ++ " apply_patch <from-file> <patch-file> <to-file>\n", d⟩

/-- `print_apply_patch_in_place_usage_and_exit`. c/main.c:49-54. -/
def inPlaceUsageExit (name : String) (d : Disk) : Exit :=
  ⟨1, "Usage: " ++ name ++ " apply_patch_in_place <memory-file> <patch-file>\n", d⟩

/-- The end of `main`. c/main.c:82-92. -/
def mainEnd (res : Int) (d : Disk) : Exit :=
  if res > 0 then ⟨0, "", d⟩
  else if res < 0 then
    ⟨res * -1, "error: " ++ errorAsString (res * -1) ++ " (error code " ++ toString (res * -1) ++ ")\n", d⟩
  else ⟨res, "", d⟩

/-- `detools_apply_patch_filenames` on the files of a machine. The to-file is neither the
from-file nor the patch. -/
def applyPatchOnDisk (d : Disk) (from_ patch to : String) : C (Int × Disk) := do
  let (res, out) ← applyPatchFilenames { from_ := d.files from_, patch := d.files patch, toOpens := d.writable to }
  .ok (res, match out with | none => d | some data => d.put to (some data))

/-- `detools_apply_patch_in_place_filenames` without step callbacks on the files of a
machine. The memory file is not the patch. -/
def applyInPlaceOnDisk (d : Disk) (memory patch : String) : C (Int × Disk) := do
  let (res, out, _) ← applyPatchInPlaceFilenames
    { memory := if d.writable memory then d.files memory else none, patch := d.files patch } {} ()
  .ok (res, if d.writable memory then d.put memory out else d)

/-- `main`, from `argv`; `none` if a file is named twice, which is not modelled.
A missing program name is printed as nothing. c/main.c:56-93. -/
def cMain (d : Disk) (argv : List String) : Option (C Exit) :=
  match argv with
  | name :: cmd :: args =>
    if cmd = "apply_patch" then
      match args with
      | [from_, patch, to] =>
        if to = from_ ∨ to = patch then none
        else some do
          let (res, d) ← applyPatchOnDisk d from_ patch to
          .ok (mainEnd res d)
      | _ => some (.ok (applyUsageExit name d))
    else if cmd = "apply_patch_in_place" then
      match args with
      | [memory, patch] =>
        if memory = patch then none
        else some do
          let (res, d) ← applyInPlaceOnDisk d memory patch
          .ok (mainEnd res d)
      | _ => some (.ok (inPlaceUsageExit name d))
    else some (.ok (usageExit name d))
  | [name] => some (.ok (usageExit name d))
  | [] => some (.ok (usageExit "" d))

end Detools
