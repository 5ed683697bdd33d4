import Verif.Model.CStdio
import Verif.Model.CMain
/-
Model of the command line tool of the C library on any stdio. c/main.c. `Model/CMain` has it on
files that can be read and written, with their names; here the names are what `fopen` of the
parameter opens.
-/
namespace Detools

variable [Build]

/-- The end of `main`: the status and what was printed. c/main.c:82-92. -/
def mainEndOn (res : Int) : Int × String :=
  if res > 0 then (0, "")
  else if res < 0 then
    (res * -1, "error: " ++ errorAsString (res * -1) ++ " (error code " ++ toString (res * -1) ++ ")\n")
  else (res, "")

/-- `main`: the status, what was printed, and the files afterwards. Printing succeeds, and
a missing program name is printed as nothing. c/main.c:36-93. -/
def cMainOn (S : Stdio ν) (io : Io ν) (argv : List String) : C (Int × String × Io ν) :=
  match argv with
  | name :: cmd :: args =>
    if cmd = "apply_patch" then
      if args.length ≠ 3 then .ok (1, "Usage: " ++ name ++ " apply_patch <from-file> <patch-file> <to-file>\n", io)
      else do
        let (res, io) ← applyFilenamesOn S io
        .ok ((mainEndOn res).1, (mainEndOn res).2, io)
    else if cmd = "apply_patch_in_place" then
      if args.length ≠ 2 then .ok (1, "Usage: " ++ name ++ " apply_patch_in_place <memory-file> <patch-file>\n", io)
      else do
        let (res, io) ← applyInPlaceFilenamesOn S {} io
        .ok ((mainEndOn res).1, (mainEndOn res).2, io)
    else .ok (1, "Usage: " ++ name ++ " {apply_patch, apply_patch_in_place}\n", io)
  | [name] => .ok (1, "Usage: " ++ name ++ " {apply_patch, apply_patch_in_place}\n", io)
  | [] => .ok (1, "Usage:  {apply_patch, apply_patch_in_place}\n", io)

end Detools
