import Verif.Model.CCallbacks
import Verif.Model.PyInPlace
/-
Model of detools_apply_patch_in_place_filenames. c/detools.c:2528-2687.
-/
namespace Detools

variable [Build]

/-- `in_place_file_io_mem_read`: `src` is converted to `int`. Every access seeks first, so
the position of the memory file is not part of the state. c/detools.c:2577-2601. -/
def memFileRead (m : Bytes) (src n : Nat) : Int × Bytes :=
  if n = 0 then (0, [])
  else if wrapInt src < 0 then (FILE_SEEK_FAILED, [])
  else if (wrapInt src).toNat + n ≤ m.length then (0, (m.drop (wrapInt src).toNat).take n)
  else (FILE_READ_FAILED, [])

/-- `in_place_file_io_mem_write`: `dst` is converted to `int`. Seeking beyond the end
succeeds and the write makes the file longer. The file system is not full: `fwrite`
succeeds. c/detools.c:2603-2627. -/
def memFileWrite (m : Bytes) (dst : Nat) (data : Bytes) : Int × Bytes :=
  if data.length = 0 then (0, m)
  else if wrapInt dst < 0 then (FILE_SEEK_FAILED, m)
  else (0, fileWrite m (wrapInt dst).toNat data)

/-- The step callbacks passed by the user, over the user's state. -/
structure Steps (υ : Type) where
  set : Option (υ → Int → Int × υ) := none
  get : Option (υ → Int × Int × υ) := none

/-- The callbacks used on the memory file and the user's state. Erasing does nothing.
c/detools.c:2577-2636. -/
def memFileEnv (steps : Steps υ) : MemEnv (Bytes × υ) where
  memRead f src n := let (r, d) := memFileRead f.1 src n; (r, d, f)
  memWrite f dst data := let (r, m) := memFileWrite f.1 dst data; (r, (m, f.2))
  memErase f _ _ := (0, f)
  stepSet := steps.set.map fun k f step => let (r, u) := k f.2 step; (r, (f.1, u))
  stepGet := steps.get.map fun k f => let (r, step, u) := k f.2; (r, step, (f.1, u))

/-- What the operating system answers: the contents of the memory file if it can be
opened for reading and writing, the contents of the patch if it can be opened, whether
seeking in the patch succeeds, and the results of the two `fclose` calls. -/
structure IpOs where
  memory : Option Bytes
  patch : Option Bytes
  seeks : Bool := true
  closeMemory : Int := 0
  closePatch : Int := 0

/-- `in_place_file_io_init` with `file_size`. The memory file is opened without changing
it. c/detools.c:2327-2352, 2533-2575. -/
def inPlaceFileIoInit (os : IpOs) : Except Int (Bytes × Bytes) :=
  match os.memory with
  | none => .error FILE_OPEN_FAILED
  | some memory =>
    match os.patch with
    | none => .error FILE_OPEN_FAILED
    | some patch =>
      if os.seeks = false then .error FILE_SEEK_FAILED
      else if patch.length = 0 then .error FILE_TELL_FAILED
      else .ok (memory, patch)

/-- `in_place_file_io_cleanup`. c/detools.c:2638-2651. -/
def inPlaceFileIoCleanup (os : IpOs) : Int :=
  if os.closeMemory ≠ 0 ∨ os.closePatch ≠ 0 then FILE_CLOSE_FAILED else os.closeMemory

/-- `detools_apply_patch_in_place_filenames`: the return value, the contents of the memory
file afterwards (what was passed to `fwrite`) and the user's state. The memory file and
the patch are different files. c/detools.c:2653-2687. -/
def applyPatchInPlaceFilenames (os : IpOs) (steps : Steps υ) (u : υ) : C (Int × Option Bytes × υ) :=
  match inPlaceFileIoInit os with
  | .error e => .ok (e, os.memory, u)
  | .ok (memory, patch) => do
    let (res, w, _) ← applyPatchInPlaceCallbacks ((memFileEnv steps).with ReadFile)
      (patchReadWith (Bytes × υ) fileRead) patch.length ((memory, u), { data := patch })
    if res ≠ 0 then .ok (res, some w.arg.1.1, w.arg.1.2)
    else .ok (inPlaceFileIoCleanup os, some w.arg.1.1, w.arg.1.2)

end Detools
