import Verif.Model.CSequential
import Verif.Model.CInPlace
/-
Model of the callback and file name functions of the C library. c/detools.c:2187-2687.
-/
namespace Detools

variable [Build]

/-- The callback `patch_read`: the return code and the bytes put in the buffer. -/
abbrev PatchRead (σ : Type) := σ → Nat → Int × Bytes × σ

/-- The size of the buffer `chunk`. c/detools.c:2196, 2261. -/
def callbackCap : Nat := 512

/-- The (ghost) record of the calls of `patch_read`, newest first: the size asked for and
the return value. -/
abbrev Reads := List (Nat × Int)

/-- The `while` loop of `callbacks_process`: the result, the object, the user's state
and the calls of `patch_read`. A `patch_read` that returns 0 without filling the buffer
makes the library process uninitialised bytes. c/detools.c:2198-2214. -/
def callbacksLoop (E : SeqEnv σ) (patchRead : PatchRead σ) (patchSize : Nat) :
    (fuel : Nat) → (res : Int) → (patchOffset : Nat) → ApplyPatch → World σ → Reads →
      C (Int × ApplyPatch × World σ × Reads)
  | 0, _, _, _, _, _ => .error .timeout
  | fuel + 1, res, patchOffset, s, w, rs =>
    if patchOffset < patchSize ∧ res = 0 then
      let chunkSize := min (patchSize - patchOffset) callbackCap
      let (res, chunk, arg) := patchRead w.arg chunkSize
      let w := { w with arg := arg }
      let rs := (chunkSize, res) :: rs
      if res = 0 then
        if chunk.length ≠ chunkSize then .error .uninit
        else do
          let (res, s, w) ← applyPatchProcess E s w chunk
          callbacksLoop E patchRead patchSize fuel res (patchOffset + chunkSize) s w rs
      else callbacksLoop E patchRead patchSize fuel IO_FAILED patchOffset s w rs
    else .ok (res, s, w, rs)

/-- `detools_apply_patch_callbacks` and `callbacks_process`; the initialisation cannot
fail. The object is finalized also after an error. c/detools.c:2187-2247. -/
def applyPatchCallbacks (E : SeqEnv σ) (patchRead : PatchRead σ) (patchSize : Nat) (arg : σ) :
    C (Int × World σ × Reads) := do
  let (res, s, w, rs) ← callbacksLoop E patchRead patchSize (patchSize + 2) 0 0 (applyPatchInit patchSize) { arg := arg } []
  if res = 0 then do
    let (res, _, w) ← applyPatchFinalize E s w
    .ok (res, w, rs)
  else do
    let (_, _, w) ← applyPatchFinalize E s w
    .ok (res, w, rs)

/-- The `while` loop of `in_place_callbacks_process`. c/detools.c:2263-2279. -/
def inPlaceCallbacksLoop (E : MemEnv σ) (patchRead : PatchRead σ) (patchSize : Nat) :
    (fuel : Nat) → (res : Int) → (patchOffset : Nat) → InPlace → MWorld σ → Reads →
      C (Int × InPlace × MWorld σ × Reads)
  | 0, _, _, _, _, _ => .error .timeout
  | fuel + 1, res, patchOffset, s, w, rs =>
    if patchOffset < patchSize ∧ res = 0 then
      let chunkSize := min (patchSize - patchOffset) callbackCap
      let (res, chunk, arg) := patchRead w.arg chunkSize
      let w := { w with arg := arg }
      let rs := (chunkSize, res) :: rs
      if res = 0 then
        if chunk.length ≠ chunkSize then .error .uninit
        else do
          let (res, s, w) ← inPlaceProcess E s w chunk
          inPlaceCallbacksLoop E patchRead patchSize fuel res (patchOffset + chunkSize) s w rs
      else inPlaceCallbacksLoop E patchRead patchSize fuel IO_FAILED patchOffset s w rs
    else .ok (res, s, w, rs)

/-- `detools_apply_patch_in_place_callbacks` and `in_place_callbacks_process`.
c/detools.c:2249-2315. -/
def applyPatchInPlaceCallbacks (E : MemEnv σ) (patchRead : PatchRead σ) (patchSize : Nat) (arg : σ) :
    C (Int × MWorld σ × Reads) := do
  let (res, s, w, rs) ← inPlaceCallbacksLoop E patchRead patchSize (patchSize + 2) 0 0 (inPlaceInit patchSize) { arg := arg } []
  if res = 0 then do
    let (res, _, w) ← inPlaceFinalize E s w
    .ok (res, w, rs)
  else do
    let (_, _, w) ← inPlaceFinalize E s w
    .ok (res, w, rs)

/-! ### File names -/

/-- A file opened for reading: its contents and position. -/
structure ReadFile where
  data : Bytes
  pos : Nat := 0
deriving DecidableEq, Repr

/-- `file_io_patch_read`: fails if the file has fewer bytes left. c/detools.c:2429-2442,
2462-2469. -/
def fileRead (f : ReadFile) (n : Nat) : Int × Bytes × ReadFile :=
  if n = 0 ∨ f.pos + n ≤ f.data.length then (0, (f.data.drop f.pos).take n, { f with pos := f.pos + n })
  else (FILE_READ_FAILED, [], f)

/-- The callbacks on a user's state of which one part is used by `patch_read` only. -/
def SeqEnv.with (E : SeqEnv τ) (ρ : Type) : SeqEnv (τ × ρ) where
  fromRead f n := let (r, d, g) := E.fromRead f.1 n; (r, d, (g, f.2))
  fromSeek f off := let (r, g) := E.fromSeek f.1 off; (r, (g, f.2))
  toWrite f d := let (r, g) := E.toWrite f.1 d; (r, (g, f.2))

/-- The same for the in-place callbacks. -/
def MemEnv.with (E : MemEnv τ) (ρ : Type) : MemEnv (τ × ρ) where
  memRead f addr n := let (r, d, g) := E.memRead f.1 addr n; (r, d, (g, f.2))
  memWrite f addr d := let (r, g) := E.memWrite f.1 addr d; (r, (g, f.2))
  memErase f addr n := let (r, g) := E.memErase f.1 addr n; (r, (g, f.2))
  stepSet := E.stepSet.map fun k f step => let (r, g) := k f.1 step; (r, (g, f.2))
  stepGet := E.stepGet.map fun k f => let (r, step, g) := k f.1; (r, step, (g, f.2))

/-- The other part. -/
def patchReadWith (τ : Type) (read : PatchRead ρ) : PatchRead (τ × ρ) := fun f n =>
  let (r, d, g) := read f.2 n
  (r, d, (f.1, g))

/-- What the operating system answers: the contents of the from-file and the patch if
they can be opened for reading, whether the to-file can be opened for writing, whether
seeking in the patch succeeds, and the results of the three `fclose` calls (from, to,
patch). -/
structure Os where
  from_ : Option Bytes
  patch : Option Bytes
  toOpens : Bool := true
  seeks : Bool := true
  closeFrom : Int := 0
  closeTo : Int := 0
  closePatch : Int := 0

/-- `file_io_init` up to and including `file_size`: the patch size or the error, and
whether the to-file was created (opening with "wb" makes it empty).
c/detools.c:2327-2412. -/
def fileIoInit (os : Os) : Except Int (Bytes × Bytes) × Bool :=
  match os.from_ with
  | none => (.error FILE_OPEN_FAILED, false)
  | some fr =>
    if os.toOpens = false then (.error FILE_OPEN_FAILED, false)
    else
      match os.patch with
      | none => (.error FILE_OPEN_FAILED, true)
      | some patch =>
        if os.seeks = false then (.error FILE_SEEK_FAILED, true)
        else if patch.length = 0 then (.error FILE_TELL_FAILED, true)
        else (.ok (fr, patch), true)

/-- `file_io_cleanup`. c/detools.c:2414-2428. -/
def fileIoCleanup (os : Os) : Int :=
  if os.closeFrom ≠ 0 ∨ os.closeTo ≠ 0 ∨ os.closePatch ≠ 0 then FILE_CLOSE_FAILED else os.closeFrom

/-- `detools_apply_patch_filenames` (`struct file_io_t` is the from-file, whose contents do
not change, the to-file, both in `Files`, and the patch; the to-file is neither the
from-file nor the patch; writes succeed): the return value and, if it was opened, the
contents of the to-file (what was passed to `fwrite`). c/detools.c:2321-2325, 2490-2526. -/
def applyPatchFilenames (os : Os) : C (Int × Option Bytes) :=
  match fileIoInit os with
  | (.error e, created) => .ok (e, if created then some [] else none)
  | (.ok (fr, patch), _) => do
    let (res, w, _) ← applyPatchCallbacks ((fileEnv fr).with ReadFile) (patchReadWith Files fileRead) patch.length ({}, { data := patch })
    if res ≠ 0 then .ok (res, some w.arg.1.out)
    else .ok (fileIoCleanup os, some w.arg.1.out)

end Detools
