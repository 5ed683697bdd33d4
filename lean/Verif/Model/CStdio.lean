import Verif.Model.CInPlaceFiles
/-
Model of the file functions of the C library on any stdio: each call can fail, and which files
are open is kept. c/detools.c:2321-2687. `Model/CCallbacks` and
`Model/CInPlaceFiles` have the same functions on files that can be read and written.
-/
namespace Detools

variable [Build]

/-- The files of `struct file_io_t` and `struct in_place_file_io_t`. -/
inductive Fd where
  | from_ | to | patch | memory
deriving DecidableEq, Repr

/-- The third argument of `fseek`. -/
inductive Whence where
  | set | cur | end_
deriving DecidableEq, Repr

/-- The C library and the system, with a state: `fopen` succeeds or not, `fread` of one item
gives the bytes or fails, `fwrite` of one item succeeds or not, the others have their results. -/
structure Stdio (ν : Type) where
  fopen : ν → Fd → Bool × ν
  fclose : ν → Fd → Int × ν
  fseek : ν → Fd → Int → Whence → Int × ν
  ftell : ν → Fd → Int × ν
  fread : ν → Fd → Nat → Option Bytes × ν
  fwrite : ν → Fd → Bytes → Bool × ν

/-- The state of the system and (ghost) the files that are open, whether a file was used
or closed that is not, whether a call other than `fclose` failed, whether `fclose` failed. -/
structure Io (ν : Type) where
  sys : ν
  opened : List Fd := []
  misused : Bool := false
  failed : Bool := false
  closeFailed : Bool := false
deriving DecidableEq, Repr

/-- After a use of a file. -/
def Io.used (io : Io ν) (fd : Fd) (sys : ν) (ok : Bool) : Io ν :=
  { io with sys := sys, misused := io.misused || !decide (fd ∈ io.opened), failed := io.failed || !ok }

/-- `fopen` -/
def Io.fopen (S : Stdio ν) (io : Io ν) (fd : Fd) : Bool × Io ν :=
  match S.fopen io.sys fd with
  | (true, sys) => (true, { io with sys := sys, opened := fd :: io.opened })
  | (false, sys) => (false, { io with sys := sys, failed := true })

/-- `fclose`: the file is closed also if it fails. -/
def Io.fclose (S : Stdio ν) (io : Io ν) (fd : Fd) : Int × Io ν :=
  match S.fclose io.sys fd with
  | (res, sys) => (res, { io with sys := sys, opened := io.opened.erase fd, misused := io.misused || !decide (fd ∈ io.opened),
                                  closeFailed := io.closeFailed || decide (res ≠ 0) })

/-- `fseek` -/
def Io.fseek (S : Stdio ν) (io : Io ν) (fd : Fd) (offset : Int) (whence : Whence) : Int × Io ν :=
  match S.fseek io.sys fd offset whence with
  | (res, sys) => (res, io.used fd sys (decide (res = 0)))

/-- `ftell` -/
def Io.ftell (S : Stdio ν) (io : Io ν) (fd : Fd) : Int × Io ν :=
  match S.ftell io.sys fd with
  | (res, sys) => (res, io.used fd sys (decide (0 ≤ res)))

/-- `file_size`: the return value and the size. c/detools.c:2327-2352. -/
def fileSizeOn (S : Stdio ν) (io : Io ν) (fd : Fd) : (Int × Int) × Io ν :=
  match io.fseek S fd 0 .end_ with
  | (res, io) =>
    if res ≠ 0 then ((FILE_SEEK_FAILED, 0), io)
    else
      match io.ftell S fd with
      | (size, io) =>
        if size ≤ 0 then ((FILE_TELL_FAILED, 0), io)
        else
          match io.fseek S fd 0 .set with
          | (res, io) => if res ≠ 0 then ((FILE_SEEK_FAILED, 0), io) else ((res, size), io)

/-- `file_io_init`: the return value and the size of the patch. c/detools.c:2354-2410. -/
def fileIoInitOn (S : Stdio ν) (io : Io ν) : (Int × Int) × Io ν :=
  match io.fopen S .from_ with
  | (false, io) => ((FILE_OPEN_FAILED, 0), io)
  | (true, io) =>
    match io.fopen S .to with
    | (false, io) => ((FILE_OPEN_FAILED, 0), (io.fclose S .from_).2)
    | (true, io) =>
      match io.fopen S .patch with
      | (false, io) => ((FILE_OPEN_FAILED, 0), ((io.fclose S .to).2.fclose S .from_).2)
      | (true, io) =>
        match fileSizeOn S io .patch with
        | ((res, size), io) =>
          if res ≠ 0 then ((res, 0), (((io.fclose S .patch).2.fclose S .to).2.fclose S .from_).2)
          else ((res, size), io)

/-- `file_io_cleanup`. c/detools.c:2412-2427. -/
def fileIoCleanupOn (S : Stdio ν) (io : Io ν) : Int × Io ν :=
  match io.fclose S .from_ with
  | (res, io) =>
    match io.fclose S .to with
    | (res2, io) =>
      match io.fclose S .patch with
      | (res3, io) => (if res ≠ 0 ∨ res2 ≠ 0 ∨ res3 ≠ 0 then FILE_CLOSE_FAILED else res, io)

/-- `file_io_read`. c/detools.c:2429-2442. -/
def fileIoRead (S : Stdio ν) (io : Io ν) (fd : Fd) (n : Nat) : Int × Bytes × Io ν :=
  if n > 0 then
    match S.fread io.sys fd n with
    | (some data, sys) => (0, data, io.used fd sys true)
    | (none, sys) => (FILE_READ_FAILED, [], io.used fd sys false)
  else (0, [], io)

/-- `file_io_to_write`. c/detools.c:2471-2487. -/
def fileIoToWrite (S : Stdio ν) (io : Io ν) (data : Bytes) : Int × Io ν :=
  if data.length > 0 then
    match S.fwrite io.sys .to data with
    | (true, sys) => (0, io.used .to sys true)
    | (false, sys) => (FILE_WRITE_FAILED, io.used .to sys false)
  else (0, io)

/-- The callbacks. c/detools.c:2444-2487. -/
def fileIoEnv (S : Stdio ν) : SeqEnv (Io ν) where
  fromRead io n := fileIoRead S io .from_ n
  fromSeek io offset := io.fseek S .from_ offset .cur
  toWrite io data := fileIoToWrite S io data

/-- `detools_apply_patch_filenames`. c/detools.c:2490-2526. -/
def applyFilenamesOn (S : Stdio ν) (io : Io ν) : C (Int × Io ν) :=
  match fileIoInitOn S io with
  | ((res, size), io) =>
    if res ≠ 0 then .ok (res, io)
    else do
      let (res, w, _) ← applyPatchCallbacks (fileIoEnv S) (fun io n => fileIoRead S io .patch n) size.toNat io
      if res ≠ 0 then .ok (res, (fileIoCleanupOn S w.arg).2)
      else .ok (fileIoCleanupOn S w.arg)

/-- `in_place_file_io_init`: the return value and the size of the patch.
c/detools.c:2533-2575. -/
def inPlaceFileIoInitOn (S : Stdio ν) (io : Io ν) : (Int × Int) × Io ν :=
  match io.fopen S .memory with
  | (false, io) => ((FILE_OPEN_FAILED, 0), io)
  | (true, io) =>
    match io.fopen S .patch with
    | (false, io) => ((FILE_OPEN_FAILED, 0), (io.fclose S .memory).2)
    | (true, io) =>
      match fileSizeOn S io .patch with
      | ((res, size), io) =>
        if res ≠ 0 then ((res, 0), ((io.fclose S .patch).2.fclose S .memory).2)
        else ((res, size), io)

/-- `in_place_file_io_mem_read`: `src` is converted to `int`. c/detools.c:2577-2601. -/
def inPlaceFileIoMemRead (S : Stdio ν) (io : Io ν) (src n : Nat) : Int × Bytes × Io ν :=
  if n > 0 then
    match io.fseek S .memory (wrapInt src) .set with
    | (res, io) => if res ≠ 0 then (FILE_SEEK_FAILED, [], io) else fileIoRead S io .memory n
  else (0, [], io)

/-- `in_place_file_io_mem_write`: `dst` is converted to `int`. c/detools.c:2603-2627. -/
def inPlaceFileIoMemWrite (S : Stdio ν) (io : Io ν) (dst : Nat) (data : Bytes) : Int × Io ν :=
  if data.length > 0 then
    match io.fseek S .memory (wrapInt dst) .set with
    | (res, io) =>
      if res ≠ 0 then (FILE_SEEK_FAILED, io)
      else
        match S.fwrite io.sys .memory data with
        | (true, sys) => (res, io.used .memory sys true)
        | (false, sys) => (FILE_WRITE_FAILED, io.used .memory sys false)
  else (0, io)

/-- The callbacks, with the user's for the steps, which may do anything to the system but use
the files. c/detools.c:2577-2636. -/
def inPlaceFileIoEnv (S : Stdio ν) (steps : Steps ν) : MemEnv (Io ν) where
  memRead io src n := inPlaceFileIoMemRead S io src n
  memWrite io dst data := inPlaceFileIoMemWrite S io dst data
  memErase io _ _ := (0, io)
  stepSet := steps.set.map fun k io step => let (r, sys) := k io.sys step; (r, { io with sys := sys })
  stepGet := steps.get.map fun k io => let (r, step, sys) := k io.sys; (r, step, { io with sys := sys })

/-- `in_place_file_io_cleanup`. c/detools.c:2638-2651. -/
def inPlaceFileIoCleanupOn (S : Stdio ν) (io : Io ν) : Int × Io ν :=
  match io.fclose S .memory with
  | (res, io) =>
    match io.fclose S .patch with
    | (res2, io) => (if res ≠ 0 ∨ res2 ≠ 0 then FILE_CLOSE_FAILED else res, io)

/-- `detools_apply_patch_in_place_filenames`. c/detools.c:2653-2687. -/
def applyInPlaceFilenamesOn (S : Stdio ν) (steps : Steps ν) (io : Io ν) : C (Int × Io ν) :=
  match inPlaceFileIoInitOn S io with
  | ((res, size), io) =>
    if res ≠ 0 then .ok (res, io)
    else do
      let (res, w, _) ← applyPatchInPlaceCallbacks (inPlaceFileIoEnv S steps) (fun io n => fileIoRead S io .patch n) size.toNat io
      if res ≠ 0 then .ok (res, (inPlaceFileIoCleanupOn S w.arg).2)
      else .ok (inPlaceFileIoCleanupOn S w.arg)

end Detools
