import Verif.Model.PyContainers

/-!
Model of the extension module `hdiffpatch`: detools/hdiffpatch.cpp. The library it is built
on, HDiffPatch, is a submodule that is not part of the repository: it is a parameter.
-/

namespace Detools

/-- The functions of HDiffPatch that the extension module calls. -/
structure HDiffPatch where
  /-- `create_compressed_diff`: the to-data, the from-data, the match score and the patch type.
  An error is a C++ exception. -/
  diff : (to fr : Bytes) → (score patchType : Nat) → Except String Bytes
  /-- `create_compressed_diff_stream`: the to-data, the from-data, the block size and the patch
  type; what it writes to the temporary file. An error is a C++ exception, also one because the
  file could not be opened or written. -/
  diffStream : (to fr : Bytes) → (blockSize patchType : Nat) → Except String Bytes
  /-- `getCompressedDiffInfo`: the sizes of the from-data and of the to-data. -/
  info : Bytes → Option (Nat × Nat)
  /-- `patch_decompress_with_cache`: the from-data, the patch, the size of the output and the size
  of the cache; what is in the output. -/
  patch : (fr diff : Bytes) → (newSize cacheSize : Nat) → Option Bytes

/-- What the system does for one call of the extension module. -/
structure HEnv where
  /-- Whether the call of `malloc` of this number gets this many bytes. -/
  malloc : Nat → Nat → Bool
  /-- Whether a byte array of this size can be had. -/
  byteArray : Nat → Bool
  /-- Whether the temporary file can be rewound. -/
  fseek : Bool
  /-- How many bytes can be read back from a temporary file of this size. -/
  fread : Nat → Nat

/-- `PATCH_CACHE_SIZE_MIN`. detools/hdiffpatch.cpp:262. -/
def PATCH_CACHE_SIZE_MIN : Nat := 1024 * 8

/-- `PATCH_CACHE_SIZE_BEST_MIN`. detools/hdiffpatch.cpp:263. -/
def PATCH_CACHE_SIZE_BEST_MIN : Nat := 2 ^ 21

/-- `PATCH_CACHE_SIZE_DEFAULT`. detools/hdiffpatch.cpp:264. -/
def PATCH_CACHE_SIZE_DEFAULT : Nat := 2 ^ 26

/-- The loop of `get_patch_mem_cache`, from a given call of `malloc` on.
detools/hdiffpatch.cpp:284-290. -/
def cacheLoop (malloc : Nat → Nat → Bool) : (fuel call size : Nat) → Except PyErr Nat
  | 0, _, _ => .error .timeout
  | fuel + 1, call, size =>
    if malloc call size then .ok size
    else cacheLoop malloc fuel (call + 1) (if size ≥ PATCH_CACHE_SIZE_MIN * 2 then size / 2 else size)

/-- `get_patch_mem_cache`: the size of the memory. The sum does not wrap: the from-data is
smaller than 2^63 bytes. detools/hdiffpatch.cpp:267-295. -/
def getPatchMemCache (malloc : Nat → Nat → Bool) (fuel cacheSize oldSize : Nat) : Except PyErr Nat :=
  let size := if cacheSize < PATCH_CACHE_SIZE_MIN then PATCH_CACHE_SIZE_MIN else cacheSize
  let size := if size > oldSize + PATCH_CACHE_SIZE_BEST_MIN then oldSize + PATCH_CACHE_SIZE_BEST_MIN else size
  cacheLoop malloc fuel 0 size

/-- `m_apply_patch`. A null pointer is returned without an exception being set for what is not
a patch and for from-data of another size: the interpreter raises SystemError. A to-size of
2^63 and more is negative as `Py_ssize_t`. That memory is leaked if there is an exception is
not modelled. detools/hdiffpatch.cpp:300-370. -/
def mApplyPatch (L : HDiffPatch) (env : HEnv) (fuel : Nat) (fr patch : Bytes) : Except PyErr Bytes :=
  match L.info patch with
  | none => .error (.builtin "SystemError")
  | some (oldSize, newSize) =>
    if fr.length ≠ oldSize then .error (.builtin "SystemError")
    else if newSize ≥ 2 ^ 63 then .error (.ub "PyByteArray_Resize to a negative size")
    else if ¬ env.byteArray newSize then .error (.builtin "MemoryError")
    else do
      let cacheSize ← getPatchMemCache env.malloc fuel PATCH_CACHE_SIZE_DEFAULT fr.length
      match L.patch fr patch newSize cacheSize with
      | none => .error (.ended "exit(1)")
      | some to => .ok to

/-- `create_patch_suffix_array`. detools/hdiffpatch.cpp:76-102. -/
def createPatchSuffixArray (L : HDiffPatch) (env : HEnv) (fr to : Bytes) (score patchType : Nat) : Except PyErr Bytes :=
  match L.diff to fr score patchType with
  | .error _ => .error (.builtin "RuntimeError")
  | .ok diff => if env.byteArray diff.length then .ok diff else .error (.builtin "MemoryError")

/-- `create_patch_match_blocks`. Nothing catches an exception of the library: the C++ runtime
ends the process. detools/hdiffpatch.cpp:104-174. -/
def createPatchMatchBlocks (L : HDiffPatch) (env : HEnv) (fr to : Bytes) (blockSize patchType : Nat) : Except PyErr Bytes :=
  match L.diffStream to fr blockSize patchType with
  | .error _ => .error (.ended "std::terminate")
  | .ok diff =>
    if ¬ env.byteArray diff.length then .error (.builtin "MemoryError")
    else if ¬ env.fseek then .error (.builtin "RuntimeError")
    else if env.fread diff.length ≠ diff.length then .error (.builtin "RuntimeError")
    else .ok diff

/-- `m_create_patch` with `parse_create_patch_args`: the format `I` takes the match score and the
block size modulo 2^32, the format `i` refuses a patch type that is not an `int`.
detools/hdiffpatch.cpp:33-74 and 185-226. -/
def mCreatePatch (L : HDiffPatch) (env : HEnv) (fr to : Bytes) (score blockSize patchType : Nat) : Except PyErr Bytes :=
  let score := score % 2 ^ 32
  let blockSize := blockSize % 2 ^ 32
  if patchType ≥ 2 ^ 31 then .error (.builtin "OverflowError")
  else if blockSize = 0 then createPatchSuffixArray L env fr to score patchType
  else createPatchMatchBlocks L env fr to blockSize patchType

/-- The module `hdiffpatch`, with one system for its `create_patch` and one for its
`apply_patch`. detools/hdiffpatch.cpp:372-376. -/
def HDiffPatch.extension (L : HDiffPatch) (created applied : HEnv) (fuel : Nat) : HDiff where
  create := mCreatePatch L created
  apply := mApplyPatch L applied fuel

end Detools
