import Verif.Model.HDiffModule
import Verif.Spec.Containers

/-!
What the extension module `hdiffpatch` relies on: a library that undoes what it did, and a
system that has memory.
-/

namespace Detools

/-- What the library makes of from-data and to-data for patch type hdiffpatch, by either of its
functions. -/
def HDiffPatch.Makes (L : HDiffPatch) (fr to diff : Bytes) : Prop :=
  ∃ n, L.diff to fr n PATCH_TYPE_HDIFFPATCH = .ok diff ∨ L.diffStream to fr n PATCH_TYPE_HDIFFPATCH = .ok diff

/-- The library knows the sizes of what it made a patch of, and given a cache of eight
kilobytes or more it undoes it. -/
structure HDiffPatch.Correct (L : HDiffPatch) : Prop where
  sizes : ∀ {fr to diff}, L.Makes fr to diff → L.info diff = some (fr.length, to.length)
  undoes : ∀ {fr to diff cache}, L.Makes fr to diff → 8192 ≤ cache → L.patch fr diff to.length cache = some to

/-- For patch type sequential the library writes the records of a detools patch. -/
def HDiffPatch.WritesRecords (L : HDiffPatch) : Prop :=
  ∀ fr to n diff, L.diff to fr n PATCH_TYPE_SEQUENTIAL = .ok diff ∨ L.diffStream to fr n PATCH_TYPE_SEQUENTIAL = .ok diff →
    ∃ ops, diff = encodeOps ops ∧ Rebuilds fr 0 ops to

/-- The system has memory for a byte array of each size it is asked for, and for a cache of less
than sixteen kilobytes; larger ones it may refuse. -/
structure HEnv.HasMemory (env : HEnv) : Prop where
  byteArray : ∀ n, env.byteArray n = true
  malloc : ∀ call n, n < 16384 → env.malloc call n = true

end Detools
