import Verif.Model.CStdio
/-
What the C standard says of stdio, for C67: a call that succeeds has done what it is for. Any
call may fail, and then nothing is said of what it has done.
-/
namespace Detools

/-- The positions in the from-file and in the patch, and what is in the to-file. -/
structure StdioView where
  fromPos : Nat
  patchPos : Nat
  out : Bytes
deriving DecidableEq, Repr

/-- Stdio on a from-file with the contents `fr` and a patch with the contents `patch`. -/
structure Honest (S : Stdio ν) (fr patch : Bytes) (view : ν → StdioView) : Prop where
  /-- Opening for reading begins at the first byte. -/
  openFrom : ∀ s, (S.fopen s .from_).1 = true → view (S.fopen s .from_).2 = { view s with fromPos := 0 }
  openPatch : ∀ s, (S.fopen s .patch).1 = true → view (S.fopen s .patch).2 = { view s with patchPos := 0 }
  /-- Opening for writing makes the file empty. -/
  openTo : ∀ s, (S.fopen s .to).1 = true → view (S.fopen s .to).2 = { view s with out := [] }
  /-- Closing leaves everything as it is. -/
  close : ∀ s fd, (S.fclose s fd).1 = 0 → view (S.fclose s fd).2 = view s
  /-- There is no position before the first byte. -/
  seekFrom : ∀ s off, (S.fseek s .from_ off .cur).1 = 0 →
    0 ≤ (view s).fromPos + off ∧ view (S.fseek s .from_ off .cur).2 = { view s with fromPos := ((view s).fromPos + off).toNat }
  seekEnd : ∀ s, (S.fseek s .patch 0 .end_).1 = 0 → view (S.fseek s .patch 0 .end_).2 = { view s with patchPos := patch.length }
  seekSet : ∀ s, (S.fseek s .patch 0 .set).1 = 0 → view (S.fseek s .patch 0 .set).2 = { view s with patchPos := 0 }
  tell : ∀ s, 0 ≤ (S.ftell s .patch).1 → (S.ftell s .patch).1 = (view s).patchPos ∧ view (S.ftell s .patch).2 = view s
  readFrom : ∀ s n data, (S.fread s .from_ n).1 = some data → (view s).fromPos + n ≤ fr.length ∧
    data = (fr.drop (view s).fromPos).take n ∧ view (S.fread s .from_ n).2 = { view s with fromPos := (view s).fromPos + n }
  readPatch : ∀ s n data, (S.fread s .patch n).1 = some data → (view s).patchPos + n ≤ patch.length ∧
    data = (patch.drop (view s).patchPos).take n ∧ view (S.fread s .patch n).2 = { view s with patchPos := (view s).patchPos + n }
  write : ∀ s data, (S.fwrite s .to data).1 = true → view (S.fwrite s .to data).2 = { view s with out := (view s).out ++ data }

/-- In addition, no call fails that need not: reading within a file, moving to a position that is
not before the first byte, and all opening, closing, writing and telling succeed. -/
structure Works (S : Stdio ν) (fr patch : Bytes) (view : ν → StdioView) : Prop extends Honest S fr patch view where
  opens : ∀ s fd, (S.fopen s fd).1 = true
  closes : ∀ s fd, (S.fclose s fd).1 = 0
  seeksFrom : ∀ s (off : Int), 0 ≤ (view s).fromPos + off → (S.fseek s .from_ off .cur).1 = 0
  seeksEnd : ∀ s, (S.fseek s .patch 0 .end_).1 = 0
  seeksSet : ∀ s, (S.fseek s .patch 0 .set).1 = 0
  tells : ∀ s, 0 ≤ (S.ftell s .patch).1
  readsFrom : ∀ s n, (view s).fromPos + n ≤ fr.length → (S.fread s .from_ n).1 ≠ none
  readsPatch : ∀ s n, (view s).patchPos + n ≤ patch.length → (S.fread s .patch n).1 ≠ none
  writes : ∀ s data, (S.fwrite s .to data).1 = true

/-- What is in the memory file, the positions in it and in the patch, and the step that the user
has stored. -/
structure MemView where
  file : Bytes
  memPos : Nat
  patchPos : Nat
  step : Int
deriving DecidableEq, Repr

/-- Stdio on a memory file and a patch with the contents `patch`. -/
structure HonestMem (S : Stdio ν) (patch : Bytes) (view : ν → MemView) : Prop where
  /-- Opening for update leaves the contents. -/
  openMemory : ∀ s, (S.fopen s .memory).1 = true → view (S.fopen s .memory).2 = { view s with memPos := 0 }
  openPatch : ∀ s, (S.fopen s .patch).1 = true → view (S.fopen s .patch).2 = { view s with patchPos := 0 }
  close : ∀ s fd, (S.fclose s fd).1 = 0 → view (S.fclose s fd).2 = view s
  /-- There is no position before the first byte. -/
  seekMemory : ∀ s off, (S.fseek s .memory off .set).1 = 0 →
    0 ≤ off ∧ view (S.fseek s .memory off .set).2 = { view s with memPos := off.toNat }
  seekEnd : ∀ s, (S.fseek s .patch 0 .end_).1 = 0 → view (S.fseek s .patch 0 .end_).2 = { view s with patchPos := patch.length }
  seekSet : ∀ s, (S.fseek s .patch 0 .set).1 = 0 → view (S.fseek s .patch 0 .set).2 = { view s with patchPos := 0 }
  tell : ∀ s, 0 ≤ (S.ftell s .patch).1 → (S.ftell s .patch).1 = (view s).patchPos ∧ view (S.ftell s .patch).2 = view s
  readMemory : ∀ s n data, (S.fread s .memory n).1 = some data → (view s).memPos + n ≤ (view s).file.length ∧
    data = ((view s).file.drop (view s).memPos).take n ∧ view (S.fread s .memory n).2 = { view s with memPos := (view s).memPos + n }
  readPatch : ∀ s n data, (S.fread s .patch n).1 = some data → (view s).patchPos + n ≤ patch.length ∧
    data = (patch.drop (view s).patchPos).take n ∧ view (S.fread s .patch n).2 = { view s with patchPos := (view s).patchPos + n }
  /-- The bytes are replaced; a file that is too short is made longer. -/
  write : ∀ s data, (S.fwrite s .memory data).1 = true → view (S.fwrite s .memory data).2 =
    { view s with file := fileWrite (view s).file (view s).memPos data, memPos := (view s).memPos + data.length }

/-- In addition, no call fails that need not. -/
structure WorksMem (S : Stdio ν) (patch : Bytes) (view : ν → MemView) : Prop extends HonestMem S patch view where
  opens : ∀ s fd, (S.fopen s fd).1 = true
  closes : ∀ s fd, (S.fclose s fd).1 = 0
  seeksMemory : ∀ s (off : Int), 0 ≤ off → (S.fseek s .memory off .set).1 = 0
  seeksEnd : ∀ s, (S.fseek s .patch 0 .end_).1 = 0
  seeksSet : ∀ s, (S.fseek s .patch 0 .set).1 = 0
  tells : ∀ s, 0 ≤ (S.ftell s .patch).1
  readsMemory : ∀ s n, (view s).memPos + n ≤ (view s).file.length → (S.fread s .memory n).1 ≠ none
  readsPatch : ∀ s n, (view s).patchPos + n ≤ patch.length → (S.fread s .patch n).1 ≠ none
  writes : ∀ s data, (S.fwrite s .memory data).1 = true

/-- Step callbacks that store the step when they succeed. Either may fail at any call. -/
structure HonestSteps (steps : Steps ν) (view : ν → MemView) : Prop where
  set : ∃ f, steps.set = some f ∧ ∀ s n, (f s n).1 = 0 → view (f s n).2 = { view s with step := n }
  get : ∃ f, steps.get = some f ∧ ∀ s, (f s).1 = 0 → (f s).2.1 = (view s).step ∧ view (f s).2.2 = view s

/-- Step callbacks that do not fail. -/
structure StepsSucceed (steps : Steps ν) : Prop where
  sets : ∀ f, steps.set = some f → ∀ s n, (f s n).1 = 0
  gets : ∀ f, steps.get = some f → ∀ s, (f s).1 = 0

end Detools
