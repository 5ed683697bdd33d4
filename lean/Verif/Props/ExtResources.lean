import Verif.Proofs.ExtResources
import Verif.Model.Sais
/-
C65: the extension modules give back what they take. `A` says which calls of CPython, malloc
and the C library succeed. An `.ok` result is that nothing was released, freed, closed or
dropped that was not held.
-/
namespace Detools.Ext

/-- C65, `bsdiff.create_patch`. Whatever fails, all four buffers are released once. It returns
the list of the chunks, and no other object is left, or NULL, with an exception set and
no object left; NULL only if a call failed. -/
theorem C65_create_patch (A : Luck) (sa : List Nat) (fr to : Bytes) (debufSize : Nat) (chunks : List Bytes)
    (_ : bsdiffCreatePatch sa fr to debufSize = some chunks) :
    ∃ r s, createPatch A chunks = .ok (r, s) ∧ Tidy s ∧ Proper (OnlyList chunks) r s ∧ (r = .null → ∃ n, A n = false) :=
  createPatch_ok A chunks

/-- C65, `bsdiff.pack_size`. -/
theorem C65_pack_size (A : Luck) (packed : Bytes) :
    ∃ r s, packSize A packed = .ok (r, s) ∧ Tidy s ∧ Proper (OnlyBytes packed) r s ∧ (r = .null → ∃ n, A n = false) :=
  packSize_ok A packed

/-- C65, `bsdiff.add_bytes` of the same length. -/
theorem C65_add_bytes (A : Luck) (a b : Bytes) (hab : a.length = b.length) :
    ∃ r s, addBytes A a b = .ok (r, s) ∧ Tidy s ∧ Proper (OnlyBytes (List.zipWith (· + ·) a b)) r s ∧ (r = .null → ∃ n, A n = false) :=
  addBytes_ok A a b hab

/-- C65. The first exception: with different lengths, as when a patch is applied to from-data
that is too short, both buffers of `bsdiff.add_bytes` stay held for ever. -/
theorem C65_add_bytes_leaks (A : Luck) (a b : Bytes) (hab : a.length ≠ b.length) (h : A 0 = true ∧ A 1 = true ∧ A 2 = true) :
    ∃ s, addBytes A a b = .ok (.null, s) ∧ s.raised = true ∧ s.views = [1, 0] := by
  unfold addBytes
  rcases parse_two A with ⟨s, k1, -, -⟩ | k
  · simp only [parseArgs, call, h.1, range_two, getBuffers, getBuffer, h.2.1, h.2.2] at k1
    cases k1
  · rw [k]
    simp only [Bind.bind, Except.bind, Bool.not_true, Bool.false_eq_true, if_false]
    rw [if_pos hab]
    exact ⟨_, rfl, rfl, rfl⟩

/-- C65, `suffix_array.sais`, with any depth of recursion and any sizes. Both buffers are
released and all memory is freed, whatever fails. It returns None, or NULL if a call of CPython
failed, with an exception set, or if malloc failed. -/
theorem C65_sais (A : Luck) (levels : List Level) :
    ∃ r s, createSuffixArray A (saisMain A levels) = .ok (r, s) ∧ Tidy s ∧
      ((r = .obj 0 ∧ s.raised = false ∧ s.refused = false ∧ OnlyBytes [] 0 s) ∨ (r = .null ∧ NoObjects s ∧ s.raised = !s.refused)) :=
  createSuffixArray_ok A _ (saisMain_ok A levels)

/-- C65, `suffix_array.divsufsort`. -/
theorem C65_divsufsort (A : Luck) :
    ∃ r s, createSuffixArray A (divsufsort A) = .ok (r, s) ∧ Tidy s ∧
      ((r = .obj 0 ∧ s.raised = false ∧ s.refused = false ∧ OnlyBytes [] 0 s) ∨ (r = .null ∧ NoObjects s ∧ s.raised = !s.refused)) :=
  createSuffixArray_ok A _ (divsufsort_ok A)

/-- C65. If malloc fails in a suffix array function, NULL is returned with no exception set:
Python raises SystemError, not MemoryError. -/
theorem C65_no_memory (A : Luck) (levels : List Level) {r s} (h : createSuffixArray A (saisMain A levels) = .ok (r, s)) (hm : s.refused = true) :
    r = .null ∧ s.raised = false := by
  obtain ⟨r', s', k1, -, k3⟩ := C65_sais A levels
  rw [k1] at h
  cases h
  rcases k3 with ⟨-, -, k, -⟩ | ⟨k, -, k'⟩
  · rw [hm] at k; cases k
  · exact ⟨k, by rw [k', hm]; rfl⟩

/-- C65, `hdiffpatch.create_patch`, for a library that makes `diff` of the data, or throws
(`none`). The process ends only if it throws for match blocks. -/
theorem C65_hdiffpatch_create (A : Luck) (blocks : Bool) (diff : Option Bytes) :
    ∃ r s, hdiffCreate A blocks diff = .ok (r, s) ∧
      ((r = .ended ∧ blocks = true ∧ diff = none) ∨
        (Tidy s ∧ Proper (fun i s => ∃ d, diff = some d ∧ OnlyBytes d i s) r s ∧ (r = .null → diff = none ∨ ∃ n, A n = false))) :=
  hdiffCreate_ok A blocks diff

/-- C65, `hdiffpatch.apply_patch`. The process ends if the library fails (C60). NULL is
returned without an exception if the patch is bad or not for from-data of this size
(`header` is `none`). If the byte array cannot be made as large as the to-data (the fifth
call), it is left behind. -/
theorem C65_hdiffpatch_apply (A : Luck) (header : Option Nat) (to : Option Bytes) :
    ∃ r s, hdiffApply A header to = .ok (r, s) ∧
      ((r = .ended ∧ to = none) ∨
       (r = .null ∧ header = none ∧ Tidy s ∧ NoObjects s ∧ s.raised = false) ∨
       (A 4 = false ∧ header ≠ none ∧ r = .null ∧ s.raised = true ∧ Tidy s ∧ OnlyBytes [0] 0 s) ∨
       (Tidy s ∧ Proper (fun i s => ∃ d, to = some d ∧ OnlyBytes d i s) r s)) :=
  hdiffApply_ok A header to

/-- C65. The second exception: if the byte array of `hdiffpatch.apply_patch` cannot be made as
large as the to-data of a good patch, it is left behind with one reference nobody holds. -/
theorem C65_hdiffpatch_apply_leaks (A : Luck) (n : Nat) (to : Option Bytes) (h : A 0 = true ∧ A 1 = true ∧ A 2 = true ∧ A 3 = true)
    (h4 : A 4 = false) :
    ∃ s, hdiffApply A (some n) to = .ok (.null, s) ∧ s.raised = true ∧ OnlyBytes [0] 0 s := by
  obtain ⟨h0, h1, h2, h3⟩ := h
  simp only [hdiffApply, call, new, h0, h1, h2, h3, resize, get, h4, Bind.bind, Except.bind]
  refine ⟨_, rfl, by simp, ?_⟩
  refine ⟨by simp, fun j o hj => ?_⟩
  match j with
  | 0 => rfl
  | j + 1 => simp at hj

/-- C65. A bad patch gives NULL with no exception set. -/
theorem C65_hdiffpatch_apply_no_exception (A : Luck) (to : Option Bytes) (h : A 0 = true ∧ A 1 = true ∧ A 2 = true) :
    ∃ s, hdiffApply A none to = .ok (.null, s) ∧ s.raised = false := by
  obtain ⟨h0, h1, h2⟩ := h
  simp only [hdiffApply, call, h0, h1, h2]
  exact ⟨_, rfl, rfl⟩

-- Creation of a patch in which all succeeds, and in which the second append fails, after which
-- the list, the first chunk and the second one are gone.
example : createPatch (fun _ => true) [[1], [2, 3]] =
    .ok (.obj 0, { calls := 10, objs := [some ⟨1, [1, 2], []⟩, some ⟨1, [], [1]⟩, some ⟨1, [], [2, 3]⟩] }) := by decide +kernel
example : createPatch (fun n => n ≠ 9) [[1], [2, 3]] = .ok (.null, { calls := 10, objs := [none, none, none], raised := true }) := by decide +kernel
example : (bsdiffCreatePatch [3, 0, 1, 2] [1, 2, 3] [1, 2, 4] 3).isSome = true := by decide +kernel
/-- Two levels of `sais_main`: five calls of malloc, after the three for the arguments. Below,
all succeed, and the fourth fails. -/
def twoLevels : List Level := [⟨256, 0, 5000, 700, true⟩, ⟨600, 900, 700, 100, false⟩]
example : (createSuffixArray (fun _ => true) (saisMain (fun _ => true) twoLevels)).map (fun r => (r.1, r.2.calls)) = .ok (.obj 0, 8) := by
  decide +kernel
example : (createSuffixArray (fun n => n ≠ 6) (saisMain (fun n => n ≠ 6) twoLevels)).map (fun r => (r.1, r.2.calls, r.2.blocks, r.2.raised)) =
    .ok (.null, 7, [], false) := by decide +kernel
example : addBytes (fun _ => true) [1, 2] [3] = .ok (.null, { calls := 3, views := [1, 0], raised := true }) := by decide +kernel
example : (hdiffCreate (fun n => n ≠ 6) true (some [1, 2])).map (fun r => (r.1, r.2.objs, r.2.files, r.2.raised)) = .ok (.null, [none], 0, true) := by
  decide +kernel
example : hdiffApply (fun n => n ≠ 4) (some 9) none = .ok (.null, { calls := 5, objs := [some ⟨1, [], [0]⟩], raised := true }) := by decide +kernel

end Detools.Ext
