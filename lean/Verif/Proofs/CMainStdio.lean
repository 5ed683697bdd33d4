import Verif.Model.CMainStdio
import Verif.Proofs.CStdioInPlaceSim
import Verif.Proofs.CCodes
/-
Lemmas for C68: the codes that the functions on any stdio return.
-/
namespace Detools

variable {S : Stdio ν}

theorem fileSizeOn_doc (io : Io ν) (fd : Fd) : (fileSizeOn S io fd).1.1 = 0 ∨ DocumentedError (fileSizeOn S io fd).1.1 := by
  unfold fileSizeOn
  rcases io.fseek S fd 0 .end_ with ⟨r1, io1⟩
  simp only
  split
  · exact .inr (show DocumentedError FILE_SEEK_FAILED by unfold DocumentedError; decide)
  rcases io1.ftell S fd with ⟨z, io2⟩
  simp only
  split
  · exact .inr (show DocumentedError FILE_TELL_FAILED by unfold DocumentedError; decide)
  rcases io2.fseek S fd 0 .set with ⟨r3, io3⟩
  simp only
  split
  · exact .inr (show DocumentedError FILE_SEEK_FAILED by unfold DocumentedError; decide)
  · rename_i h
    exact .inl (Decidable.not_not.mp h)

theorem fileIoInitOn_doc (io : Io ν) : (fileIoInitOn S io).1.1 = 0 ∨ DocumentedError (fileIoInitOn S io).1.1 := by
  have hf : DocumentedError FILE_OPEN_FAILED := by unfold DocumentedError; decide
  unfold fileIoInitOn
  rcases io.fopen S .from_ with ⟨_ | _, io1⟩
  · exact .inr hf
  simp only
  rcases io1.fopen S .to with ⟨_ | _, io2⟩
  · exact .inr hf
  simp only
  rcases io2.fopen S .patch with ⟨_ | _, io3⟩
  · exact .inr hf
  simp only
  have := fileSizeOn_doc (S := S) io3 .patch
  revert this
  rcases fileSizeOn S io3 .patch with ⟨⟨res, size⟩, io4⟩
  intro h
  simp only at h ⊢
  split <;> exact h

theorem inPlaceFileIoInitOn_doc (io : Io ν) : (inPlaceFileIoInitOn S io).1.1 = 0 ∨ DocumentedError (inPlaceFileIoInitOn S io).1.1 := by
  have hf : DocumentedError FILE_OPEN_FAILED := by unfold DocumentedError; decide
  unfold inPlaceFileIoInitOn
  rcases io.fopen S .memory with ⟨_ | _, io2⟩
  · exact .inr hf
  simp only
  rcases io2.fopen S .patch with ⟨_ | _, io3⟩
  · exact .inr hf
  simp only
  have := fileSizeOn_doc (S := S) io3 .patch
  revert this
  rcases fileSizeOn S io3 .patch with ⟨⟨res, size⟩, io4⟩
  intro h
  simp only at h ⊢
  split <;> exact h

theorem fileIoCleanupOn_doc (io : Io ν) : 0 ≤ (fileIoCleanupOn S io).1 ∨ DocumentedError (fileIoCleanupOn S io).1 := by
  unfold fileIoCleanupOn
  rcases io.fclose S .from_ with ⟨r1, io1⟩
  simp only
  rcases io1.fclose S .to with ⟨r2, io2⟩
  simp only
  rcases io2.fclose S .patch with ⟨r3, io3⟩
  simp only
  split
  · exact .inr (by unfold DocumentedError; decide)
  · rename_i h
    exact .inl (by omega)

theorem inPlaceFileIoCleanupOn_doc (io : Io ν) : 0 ≤ (inPlaceFileIoCleanupOn S io).1 ∨ DocumentedError (inPlaceFileIoCleanupOn S io).1 := by
  unfold inPlaceFileIoCleanupOn
  rcases io.fclose S .memory with ⟨r1, io1⟩
  simp only
  rcases io1.fclose S .patch with ⟨r2, io2⟩
  simp only
  split
  · exact .inr (by unfold DocumentedError; decide)
  · rename_i h
    exact .inl (by omega)

theorem inPlaceFileIoEnv_doc (S : Stdio ν) (steps : Steps ν) (r : Int) (h : (inPlaceFileIoEnv S steps).Returns r) : 0 ≤ r ∨ DocumentedError r := by
  have hs : DocumentedError FILE_SEEK_FAILED := by unfold DocumentedError; decide
  have hr : DocumentedError FILE_READ_FAILED := by unfold DocumentedError; decide
  have hw : DocumentedError FILE_WRITE_FAILED := by unfold DocumentedError; decide
  rcases h with ⟨a, addr, n, h⟩ | ⟨a, addr, d, h⟩ | ⟨a, addr, n, h⟩
  · rw [← h]
    show 0 ≤ (inPlaceFileIoMemRead S a addr n).1 ∨ DocumentedError (inPlaceFileIoMemRead S a addr n).1
    unfold inPlaceFileIoMemRead
    split
    · rcases a.fseek S .memory (wrapInt addr) .set with ⟨r1, io1⟩
      simp only
      split
      · exact .inr hs
      · rcases fileIoRead_fault S io1 .memory n with e | e <;> rw [e]
        · exact .inl (Int.le_refl 0)
        · exact .inr hr
    · exact .inl (Int.le_refl 0)
  · rw [← h]
    show 0 ≤ (inPlaceFileIoMemWrite S a addr d).1 ∨ DocumentedError (inPlaceFileIoMemWrite S a addr d).1
    unfold inPlaceFileIoMemWrite
    split
    · rcases a.fseek S .memory (wrapInt addr) .set with ⟨r1, io1⟩
      simp only
      split
      · exact .inr hs
      · rename_i hz
        rcases S.fwrite io1.sys .memory d with ⟨_ | _, sys⟩
        · exact .inr hw
        · exact .inl (show 0 ≤ r1 by have := Decidable.not_not.mp hz; omega)
    · exact .inl (Int.le_refl 0)
  · rw [← h]; exact .inl (Int.le_refl 0)

variable [Build]

theorem applyFilenamesOn_doc {io io' : Io ν} {n : Int} (h : applyFilenamesOn S io = .ok (n, io')) : 0 ≤ n ∨ DocumentedError n := by
  unfold applyFilenamesOn at h
  have hi := fileIoInitOn_doc (S := S) io
  revert h hi
  rcases fileIoInitOn S io with ⟨⟨res, size⟩, io0⟩
  intro h hi
  simp only at h hi
  split at h
  · rename_i hz
    cases h
    exact .inr (hi.resolve_left hz)
  simp only [Bind.bind, Except.bind] at h
  split at h
  · cases h
  rename_i x hx
  obtain ⟨r, w, rs⟩ := x
  simp only at h
  split at h
  · cases h
    exact callbacks_doc hx
  · have e : fileIoCleanupOn S w.arg = (n, io') := by simpa using h
    have := fileIoCleanupOn_doc (S := S) w.arg
    rw [e] at this
    exact this

theorem applyInPlaceFilenamesOn_doc {steps : Steps ν} {io io' : Io ν} {n : Int} (h : applyInPlaceFilenamesOn S steps io = .ok (n, io')) :
    0 ≤ n ∨ DocumentedError n := by
  unfold applyInPlaceFilenamesOn at h
  have hi := inPlaceFileIoInitOn_doc (S := S) io
  revert h hi
  rcases inPlaceFileIoInitOn S io with ⟨⟨res, size⟩, io0⟩
  intro h hi
  simp only at h hi
  split at h
  · rename_i hz
    cases h
    exact .inr (hi.resolve_left hz)
  simp only [Bind.bind, Except.bind] at h
  split at h
  · cases h
  rename_i x hx
  obtain ⟨r, w, rs⟩ := x
  simp only at h
  split at h
  · cases h
    rcases inPlaceCallbacks_doc (fun e => (inPlaceFileIoEnv_returns S steps _ e).2 rfl) hx with k | k | k
    · exact .inl k
    · exact .inr k
    · exact inPlaceFileIoEnv_doc S steps _ k
  · have e : inPlaceFileIoCleanupOn S w.arg = (n, io') := by simpa using h
    have := inPlaceFileIoCleanupOn_doc (S := S) w.arg
    rw [e] at this
    exact this

omit [Build] in
/-- The end of `main` from the value of the library. -/
theorem mainEndOn_cases {res : Int} (h : 0 ≤ res ∨ DocumentedError res) :
    (0 ≤ res ∧ mainEndOn res = (0, "")) ∨
    (1 ≤ (mainEndOn res).1 ∧ (mainEndOn res).1 ≤ 27 ∧ res = -(mainEndOn res).1 ∧
      (mainEndOn res).2 = "error: " ++ errorAsString (mainEndOn res).1 ++ " (error code " ++ toString (mainEndOn res).1 ++ ")\n") := by
  unfold mainEndOn
  by_cases h0 : 0 < res
  · exact .inl ⟨by omega, by rw [if_pos h0]⟩
  · rw [if_neg h0]
    by_cases h1 : res < 0
    · rw [if_pos h1]
      have := h.resolve_left (by omega)
      unfold DocumentedError at this
      exact .inr ⟨by simp only; omega, by simp only; omega, by simp only; omega, rfl⟩
    · rw [if_neg h1]
      have : res = 0 := by omega
      exact .inl ⟨by omega, by rw [this]⟩

end Detools
