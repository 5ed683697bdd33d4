import Verif.Proofs.CrleDrive
/-
C06: CRLE is lossless under any slicing.
-/
namespace Detools

/-- C06. Compress data in any pieces. Then make any calls of `decompress`, with any
sizes, that hand over the compressed bytes, or any prefix of them, in order. No call
raises, what has been delivered is a prefix of the data, and (for non-empty data) end of stream is
reported exactly when everything has been delivered. -/
theorem C06_crle_any_slicing (pieces : List Bytes) (calls : List (Bytes × Nat)) (unread : Bytes)
    (h : inputOf calls ++ unread = crleCodec.comp.run pieces) :
    ∃ st o, drive crleCodec.decomp (crleCodec.initDecomp (crleCodec.comp.run pieces).length) calls = .ok (st, o) ∧
      o <+: pieces.flatten ∧
      (crleCodec.decomp.eof st = true → o = pieces.flatten) ∧
      (pieces.flatten ≠ [] → o = pieces.flatten → crleCodec.decomp.eof st = true) := by
  by_cases hne : pieces.flatten = []
  · have hr := crle_run_empty pieces hne
    rw [hr] at h ⊢
    obtain ⟨st, h1, h2⟩ := crleOwes0_drive calls { indataLeft := 2 } unread (by rw [h]; simp [crleOwes0])
    exact ⟨st, [], h1, by simp, by simp [hne], by simp [hne]⟩
  · have hO := crleLossless.init pieces hne
    rw [← h] at hO
    obtain ⟨st, o, out, h1, h2, h3⟩ := crleOwes_drive calls _ unread _ hO
    rw [← h]
    refine ⟨st, o, h1, ⟨out, h2.symm⟩, ?_, ?_⟩
    · intro he
      have := (crleOwes_eof h3).1 he
      simp [h2, this]
    · intro _ ho
      have hout : out = [] := by
        rw [ho] at h2
        exact (List.append_right_eq_self.1 h2.symm)
      exact (crleOwes_eof h3).2 hout

/-- C06. Once all compressed bytes have been handed over, one call asking for enough
delivers everything that is left, and end of stream is reported. -/
theorem C06_crle_complete (pieces : List Bytes) (calls : List (Bytes × Nat)) (size : Nat)
    (h : inputOf calls = crleCodec.comp.run pieces) (hs : pieces.flatten.length ≤ size) :
    ∃ st, drive crleCodec.decomp (crleCodec.initDecomp (crleCodec.comp.run pieces).length) (calls ++ [([], size)]) =
        .ok (st, pieces.flatten) ∧ crleCodec.decomp.eof st = true := by
  by_cases hne : pieces.flatten = []
  · have hr := crle_run_empty pieces hne
    rw [hr] at h ⊢
    obtain ⟨st, h1, h2⟩ := crleOwes0_drive (calls ++ [([], size)]) { indataLeft := 2 } []
      (by simp [inputOf] at h ⊢; rw [h]; simp [crleOwes0])
    exact ⟨st, by rw [hne]; exact h1, (crleOwes0_eof h2).2 rfl⟩
  · have hO := crleLossless.init pieces hne
    rw [← h] at hO ⊢
    obtain ⟨st, o, out, h1, h2, h3⟩ := crleOwes_drive calls _ [] _ (by rw [List.append_nil]; exact hO)
    have hd := drive_append crleDecompressor calls [] size _ _ _ h1
    by_cases he : st.eof = true
    · have := (crleOwes_eof h3).1 he
      refine ⟨st, ?_, he⟩
      have he' : crleDecompressor.eof st = true := he
      rw [he', if_pos rfl] at hd
      rw [h2, this, List.append_nil]; exact hd
    · have hout : out ≠ [] := fun hh => he ((crleOwes_eof h3).2 hh)
      obtain ⟨st', o', out', a1, a2, a3, a4, a5⟩ := crleOwes_step (d := []) (file' := []) size h3 hout
      have a5 := a5 rfl
      rw [List.take_of_length_le (by rw [h2] at hs; simp at hs; omega)] at a5
      have hout' : out' = [] := by
        rw [a5] at a2; exact List.append_right_eq_self.1 a2.symm
      refine ⟨st', ?_, (crleOwes_eof a4).2 hout'⟩
      have he' : ¬ (crleDecompressor.eof st = true) := he
      rw [if_neg he', a1] at hd
      rw [h2, ← a5]; exact hd

-- A run of seven equal bytes and scattered bytes, cut in the middle of the run.
example : crleCodec.comp.run [[1, 2, 5, 5], [5, 5, 5, 5, 5, 9]] = [0, 2, 1, 2, 1, 7, 5, 0, 1, 9] ∧
    (drive crleCodec.decomp (crleCodec.initDecomp 10) [([0, 2, 1], 3), ([2, 1], 0), ([7, 5, 0, 1, 9], 100)]).map (·.2)
      = .ok [1, 2, 5, 5, 5, 5, 5, 5, 5, 9] := by
  constructor
  · decide +kernel
  · rfl

end Detools
