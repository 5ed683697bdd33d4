import Verif.Proofs.CSizeVal
/-
The compression of an object is that of the header it has read.
-/
namespace Detools

variable [Build]

theorem unpack_frame2 {s : ApplyPatch} {v : SizeRes} {s' : ApplyPatch} (h : s.unpackSize = .ok (v, s')) :
    s'.fromOffset = s.fromOffset ∧ s'.compression = s.compression := by
  unfold ApplyPatch.unpackSize at h
  split at h
  · cases h
  · simp only [Bind.bind, Except.bind] at h
    split at h
    · cases h
    · cases h; exact ⟨rfl, rfl⟩

theorem switch_comp (E : SeqEnv σ) {s : ApplyPatch} {w : World σ} (hs : s.state ≠ .init) {res s' w'}
    (he : processSwitch E s w = .ok (res, s', w')) : s'.compression = s.compression := by
  have size : ∀ {next}, processSize s w next = .ok (res, s', w') → s'.compression = s.compression := by
    intro next he
    unfold processSize at he
    cases hu : s.unpackSize with
    | error u => rw [hu] at he; cases he
    | ok v =>
      obtain ⟨v, s1⟩ := v
      have h1 := (unpack_frame2 hu).2
      rw [hu] at he
      simp only [Bind.bind, Except.bind] at he
      cases v with
      | more => cases he; exact h1
      | fail => cases he; exact h1
      | value => simp only at he; split at he <;> (cases he; exact h1)
  have wr : ∀ {s1 : ApplyPatch} {w1 : World σ} {to}, s1.compression = s.compression → processWrite E s1 w1 to = .ok (res, s', w') → s'.compression = s.compression := by
    intro s1 w1 to h1 he
    unfold processWrite at he
    simp only at he
    split at he <;> (cases he; exact h1)
  have data : ∀ {next d}, processData E s w next d = .ok (res, s', w') → s'.compression = s.compression := by
    intro next d he
    unfold processData at he
    simp only at he
    split at he
    · cases he; rfl
    · split at he
      · cases he
      · simp only [Bind.bind, Except.bind] at he
        split at he
        · cases he
        · split at he
          · cases he; rfl
          · cases he; rfl
          · split at he
            · split at he
              · cases he; rfl
              · split at he
                · cases he
                · exact wr (by rfl) he
            · exact wr (by rfl) he
  unfold processSwitch at he
  cases hst : s.state with
  | init => exact absurd hst hs
  | dfpatchSize =>
    simp only [hst] at he
    unfold processDfpatchSize at he
    cases hu : s.unpackSize with
    | error u => rw [hu] at he; cases he
    | ok v =>
      obtain ⟨v, s1⟩ := v
      have h1 := (unpack_frame2 hu).2
      rw [hu] at he
      simp only [Bind.bind, Except.bind] at he
      cases v with
      | more => cases he; exact h1
      | fail => cases he; exact h1
      | value => simp only at he; split at he <;> (cases he; exact h1)
  | diffSize => simp only [hst] at he; exact size he
  | extraSize => simp only [hst] at he; exact size he
  | diffData => simp only [hst] at he; exact data he
  | extraData => simp only [hst] at he; exact data he
  | adjustment =>
    simp only [hst] at he
    unfold processAdjustment at he
    cases hu : s.unpackSize with
    | error u => rw [hu] at he; cases he
    | ok v =>
      obtain ⟨v, s1⟩ := v
      have h1 := (unpack_frame2 hu).2
      rw [hu] at he
      simp only [Bind.bind, Except.bind] at he
      cases v with
      | more => cases he; exact h1
      | fail => cases he; exact h1
      | value =>
        simp only at he
        split at he
        · cases he; exact h1
        · split at he
          · cases he
          · split at he <;> (cases he; exact h1)
  | done => simp only [hst] at he; cases he; rfl
  | failed => simp only [hst] at he; cases he; rfl

/-- The compression is that of the header. -/
theorem once_comp (E : SeqEnv σ) {s : ApplyPatch} {w : World σ} (hs : s.state ≠ .init) {res s' w'}
    (he : processOnce E s w = .ok (res, s', w')) : s'.compression = s.compression := by
  unfold processOnce at he
  split at he
  · cases he; rfl
  · cases h1 : processSwitch E s w with
    | error u => rw [h1] at he; cases he
    | ok v =>
      obtain ⟨r1, s1, w1⟩ := v
      have := switch_comp E hs h1
      rw [h1] at he
      simp only [Bind.bind, Except.bind] at he
      split at he <;> (cases he; exact this)

end Detools
