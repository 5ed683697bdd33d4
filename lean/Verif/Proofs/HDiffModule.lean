import Verif.Spec.HDiffModule
import Verif.Spec.Containers

/-!
Lemmas about the extension module `hdiffpatch`.
-/

namespace Detools

/-- The loop gets memory that is as large as what it asked for or, halved, at least 8192. -/
theorem cacheLoop_bounds {malloc : Nat → Nat → Bool} : ∀ {fuel call size n : Nat}, cacheLoop malloc fuel call size = .ok n →
    n ≤ size ∧ (8192 ≤ size → 8192 ≤ n) ∧ ∃ c, call ≤ c ∧ malloc c n = true
  | 0, _, _, _, h => by simp [cacheLoop] at h
  | fuel + 1, call, size, n, h => by
    rw [cacheLoop] at h
    by_cases hm : malloc call size = true
    · rw [if_pos hm] at h
      injection h with h
      subst h
      exact ⟨Nat.le_refl _, id, call, Nat.le_refl _, hm⟩
    · rw [if_neg hm] at h
      obtain ⟨h1, h2, c, hc, h3⟩ := cacheLoop_bounds h
      have e : PATCH_CACHE_SIZE_MIN = 8192 := rfl
      rw [e] at h1 h2
      refine ⟨?_, ?_, c, by omega, h3⟩
      · split at h1 <;> omega
      · intro h8
        apply h2
        split <;> omega

theorem cacheLoop_gets {malloc : Nat → Nat → Bool} (hm : ∀ call n, n < 16384 → malloc call n = true) :
    ∀ (k : Nat) {fuel call size : Nat}, size < 16384 * 2 ^ k → k < fuel → ∃ n, cacheLoop malloc fuel call size = .ok n
  | 0, fuel + 1, call, size, h, _ => by
    rw [cacheLoop, if_pos (hm _ _ (by omega))]
    exact ⟨_, rfl⟩
  | k + 1, fuel + 1, call, size, h, hf => by
    rw [cacheLoop]
    by_cases h0 : malloc call size = true
    · rw [if_pos h0]; exact ⟨_, rfl⟩
    · rw [if_neg h0]
      have h1 : 16384 ≤ size := Nat.le_of_not_lt fun hlt => h0 (hm _ _ hlt)
      rw [if_pos (by simpa [PATCH_CACHE_SIZE_MIN] using h1)]
      exact cacheLoop_gets hm k (by rw [Nat.pow_succ] at h; omega) (by omega)

theorem cacheLoop_never {malloc : Nat → Nat → Bool} (hm : ∀ call n, malloc call n = false) :
    ∀ (fuel call size : Nat), cacheLoop malloc fuel call size = .error .timeout
  | 0, _, _ => rfl
  | fuel + 1, call, size => by
    rw [cacheLoop, if_neg (by simp [hm])]
    exact cacheLoop_never hm fuel _ _

/-- What is first asked for. -/
theorem getPatchMemCache_eq (malloc : Nat → Nat → Bool) (fuel old : Nat) :
    getPatchMemCache malloc fuel PATCH_CACHE_SIZE_DEFAULT old = cacheLoop malloc fuel 0 (min (2 ^ 26) (old + 2 ^ 21)) := by
  have e1 : PATCH_CACHE_SIZE_DEFAULT = 67108864 := rfl
  have e2 : PATCH_CACHE_SIZE_MIN = 8192 := rfl
  have e3 : PATCH_CACHE_SIZE_BEST_MIN = 2097152 := rfl
  have e4 : (if PATCH_CACHE_SIZE_DEFAULT < PATCH_CACHE_SIZE_MIN then PATCH_CACHE_SIZE_MIN else PATCH_CACHE_SIZE_DEFAULT) = 67108864 := rfl
  have e5 : (if 67108864 > old + 2097152 then old + 2097152 else 67108864) = min (2 ^ 26) (old + 2 ^ 21) := by
    rw [Nat.min_def]
    split <;> split <;> omega
  rw [← e5]
  simp only [getPatchMemCache, e4, e3]

/-- What `create_patch` of the extension module returns is what the library made. -/
theorem mCreatePatch_ok {L : HDiffPatch} {env : HEnv} {fr to diff : Bytes} {score block t : Nat}
    (h : mCreatePatch L env fr to score block t = .ok diff) : ∃ n, L.diff to fr n t = .ok diff ∨ L.diffStream to fr n t = .ok diff := by
  rw [mCreatePatch] at h
  by_cases ht : t ≥ 2 ^ 31
  · rw [if_pos ht] at h; cases h
  rw [if_neg ht] at h
  by_cases hb : block % 2 ^ 32 = 0
  · rw [if_pos hb, createPatchSuffixArray] at h
    cases hd : L.diff to fr (score % 2 ^ 32) t with
    | error e => rw [hd] at h; cases h
    | ok d =>
      rw [hd] at h
      simp only at h
      split at h
      · injection h with h; subst h; exact ⟨_, Or.inl hd⟩
      · cases h
  · rw [if_neg hb, createPatchMatchBlocks] at h
    cases hd : L.diffStream to fr (block % 2 ^ 32) t with
    | error e => rw [hd] at h; cases h
    | ok d =>
      rw [hd] at h
      simp only at h
      split at h
      · cases h
      split at h
      · cases h
      split at h
      · cases h
      · injection h with h; subst h; exact ⟨_, Or.inr hd⟩

theorem mApplyPatch_undoes {L : HDiffPatch} (hL : L.Correct) {env : HEnv} (hE : env.HasMemory) {fuel : Nat} (hf : 14 ≤ fuel) {fr to diff : Bytes}
    (hto : to.length < 2 ^ 63) (h : L.Makes fr to diff) : mApplyPatch L env fuel fr diff = .ok to := by
  rw [mApplyPatch, hL.sizes h]
  simp only [ne_eq, not_true, if_false]
  rw [if_neg (by omega), if_neg (by simp [hE.byteArray]), getPatchMemCache_eq]
  obtain ⟨n, hn⟩ := cacheLoop_gets hE.malloc 13 (fuel := fuel) (call := 0) (size := min (2 ^ 26) (fr.length + 2 ^ 21)) (by
    have := Nat.min_le_left (2 ^ 26) (fr.length + 2 ^ 21)
    omega) (by omega)
  rw [hn]
  have h8 := (cacheLoop_bounds hn).2.1 (by rw [Nat.min_def]; split <;> omega)
  simp only [bind, Except.bind, hL.undoes h h8]

end Detools
