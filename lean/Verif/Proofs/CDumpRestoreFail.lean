import Verif.Model.CDumpRestoreFail
import Verif.Spec.CDumpRestoreFail
import Verif.Proofs.CStdioSim
/-
Lemmas for C54 on a system on which the calls can fail: a run that ends with status 0 is one on a
system on which they succeed.
-/
namespace Detools

/-- The same from-file position and to-file. -/
def SameDumpFiles (a : Files × κ) (b : Files) : Prop := a.1 = b

variable [Build] {fr : Bytes} {Y : DumpSystem κ}

theorem applyPatchFinalizeRestored_simR {R : σ → τ → Prop} {E1 : SeqEnv σ} {E2 : SeqEnv τ} (hE : SeqSim R E1 E2) {s : ApplyPatch}
    {w1 : World σ} {w2 : World τ} (hR : R w1.arg w2.arg) : SimR R (applyPatchFinalizeRestored E1 s w1) (applyPatchFinalizeRestored E2 s w2) := by
  unfold applyPatchFinalizeRestored
  refine SimR.bind (finalizeLoop_simR hE _ _ _ _ hR) (fun res s w1 w2 hR => ?_) (fun s w1 res s' w1' e => ?_)
  · simp only
    split
    · exact .err
    · exact .ok hR
  · simp only at e
    split at e
    · cases e
    · cases e
      exact commonFinalize_io _ _

/-- A result that is not negative is the same on the other. -/
theorem SimR.nonneg {R : σ → τ → Prop} {x1 : C (SeqRes σ)} {x2 : C (SeqRes τ)} (h : SimR R x1 x2) {res s w1} (e : x1 = .ok (res, s, w1)) (h0 : ¬ res < 0) :
    ∃ w2, x2 = .ok (res, s, w2) ∧ R w1.arg w2.arg := by
  rcases h res s w1 e with k | k
  · rw [k] at h0; exact absurd (by decide) h0
  · exact k

theorem finalizeAndExitOn_sim (hE : SeqSim SameDumpFiles Y.env (fileEnv fr)) {restored : Bool} {s : ApplyPatch} {w1 : World (Files × κ)} {w2 : World Files}
    (hR : SameDumpFiles w1.arg w2.arg) {status d'} (h : finalizeAndExitOn Y restored s w1 = .ok (status, d')) :
    status = 1 ∧ d'.state = none ∨ status = 0 ∧ finalizeAndExit fr restored s w2 = .ok (0, d') := by
  have e1 : finalizeAndExitOn Y restored s w1 = (if restored then applyPatchFinalizeRestored Y.env s w1 else applyPatchFinalize Y.env s w1).bind
      fun (res, _, w) => if res < 0 then .ok (cleanAndExit w.arg.1.out) else .ok (0, { to := w.arg.1.out, state := none }) := by
    cases restored <;> rfl
  have e2 : finalizeAndExit fr restored s w2 = (if restored then applyPatchFinalizeRestored (fileEnv fr) s w2 else applyPatchFinalize (fileEnv fr) s w2).bind
      fun (res, _, w) => if res < 0 then .ok (cleanAndExit w.arg.out) else .ok (0, { to := w.arg.out, state := none }) := by
    cases restored <;> rfl
  rw [e1] at h
  rw [e2]
  simp only [Except.bind] at h ⊢
  split at h
  · cases h
  rename_i x hx
  obtain ⟨res, s1, w⟩ := x
  simp only at h
  split at h
  · cases h; exact .inl ⟨rfl, rfl⟩
  · rename_i h0
    cases h
    have hs : SimR SameDumpFiles (if restored then applyPatchFinalizeRestored Y.env s w1 else applyPatchFinalize Y.env s w1)
        (if restored then applyPatchFinalizeRestored (fileEnv fr) s w2 else applyPatchFinalize (fileEnv fr) s w2) := by
      cases restored
      · exact applyPatchFinalize_simR hE hR
      · exact applyPatchFinalizeRestored_simR hE hR
    obtain ⟨w', e, hR'⟩ := hs.nonneg hx h0
    rw [e]
    simp only
    rw [if_neg h0, ← hR']
    exact .inr ⟨by trivial, by first | rfl | trivial⟩

theorem storeAndGoOnOn_sim (hE : SeqSim SameDumpFiles Y.env (fileEnv fr)) {patch : Bytes} {offset after : Nat} {s : ApplyPatch} {w1 : World (Files × κ)}
    {w2 : World Files} (hR : SameDumpFiles w1.arg w2.arg) {status d'} (h : storeAndGoOnOn Y patch offset after s w1 = .ok (status, d')) :
    status = 1 ∧ d'.state = none ∨ status = 0 ∧ storeAndGoOn fr patch offset after s w2 = .ok (0, d') := by
  unfold storeAndGoOnOn at h
  unfold storeAndGoOn
  split at h
  rotate_left 1
  · cases h; exact .inl ⟨rfl, rfl⟩
  simp only at h ⊢
  split at h
  · cases h; exact .inl ⟨rfl, rfl⟩
  rename_i hd
  rw [if_neg (fun k => hd (.inl k))]
  split at h
  · rename_i ha
    cases h
    rw [if_pos ha, ← hR]
    exact .inr ⟨by trivial, by first | rfl | trivial⟩
  rename_i ha
  rw [if_neg ha]
  unfold readPatchOn at h
  cases hp : Y.patchReadAfter with
  | false =>
    rw [hp] at h
    cases h; exact .inl ⟨rfl, rfl⟩
  | true =>
    rw [hp] at h
    simp only [if_true] at h
    revert h
    rcases readPatch patch offset after with _ | p
    · intro h; cases h; exact .inl ⟨rfl, rfl⟩
    intro h
    simp only [Bind.bind, Except.bind] at h ⊢
    split at h
    · cases h
    rename_i x hx
    obtain ⟨res, s1, w⟩ := x
    simp only at h
    split at h
    · cases h; exact .inl ⟨rfl, rfl⟩
    · rename_i h0
      cases h
      obtain ⟨w', e, hR'⟩ := (applyPatchProcess_simR hE hR).nonneg hx h0
      rw [e]
      simp only
      rw [if_neg h0, ← hR']
      exact .inr ⟨by trivial, by first | rfl | trivial⟩

theorem applyPatchRestore_sim (hE : SeqSim SameDumpFiles Y.env (fileEnv fr)) {s dumped s' : ApplyPatch} {w1 w1' : World (Files × κ)} {w2 : World Files}
    (hR : SameDumpFiles w1.arg w2.arg) (h : applyPatchRestore Y.env s w1 dumped = (0, s', w1')) :
    ∃ w2', applyPatchRestore (fileEnv fr) s w2 dumped = (0, s', w2') ∧ SameDumpFiles w1'.arg w2'.arg := by
  unfold applyPatchRestore at h ⊢
  simp only at h ⊢
  split at h
  · rename_i hi
    rw [if_pos hi]
    cases h
    exact ⟨_, rfl, hR⟩
  rename_i hi
  rw [if_neg hi]
  by_cases hz : (Y.env.fromSeek w1.arg dumped.fromOffset).1 ≠ 0
  · rw [if_pos hz] at h
    exact absurd (congrArg Prod.fst h) (by decide : IO_FAILED ≠ 0)
  rw [if_neg hz] at h
  have hs := hE.seek w1.arg w2.arg dumped.fromOffset hR (Decidable.not_not.mp hz)
  rw [if_neg (fun k => k hs.1)]
  split at h
  · rename_i hc
    rw [if_pos hc]
    cases h
    exact ⟨_, rfl, hs.2⟩
  · exact absurd (congrArg Prod.fst h) (by decide : NOT_IMPLEMENTED ≠ 0)

/-- The files that the run works on: state.bin may be there and yet not be opened. -/
def DumpSystem.found (Y : DumpSystem κ) (d : DumpDisk) : DumpDisk := { d with state := if Y.stateFound then d.state else none }

theorem tryRestoreOn_sim (hE : SeqSim SameDumpFiles Y.env (fileEnv fr)) (ht : Y.truncated = true) {P : Nat} {d : DumpDisk} {restored s w1}
    (h : tryRestoreOn Y P d = some (restored, s, w1)) :
    ∃ w2, tryRestore fr P (Y.found d) = some (restored, s, w2) ∧ SameDumpFiles w1.arg w2.arg := by
  have htr (to : Bytes) (n : Nat) : Y.truncate to n = truncateTo to n := by unfold DumpSystem.truncate; rw [ht]; rfl
  unfold tryRestoreOn at h
  unfold tryRestore
  rw [show (Y.found d).state = if Y.stateFound then d.state else none from rfl]
  revert h
  rcases (if Y.stateFound then d.state else none) with _ | _ | dumped
  · intro h
    simp only [htr] at h
    cases h
    exact ⟨_, rfl, rfl⟩
  · intro h; cases h
  · intro h
    simp only at h ⊢
    split at h
    rotate_left 1
    · cases h
    split at h
    · cases h
    rename_i hz
    rcases hx : applyPatchRestore Y.env (applyPatchInit P) { arg := ({ out := d.to }, Y.start) } dumped with ⟨res, s1, w⟩
    rw [hx] at h hz
    simp only at h hz
    have hz := Decidable.not_not.mp hz
    subst hz
    obtain ⟨w2, e, hR⟩ := applyPatchRestore_sim hE (w1 := { arg := ({ out := d.to }, Y.start) }) (w2 := { arg := { out := d.to } }) rfl hx
    rw [show (Y.found d).to = d.to from rfl, e]
    simp only [htr] at h
    cases h
    refine ⟨_, by simp only; rw [if_neg (by decide)], ?_⟩
    show ({ w.arg.1 with out := _ } : Files) = _
    rw [show w.arg.1 = w2.arg from hR]

/-- A run that ends with status 0 is one on a system on which all calls succeed. -/
theorem dumpRestoreMainOn_sim (hE : SeqSim SameDumpFiles Y.env (fileEnv fr)) (ht : Y.truncated = true) {patch : Bytes} {size after : Nat} {d : DumpDisk}
    {status d'} (h : dumpRestoreMainOn Y patch size after d = .ok (status, d')) :
    status = 1 ∧ d'.state = none ∨ status = 0 ∧ dumpRestoreMain fr patch size after (Y.found d) = .ok (0, d') := by
  unfold dumpRestoreMainOn at h
  unfold dumpRestoreMain
  split at h
  · cases h; exact .inl ⟨rfl, rfl⟩
  rename_i hp
  rw [if_neg (fun k => hp (.inl k))]
  rcases hr : tryRestoreOn Y patch.length d with _ | ⟨restored, s, w1⟩
  · rw [hr] at h; cases h; exact .inl ⟨rfl, rfl⟩
  obtain ⟨w2, e, hR⟩ := tryRestoreOn_sim hE ht hr
  rw [hr] at h
  rw [e]
  simp only at h ⊢
  unfold readPatchOn at h
  cases hq : Y.patchRead with
  | false =>
    rw [hq] at h
    cases h; exact .inl ⟨rfl, rfl⟩
  | true =>
    rw [hq] at h
    simp only [if_true] at h
    revert h
    rcases readPatch patch s.patchOffset size with _ | p
    · intro h; cases h; exact .inl ⟨rfl, rfl⟩
    intro h
    simp only [Bind.bind, Except.bind] at h ⊢
    split at h
    · cases h
    rename_i x hx
    obtain ⟨res, s1, w⟩ := x
    simp only at h
    split at h
    · cases h; exact .inl ⟨rfl, rfl⟩
    rename_i h0
    obtain ⟨w', e', hR'⟩ := (applyPatchProcess_simR hE hR).nonneg hx h0
    rw [e']
    simp only
    rw [if_neg h0]
    split at h
    · rename_i hl
      rw [if_pos hl]
      exact finalizeAndExitOn_sim hE hR' h
    · rename_i hl
      rw [if_neg hl]
      exact storeAndGoOnOn_sim hE hR' h

omit [Build] in
theorem DumpSystem.Honest.sim (h : Y.Honest fr) : SeqSim SameDumpFiles Y.env (fileEnv fr) where
  read := by
    rintro ⟨f, k⟩ b n hR hz
    have hR : f = b := hR
    subst hR
    obtain ⟨h1, h2, h3⟩ := h.read f k n hz
    simp only [fileEnv]
    rw [if_pos h1]
    exact ⟨rfl, h2.symm, h3⟩
  seek := by
    rintro ⟨f, k⟩ b n hR hz
    have hR : f = b := hR
    subst hR
    obtain ⟨h1, h2⟩ := h.seek f k n hz
    simp only [fileEnv]
    rw [if_neg (by omega)]
    exact ⟨rfl, h2⟩
  write := by
    rintro ⟨f, k⟩ b d hR hz
    have hR : f = b := hR
    subst hR
    exact ⟨rfl, h.write f k d hz⟩

omit [Build] in
theorem DumpSystem.Works.sim (h : Y.Works fr) : SeqSim (fun (b : Files) (a : Files × κ) => SameDumpFiles a b) (fileEnv fr) Y.env where
  read := by
    rintro b ⟨f, k⟩ n hR hz
    have hs : (Y.env.fromRead (f, k) n).1 = 0 := by
      refine h.reads f k n ?_
      have hR : f = b := hR
      subst hR
      simp only [fileEnv] at hz
      by_cases hc : n = 0 ∨ f.pos + n ≤ fr.length
      · exact hc
      · rw [if_neg hc] at hz; exact absurd hz (by decide : FILE_READ_FAILED ≠ 0)
    obtain ⟨_, e, r⟩ := h.toHonest.sim.read (f, k) b n hR hs
    exact ⟨hs, e.symm, r⟩
  seek := by
    rintro b ⟨f, k⟩ n hR hz
    have hs : (Y.env.fromSeek (f, k) n).1 = 0 := by
      refine h.seeks f k n ?_
      have hR : f = b := hR
      subst hR
      simp only [fileEnv] at hz
      by_cases hc : f.pos + n < 0
      · rw [if_pos hc] at hz; exact absurd hz (by decide : (-1 : Int) ≠ 0)
      · omega
    exact ⟨hs, (h.toHonest.sim.seek (f, k) b n hR hs).2⟩
  write := by
    rintro b ⟨f, k⟩ d hR _
    exact ⟨h.writes f k d, (h.toHonest.sim.write (f, k) b d hR (h.writes f k d)).2⟩

theorem finalizeAndExitOn_works (hY : Y.Works fr) {restored : Bool} {s : ApplyPatch} {w1 : World (Files × κ)} {w2 : World Files}
    (hR : SameDumpFiles w1.arg w2.arg) {d'} (h : finalizeAndExit fr restored s w2 = .ok (0, d')) : finalizeAndExitOn Y restored s w1 = .ok (0, d') := by
  have e1 : finalizeAndExitOn Y restored s w1 = (if restored then applyPatchFinalizeRestored Y.env s w1 else applyPatchFinalize Y.env s w1).bind
      fun (res, _, w) => if res < 0 then .ok (cleanAndExit w.arg.1.out) else .ok (0, { to := w.arg.1.out, state := none }) := by
    cases restored <;> rfl
  have e2 : finalizeAndExit fr restored s w2 = (if restored then applyPatchFinalizeRestored (fileEnv fr) s w2 else applyPatchFinalize (fileEnv fr) s w2).bind
      fun (res, _, w) => if res < 0 then .ok (cleanAndExit w.arg.out) else .ok (0, { to := w.arg.out, state := none }) := by
    cases restored <;> rfl
  rw [e2] at h
  rw [e1]
  simp only [Except.bind] at h ⊢
  split at h
  · cases h
  rename_i x hx
  obtain ⟨res, s1, w⟩ := x
  simp only at h
  split at h
  · cases h
  · rename_i h0
    cases h
    have hs : SimR (fun (b : Files) (a : Files × κ) => SameDumpFiles a b)
        (if restored then applyPatchFinalizeRestored (fileEnv fr) s w2 else applyPatchFinalize (fileEnv fr) s w2)
        (if restored then applyPatchFinalizeRestored Y.env s w1 else applyPatchFinalize Y.env s w1) := by
      cases restored
      · exact applyPatchFinalize_simR hY.sim hR
      · exact applyPatchFinalizeRestored_simR hY.sim hR
    obtain ⟨w', e, hR'⟩ := hs.nonneg hx h0
    rw [e]
    simp only
    rw [if_neg h0, hR']

theorem storeAndGoOnOn_works (hY : Y.Works fr) {patch : Bytes} {offset after : Nat} {s : ApplyPatch} {w1 : World (Files × κ)}
    {w2 : World Files} (hR : SameDumpFiles w1.arg w2.arg) {d'} (h : storeAndGoOn fr patch offset after s w2 = .ok (0, d')) :
    storeAndGoOnOn Y patch offset after s w1 = .ok (0, d') := by
  unfold storeAndGoOn at h
  unfold storeAndGoOnOn
  rw [if_pos hY.stateOpened]
  simp only at h ⊢
  split at h
  · cases h
  rename_i hd
  rw [if_neg (fun k => k.elim hd (fun k => k hY.stateWritten))]
  split at h
  · rename_i ha
    cases h
    rw [if_pos ha, hR]
  rename_i ha
  rw [if_neg ha]
  unfold readPatchOn
  rw [if_pos hY.patchReadAfter]
  revert h
  rcases readPatch patch offset after with _ | p
  · intro h; cases h
  intro h
  simp only [Bind.bind, Except.bind] at h ⊢
  split at h
  · cases h
  rename_i x hx
  obtain ⟨res, s1, w⟩ := x
  simp only at h
  split at h
  · cases h
  · rename_i h0
    cases h
    obtain ⟨w', e, hR'⟩ := (applyPatchProcess_simR hY.sim hR).nonneg hx h0
    rw [e]
    simp only
    rw [if_neg h0, hR']

theorem applyPatchRestore_works (hY : Y.Works fr) {s dumped s' : ApplyPatch} {w1 : World (Files × κ)} {w2 w2' : World Files}
    (hR : SameDumpFiles w1.arg w2.arg) (h : applyPatchRestore (fileEnv fr) s w2 dumped = (0, s', w2')) :
    ∃ w1', applyPatchRestore Y.env s w1 dumped = (0, s', w1') ∧ SameDumpFiles w1'.arg w2'.arg := by
  unfold applyPatchRestore at h ⊢
  simp only at h ⊢
  split at h
  · rename_i hi
    rw [if_pos hi]
    cases h
    exact ⟨_, rfl, hR⟩
  rename_i hi
  rw [if_neg hi]
  by_cases hz : ((fileEnv fr).fromSeek w2.arg dumped.fromOffset).1 ≠ 0
  · rw [if_pos hz] at h
    exact absurd (congrArg Prod.fst h) (by decide : IO_FAILED ≠ 0)
  rw [if_neg hz] at h
  have hs := hY.sim.seek w2.arg w1.arg dumped.fromOffset hR (Decidable.not_not.mp hz)
  rw [if_neg (fun k => k hs.1)]
  split at h
  · rename_i hc
    rw [if_pos hc]
    cases h
    exact ⟨_, rfl, hs.2⟩
  · exact absurd (congrArg Prod.fst h) (by decide : NOT_IMPLEMENTED ≠ 0)

theorem tryRestoreOn_works (hY : Y.Works fr) {P : Nat} {d : DumpDisk} {restored s w2} (h : tryRestore fr P d = some (restored, s, w2)) :
    ∃ w1, tryRestoreOn Y P d = some (restored, s, w1) ∧ SameDumpFiles w1.arg w2.arg := by
  have htr (to : Bytes) (n : Nat) : Y.truncate to n = truncateTo to n := by unfold DumpSystem.truncate; rw [hY.truncated]; rfl
  unfold tryRestore at h
  unfold tryRestoreOn
  rw [if_pos hY.stateFound]
  revert h
  rcases d.state with _ | _ | dumped
  · intro h
    simp only [htr]
    cases h
    exact ⟨_, rfl, rfl⟩
  · intro h; cases h
  · intro h
    simp only at h ⊢
    rw [if_pos hY.stateRead]
    split at h
    · cases h
    rename_i hz
    rcases hx : applyPatchRestore (fileEnv fr) (applyPatchInit P) { arg := { out := d.to } } dumped with ⟨res, s1, w⟩
    rw [hx] at h hz
    simp only at h hz
    have hz := Decidable.not_not.mp hz
    subst hz
    obtain ⟨w1, e, hR⟩ := applyPatchRestore_works hY (w1 := { arg := ({ out := d.to }, Y.start) }) (w2 := { arg := { out := d.to } }) rfl hx
    rw [e]
    simp only [htr]
    cases h
    refine ⟨_, by rw [if_neg (by decide)], ?_⟩
    show ({ w1.arg.1 with out := _ } : Files) = _
    rw [show w1.arg.1 = w.arg from hR]

/-- A run that ends with status 0 if all calls succeed does so if no call fails that need not. -/
theorem dumpRestoreMainOn_works (hY : Y.Works fr) {patch : Bytes} {size after : Nat} {d d' : DumpDisk}
    (h : dumpRestoreMain fr patch size after d = .ok (0, d')) : dumpRestoreMainOn Y patch size after d = .ok (0, d') := by
  unfold dumpRestoreMain at h
  unfold dumpRestoreMainOn
  split at h
  · cases h
  rename_i hp
  rw [if_neg (fun k => k.elim hp (fun k => k hY.opened))]
  rcases hr : tryRestore fr patch.length d with _ | ⟨restored, s, w2⟩
  · rw [hr] at h; cases h
  obtain ⟨w1, e, hR⟩ := tryRestoreOn_works hY hr
  rw [hr] at h
  rw [e]
  simp only at h ⊢
  unfold readPatchOn
  rw [if_pos hY.patchRead]
  revert h
  rcases readPatch patch s.patchOffset size with _ | p
  · intro h; cases h
  intro h
  simp only [Bind.bind, Except.bind] at h ⊢
  split at h
  · cases h
  rename_i x hx
  obtain ⟨res, s1, w⟩ := x
  simp only at h
  split at h
  · cases h
  rename_i h0
  obtain ⟨w', e', hR'⟩ := (applyPatchProcess_simR hY.sim hR).nonneg hx h0
  rw [e']
  simp only
  rw [if_neg h0]
  split at h
  · rename_i hl
    rw [if_pos hl]
    exact finalizeAndExitOn_works hY hR' h
  · rename_i hl
    rw [if_neg hl]
    exact storeAndGoOnOn_works hY hR' h

end Detools
