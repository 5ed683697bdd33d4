import Verif.Spec.CStdio
import Verif.Proofs.CStdioInPlace
import Verif.Proofs.CEnvSim
import Verif.Proofs.CInPlaceCallbacks
/-
Lemmas for C67: an in-place update on stdio against one on files in memory.
-/
namespace Detools

section
variable [Build] {R : σ → τ → Prop} {E1 : MemEnv σ} {E2 : MemEnv τ}

theorem inPlaceProcess_allOk {E : MemEnv σ} (hE : ¬ E.Returns ALREADY_DONE) {s : InPlace} (hs : IPState s) {w : MWorld σ} {p s' w'}
    (h : inPlaceProcess E s w p = .ok (0, s', w')) (hw : AllOk w) : AllOk w' ∧ IPState s' := by
  by_cases hf : s.state = .failed
  · obtain ⟨_, e, h1⟩ := ip_failed_process (E := E) hf w p
    rw [e] at h
    simp only [Except.ok.injEq, Prod.mk.injEq] at h
    obtain ⟨-, rfl, rfl⟩ := h
    exact ⟨hw, .inl h1⟩
  · rcases inPlaceProcess_safe (E := E) hs w p with ⟨u, e, _⟩ | ⟨_, e, h1, h2⟩
    · rw [e] at h; cases h
    · rw [e] at h
      cases h
      refine ⟨?_, h2⟩
      cases h1 hf with
      | live _ _ c _ =>
        obtain ⟨evs, k1, _, _, k4⟩ := c
        intro ev hm
        rw [k1, List.mem_append] at hm
        exact hm.elim (k4 trivial ev) (hw ev)
      | fail _ b c =>
        rcases c with ⟨c, _⟩ | ⟨_, c⟩
        · exact absurd c (by decide)
        · exact absurd c hE

theorem inPlaceFinalize_allOk {E : MemEnv σ} (hE : ¬ E.Returns ALREADY_DONE) {s : InPlace} (hs : IPState s) {w : MWorld σ} {n s' w'}
    (h : inPlaceFinalize E s w = .ok (n, s', w')) (hn : 0 ≤ n) (hw : AllOk w) : AllOk w' := by
  by_cases hf : s.state = .failed
  · obtain ⟨_, e, h1⟩ := ip_failed_finalize (E := E) hf w
    rw [e] at h; cases h
    exact absurd hn (by decide)
  · rcases inPlaceFinalize_safe (E := E) hs w with ⟨u, e, _⟩ | ⟨_, e, h1, _⟩
    · rw [e] at h; cases h
    · rw [e] at h
      cases h
      have key : Adds w w' True → AllOk w' := by
        rintro ⟨evs, k1, _, _, k4⟩ ev hm
        rw [k1, List.mem_append] at hm
        exact hm.elim (k4 trivial ev) (hw ev)
      cases h1 hf with
      | live _ _ c _ => exact key c
      | done _ _ c _ => exact key c
      | fail _ b c => exact c.elim (fun c => absurd hn (by omega)) (fun c => absurd c hE)

theorem inPlaceCallbacksLoop_sim (hE : EnvSim R E1 E2) (hA : ¬ E1.Returns ALREADY_DONE) (pr1 : PatchRead σ) (pr2 : PatchRead τ)
    (hp : ∀ a b n, R a b → (pr1 a n).1 = 0 → (pr2 b n).1 = 0 ∧ (pr2 b n).2.1 = (pr1 a n).2.1 ∧ R (pr1 a n).2.2 (pr2 b n).2.2) (P : Nat) :
    ∀ (fuel : Nat) (r0 : Int) (off : Nat) (s : InPlace) (w1 : MWorld σ) (w2 : MWorld τ) (rs : Reads) {s' w1' rs'},
    IPState s → AllOk w1 → RW R w1 w2 → inPlaceCallbacksLoop E1 pr1 P fuel r0 off s w1 rs = .ok (0, s', w1', rs') →
    IPState s' ∧ AllOk w1' ∧ ∃ w2', inPlaceCallbacksLoop E2 pr2 P fuel r0 off s w2 rs = .ok (0, s', w2', rs') ∧ RW R w1' w2'
  | 0, _, _, _, _, _, _, _, _, _, _, _, _, h => by cases h
  | fuel + 1, r0, off, s, w1, w2, rs, s', w1', rs', hs, hw, hR, h => by
    have bad : ∀ r off s (w : MWorld σ) rs, r ≠ 0 → inPlaceCallbacksLoop E1 pr1 P fuel r off s w rs ≠ .ok (0, s', w1', rs') := by
      intro r off s w rs hr h
      cases fuel with
      | zero => cases h
      | succ fuel =>
        unfold inPlaceCallbacksLoop at h
        rw [if_neg (fun e => hr e.2)] at h
        cases h
        exact hr rfl
    unfold inPlaceCallbacksLoop at h ⊢
    by_cases hc : off < P ∧ r0 = 0
    · rw [if_pos hc] at h ⊢
      simp only at h ⊢
      split at h
      · rename_i hz
        have hq := hp w1.arg w2.arg (min (P - off) callbackCap) hR.1 hz
        rw [if_pos hq.1, hq.2.1, hq.1]
        rw [hz] at h
        split at h
        · cases h
        rename_i hl
        rw [if_neg hl]
        simp only [Bind.bind, Except.bind] at h ⊢
        split at h
        · cases h
        rename_i x hx
        obtain ⟨r, s1, w⟩ := x
        simp only at h
        by_cases hr : r = 0
        · subst hr
          obtain ⟨ha, hi⟩ := inPlaceProcess_allOk hA hs (w := { w1 with arg := (pr1 w1.arg (min (P - off) callbackCap)).2.2 }) hx hw
          obtain ⟨w2', e, hR2⟩ := (sim_process hE s { w1 with arg := (pr1 w1.arg (min (P - off) callbackCap)).2.2 } _).sim
            (w2 := { w2 with arg := (pr2 w2.arg (min (P - off) callbackCap)).2.2 }) ⟨hq.2.2, hR.2⟩ hx ha
          rw [e]
          exact inPlaceCallbacksLoop_sim hE hA pr1 pr2 hp P fuel _ _ _ _ _ _ hi ha hR2 h
        · exact absurd h (bad _ _ _ _ _ hr)
      · exact absurd h (bad _ _ _ _ _ (by decide))
    · rw [if_neg hc] at h ⊢
      cases h
      exact ⟨hs, hw, w2, rfl, hR⟩

/-- An update that succeeds with the first set succeeds in the same way with the second. -/
theorem applyPatchInPlaceCallbacks_sim (hE : EnvSim R E1 E2) (hA : ∀ r, E1.Returns r → r ≤ 0 ∧ r ≠ ALREADY_DONE) (pr1 : PatchRead σ) (pr2 : PatchRead τ)
    (hp : ∀ a b n, R a b → (pr1 a n).1 = 0 → (pr2 b n).1 = 0 ∧ (pr2 b n).2.1 = (pr1 a n).2.1 ∧ R (pr1 a n).2.2 (pr2 b n).2.2)
    (P : Nat) (a : σ) (b : τ) (hR : R a b) {res w1 rs} (h : applyPatchInPlaceCallbacks E1 pr1 P a = .ok (res, w1, rs)) (h0 : 0 ≤ res) :
    ∃ w2, applyPatchInPlaceCallbacks E2 pr2 P b = .ok (res, w2, rs) ∧ R w1.arg w2.arg := by
  unfold applyPatchInPlaceCallbacks at h ⊢
  simp only [Bind.bind, Except.bind] at h ⊢
  split at h
  · cases h
  rename_i v hl
  obtain ⟨r1, s1, w, rs1⟩ := v
  obtain ⟨-, h2⟩ := inPlaceCallbacksLoop_doc _ (IPState.start P) (.inl rfl) hl
  simp only at h
  have hz : r1 = 0 := by
    apply Decidable.byContradiction
    intro hz
    rw [if_neg hz] at h
    split at h
    · cases h
    cases h
    rcases h2 with h2 | h2 | h2
    · exact hz h2
    · have := h2.2; omega
    · have := (hA _ h2).1; omega
  subst hz
  rw [if_pos rfl] at h
  have hA' : ¬ E1.Returns ALREADY_DONE := fun e => (hA _ e).2 rfl
  obtain ⟨hi, ha, w2, e, hR2⟩ := inPlaceCallbacksLoop_sim hE hA' pr1 pr2 hp P _ _ _ _ _ { arg := b } _ (IPState.start P)
    (fun _ hm => absurd hm (by simp)) ⟨hR, rfl⟩ hl
  rw [e]
  simp only [if_true]
  split at h
  · cases h
  rename_i x hx
  obtain ⟨n, s2, w3⟩ := x
  cases h
  obtain ⟨w4, e4, hR4⟩ := (sim_finalize hE s1 w).sim hR2 hx (inPlaceFinalize_allOk hA' hi hx h0 ha)
  rw [e4]
  exact ⟨w4, rfl, hR4.1⟩

end

/-- Stdio and the files in memory are at the same point. -/
def SameMem (patch : Bytes) (view : ν → MemView) (user : Int → υ) (io : Io ν) (b : (Bytes × υ) × ReadFile) : Prop :=
  b.1.1 = (view io.sys).file ∧ b.2.pos = (view io.sys).patchPos ∧ b.2.data = patch ∧ b.1.2 = user (view io.sys).step

/-- Step callbacks on the two do the same. -/
structure StepsAgree (view : ν → MemView) (user : Int → υ) (steps : Steps ν) (steps' : Steps υ) : Prop where
  set : (steps.set = none ∧ steps'.set = none) ∨ ∃ f g, steps.set = some f ∧ steps'.set = some g ∧
    ∀ s n, (f s n).1 = 0 → view (f s n).2 = { view s with step := n } ∧ ∀ u, g u n = (0, user n)
  get : (steps.get = none ∧ steps'.get = none) ∨ ∃ f g, steps.get = some f ∧ steps'.get = some g ∧
    ∀ s, (f s).1 = 0 → view (f s).2.2 = view s ∧ g (user (view s).step) = (0, (f s).2.1, user (view s).step)

section
variable {S : Stdio ν} {patch : Bytes} {view : ν → MemView} {user : Int → υ}

theorem inPlaceFileIoMemRead_sim (hS : HonestMem S patch view) {io : Io ν} {b : (Bytes × υ) × ReadFile} {addr n r d io'}
    (hR : SameMem patch view user io b) (h : inPlaceFileIoMemRead S io addr n = (r, d, io')) (h0 : 0 ≤ r) :
    memFileRead b.1.1 addr n = (r, d) ∧ SameMem patch view user io' b := by
  obtain ⟨h1, h2, h3, h5⟩ := hR
  unfold inPlaceFileIoMemRead at h
  unfold memFileRead
  by_cases hn : n > 0
  · rw [if_pos hn] at h
    rw [if_neg (by omega)]
    have e1 : (io.fseek S .memory (wrapInt addr) .set).1 = 0 → _ ∧ view (io.fseek S .memory (wrapInt addr) .set).2.sys = _ :=
      hS.seekMemory io.sys (wrapInt addr)
    revert h e1
    rcases io.fseek S .memory (wrapInt addr) .set with ⟨r1, io1⟩
    intro h e1
    simp only at h e1
    by_cases hr : r1 ≠ 0
    · rw [if_pos hr] at h
      cases h
      exact absurd h0 (by decide)
    rw [if_neg hr] at h
    obtain ⟨e1, e2⟩ := e1 (Decidable.not_not.mp hr)
    rw [if_neg (by omega)]
    unfold fileIoRead at h
    rw [if_pos hn] at h
    have e3 := hS.readMemory io1.sys n
    revert h e3
    rcases S.fread io1.sys .memory n with ⟨_ | x, sys⟩
    · intro h
      cases h
      exact absurd h0 (by decide)
    · intro h e3
      obtain ⟨r1, r2, r3⟩ := e3 x rfl
      cases h
      simp only at r3
      rw [e2] at r1 r2 r3
      simp only at r1 r2 r3
      rw [h1, if_pos r1, r2]
      refine ⟨rfl, ?_, ?_, h3, ?_⟩
      · show _ = (view sys).file
        rw [r3]; exact h1
      · show _ = (view sys).patchPos
        rw [r3]; exact h2
      · show _ = user (view sys).step
        rw [r3]; exact h5
  · rw [if_neg hn] at h
    rw [if_pos (by omega)]
    cases h
    exact ⟨rfl, h1, h2, h3, h5⟩

theorem inPlaceFileIoMemWrite_sim (hS : HonestMem S patch view) {io : Io ν} {b : (Bytes × υ) × ReadFile} {addr d r io'}
    (hR : SameMem patch view user io b) (h : inPlaceFileIoMemWrite S io addr d = (r, io')) (h0 : 0 ≤ r) :
    (memFileWrite b.1.1 addr d).1 = r ∧ SameMem patch view user io' (((memFileWrite b.1.1 addr d).2, b.1.2), b.2) := by
  obtain ⟨h1, h2, h3, h5⟩ := hR
  unfold inPlaceFileIoMemWrite at h
  unfold memFileWrite
  by_cases hn : d.length > 0
  · rw [if_pos hn] at h
    rw [if_neg (by omega)]
    have e1 : (io.fseek S .memory (wrapInt addr) .set).1 = 0 → _ ∧ view (io.fseek S .memory (wrapInt addr) .set).2.sys = _ :=
      hS.seekMemory io.sys (wrapInt addr)
    revert h e1
    rcases io.fseek S .memory (wrapInt addr) .set with ⟨r1, io1⟩
    intro h e1
    simp only at h e1
    by_cases hr : r1 ≠ 0
    · rw [if_pos hr] at h
      cases h
      exact absurd h0 (by decide)
    rw [if_neg hr] at h
    have hr := Decidable.not_not.mp hr
    obtain ⟨e1, e2⟩ := e1 hr
    rw [if_neg (by omega)]
    have e3 := hS.write io1.sys d
    revert h e3
    rcases S.fwrite io1.sys .memory d with ⟨_ | _, sys⟩
    · intro h
      cases h
      exact absurd h0 (by decide)
    · intro h e3
      have e3 := e3 rfl
      cases h
      simp only at e3
      rw [e2] at e3
      refine ⟨hr.symm, ?_, ?_, h3, ?_⟩
      · show fileWrite b.1.1 _ d = (view sys).file
        rw [e3, h1]
      · show _ = (view sys).patchPos
        rw [e3]; exact h2
      · show _ = user (view sys).step
        rw [e3]; exact h5
  · rw [if_neg hn] at h
    rw [if_pos (by omega)]
    cases h
    exact ⟨rfl, h1, h2, h3, h5⟩

theorem inPlaceFileIoEnv_sim (hS : HonestMem S patch view) {steps : Steps ν} {steps' : Steps υ} (hst : StepsAgree view user steps steps') :
    EnvSim (SameMem patch view user) (inPlaceFileIoEnv S steps) ((memFileEnv steps').with ReadFile) where
  read hR h h0 := by
    obtain ⟨e, hR'⟩ := inPlaceFileIoMemRead_sim hS hR h h0
    exact ⟨_, by simp only [MemEnv.with, memFileEnv, e], hR'⟩
  write hR h h0 := by
    obtain ⟨e, hR'⟩ := inPlaceFileIoMemWrite_sim hS hR h h0
    exact ⟨_, by simp only [MemEnv.with, memFileEnv, e], hR'⟩
  erase hR h h0 := by
    cases h
    exact ⟨_, rfl, hR⟩
  set := by
    rcases hst.set with ⟨h1, h2⟩ | ⟨f, g, h1, h2, h3⟩
    · exact .inl ⟨by simp only [inPlaceFileIoEnv, h1, Option.map_none], by simp only [MemEnv.with, memFileEnv, h2, Option.map_none]⟩
    · refine .inr ⟨_, _, by simp only [inPlaceFileIoEnv, h1, Option.map_some]; rfl, by simp only [MemEnv.with, memFileEnv, h2, Option.map_some]; rfl, ?_⟩
      rintro io b n io' ⟨k1, k2, k3, k4⟩ e
      have q := h3 io.sys n
      revert e q
      rcases f io.sys n with ⟨r, sys⟩
      intro e q
      simp only [Prod.mk.injEq] at e q
      obtain ⟨e1, e2⟩ := e
      obtain ⟨q1, q2⟩ := q e1
      subst e2
      simp only [q2]
      refine ⟨_, rfl, ?_, ?_, k3, ?_⟩
      · show _ = (view sys).file
        rw [q1]; exact k1
      · show _ = (view sys).patchPos
        rw [q1]; exact k2
      · show _ = user (view sys).step
        rw [q1]
  get := by
    rcases hst.get with ⟨h1, h2⟩ | ⟨f, g, h1, h2, h3⟩
    · exact .inl ⟨by simp only [inPlaceFileIoEnv, h1, Option.map_none], by simp only [MemEnv.with, memFileEnv, h2, Option.map_none]⟩
    · refine .inr ⟨_, _, by simp only [inPlaceFileIoEnv, h1, Option.map_some]; rfl, by simp only [MemEnv.with, memFileEnv, h2, Option.map_some]; rfl, ?_⟩
      rintro io b n io' ⟨k1, k2, k3, k4⟩ e
      have q := h3 io.sys
      revert e q
      rcases f io.sys with ⟨r, st, sys⟩
      intro e q
      simp only [Prod.mk.injEq] at e q
      obtain ⟨e1, e2, e3⟩ := e
      obtain ⟨q1, q2⟩ := q e1
      subst e2 e3
      simp only [k4, q2]
      refine ⟨_, rfl, ?_, ?_, k3, ?_⟩
      · show _ = (view sys).file
        rw [q1]; exact k1
      · show _ = (view sys).patchPos
        rw [q1]; exact k2
      · show _ = user (view sys).step
        rw [q1]

theorem inPlacePatchRead_sim (hS : HonestMem S patch view) (io : Io ν) (b : (Bytes × υ) × ReadFile) (n : Nat) (hR : SameMem patch view user io b)
    (h : (fileIoRead S io .patch n).1 = 0) : (patchReadWith (Bytes × υ) fileRead b n).1 = 0 ∧
      (patchReadWith (Bytes × υ) fileRead b n).2.1 = (fileIoRead S io .patch n).2.1 ∧
      SameMem patch view user (fileIoRead S io .patch n).2.2 (patchReadWith (Bytes × υ) fileRead b n).2.2 := by
  obtain ⟨h1, h3, h4, h5⟩ := hR
  simp only [patchReadWith, fileRead]
  unfold fileIoRead at h ⊢
  by_cases hn : n > 0
  · rw [if_pos hn] at h ⊢
    have hr := hS.readPatch io.sys n
    revert h hr
    rcases S.fread io.sys .patch n with ⟨_ | d, sys⟩
    · intro h; exact absurd h (by decide : FILE_READ_FAILED ≠ 0)
    · intro _ hr
      obtain ⟨r1, r2, r3⟩ := hr d rfl
      simp only at r3
      rw [if_pos (.inr (by rw [h3, h4]; exact r1))]
      refine ⟨rfl, ?_, ?_⟩
      · show _ = d
        rw [r2, h3, h4]
      · refine ⟨?_, ?_, h4, ?_⟩
        · show b.1.1 = (view sys).file
          rw [r3]; exact h1
        · show b.2.pos + n = (view sys).patchPos
          rw [r3, h3]
        · show b.1.2 = user (view sys).step
          rw [r3]; exact h5
  · have hn : n = 0 := by omega
    subst hn
    rw [if_neg (c := 0 > 0) (by omega), if_pos (c := 0 = 0 ∨ _) (.inl rfl)]
    exact ⟨rfl, by simp, h1, by simpa using h3, h4, h5⟩

theorem fileSizeOn_memView (hS : HonestMem S patch view) (io : Io ν) (h : (fileSizeOn S io .patch).1.1 = 0) :
    (fileSizeOn S io .patch).1.2 = patch.length ∧ patch.length ≠ 0 ∧ view (fileSizeOn S io .patch).2.sys = { view io.sys with patchPos := 0 } := by
  unfold fileSizeOn at h ⊢
  have e1 : (io.fseek S .patch 0 .end_).1 = 0 → view (io.fseek S .patch 0 .end_).2.sys = _ := hS.seekEnd io.sys
  revert h e1
  rcases io.fseek S .patch 0 .end_ with ⟨r1, io1⟩
  intro h e1
  simp only at h e1 ⊢
  by_cases h1 : r1 ≠ 0
  · rw [if_pos h1] at h; exact absurd h (by decide : FILE_SEEK_FAILED ≠ 0)
  rw [if_neg h1] at h ⊢
  have e1 := e1 (Decidable.not_not.mp h1)
  have e2 : 0 ≤ (io1.ftell S .patch).1 → (io1.ftell S .patch).1 = _ ∧ view (io1.ftell S .patch).2.sys = _ := hS.tell io1.sys
  revert h e2
  rcases io1.ftell S .patch with ⟨z, io2⟩
  intro h e2
  simp only at h e2 ⊢
  by_cases h2 : z ≤ 0
  · rw [if_pos h2] at h; exact absurd h (by decide : FILE_TELL_FAILED ≠ 0)
  rw [if_neg h2] at h ⊢
  have e2 := e2 (by omega)
  have e3 : (io2.fseek S .patch 0 .set).1 = 0 → view (io2.fseek S .patch 0 .set).2.sys = _ := hS.seekSet io2.sys
  revert h e3
  rcases io2.fseek S .patch 0 .set with ⟨r3, io3⟩
  intro h e3
  simp only at h e3 ⊢
  by_cases h3 : r3 ≠ 0
  · rw [if_pos h3] at h; exact absurd h (by decide : FILE_SEEK_FAILED ≠ 0)
  rw [if_neg h3] at h ⊢
  have e3 := e3 (Decidable.not_not.mp h3)
  have hz : z = patch.length := by rw [e2.1, e1]
  refine ⟨hz, by omega, ?_⟩
  show view io3.sys = _
  rw [e3, e2.2, e1]

theorem inPlaceFileIoInitOn_view (hS : HonestMem S patch view) (sys : ν) (h : (inPlaceFileIoInitOn S { sys := sys }).1.1 = 0) :
    (inPlaceFileIoInitOn S { sys := sys }).1.2 = patch.length ∧ patch.length ≠ 0 ∧
      (view (inPlaceFileIoInitOn S { sys := sys }).2.sys).file = (view sys).file ∧
      (view (inPlaceFileIoInitOn S { sys := sys }).2.sys).patchPos = 0 ∧
      (view (inPlaceFileIoInitOn S { sys := sys }).2.sys).step = (view sys).step := by
  unfold inPlaceFileIoInitOn Io.fopen at h ⊢
  have e1 := hS.openMemory sys
  revert h e1
  rcases S.fopen sys .memory with ⟨_ | _, s1⟩
  · intro h; exact absurd h (by decide : FILE_OPEN_FAILED ≠ 0)
  intro h e1
  have e1 := e1 rfl
  simp only at h e1 ⊢
  have e3 := hS.openPatch s1
  revert h e3
  rcases S.fopen s1 .patch with ⟨_ | _, s3⟩
  · intro h; exact absurd h (by decide : FILE_OPEN_FAILED ≠ 0)
  intro h e3
  have e3 := e3 rfl
  simp only at h e3 ⊢
  have e4 := fileSizeOn_memView hS { sys := s3, opened := [.patch, .memory] }
  revert h e4
  rcases fileSizeOn S { sys := s3, opened := [.patch, .memory] } .patch with ⟨⟨res, size⟩, io⟩
  intro h e4
  simp only at h e4 ⊢
  by_cases hr : res ≠ 0
  · rw [if_pos hr] at h; exact absurd h hr
  rw [if_neg hr]
  have e4 := e4 (Decidable.not_not.mp hr)
  refine ⟨e4.1, e4.2.1, ?_, ?_, ?_⟩
  · show (view io.sys).file = _
    rw [e4.2.2, e3, e1]
  · show (view io.sys).patchPos = _
    rw [e4.2.2]
  · show (view io.sys).step = _
    rw [e4.2.2, e3, e1]

theorem inPlaceFileIoCleanupOn_view (hS : HonestMem S patch view) (io : Io ν) (h : (inPlaceFileIoCleanupOn S io).2.closeFailed = false) :
    (inPlaceFileIoCleanupOn S io).1 = 0 ∧ view (inPlaceFileIoCleanupOn S io).2.sys = view io.sys := by
  unfold inPlaceFileIoCleanupOn at h ⊢
  have e1 : (io.fclose S .memory).1 = 0 → view (io.fclose S .memory).2.sys = view io.sys := hS.close io.sys .memory
  have c1 : (io.fclose S .memory).2.closeFailed = (io.closeFailed || decide ((io.fclose S .memory).1 ≠ 0)) := rfl
  revert h e1 c1
  rcases io.fclose S .memory with ⟨r1, io1⟩
  intro h e1 c1
  simp only at h e1 c1 ⊢
  have e3 : (io1.fclose S .patch).1 = 0 → view (io1.fclose S .patch).2.sys = view io1.sys := hS.close io1.sys .patch
  have c3 : (io1.fclose S .patch).2.closeFailed = (io1.closeFailed || decide ((io1.fclose S .patch).1 ≠ 0)) := rfl
  revert h e3 c3
  rcases io1.fclose S .patch with ⟨r3, io3⟩
  intro h e3 c3
  simp only at h e3 c3 ⊢
  rw [c3, c1] at h
  simp only [ne_eq, Bool.or_eq_false_iff, decide_eq_false_iff_not, Decidable.not_not] at h
  rw [e3 h.2, e1 h.1.2]
  exact ⟨by rw [if_neg (by omega)]; exact h.1.2, rfl⟩

theorem inPlaceFileIoEnv_returns (S : Stdio ν) (steps : Steps ν) (r : Int) (h : (inPlaceFileIoEnv S steps).Returns r) : r ≤ 0 ∧ r ≠ ALREADY_DONE := by
  refine ⟨inPlaceFileIoEnv_np S steps r h, ?_⟩
  rcases h with ⟨a, addr, n, h⟩ | ⟨a, addr, d, h⟩ | ⟨a, addr, n, h⟩
  · rw [← h]
    show (inPlaceFileIoMemRead S a addr n).1 ≠ _
    unfold inPlaceFileIoMemRead
    split
    · rcases a.fseek S .memory (wrapInt addr) .set with ⟨r1, io1⟩
      simp only
      split
      · exact (by decide : FILE_SEEK_FAILED ≠ ALREADY_DONE)
      · rcases fileIoRead_fault S io1 .memory n with e | e <;> rw [e] <;> decide
    · exact (by decide : (0 : Int) ≠ ALREADY_DONE)
  · rw [← h]
    show (inPlaceFileIoMemWrite S a addr d).1 ≠ _
    unfold inPlaceFileIoMemWrite
    split
    · rcases a.fseek S .memory (wrapInt addr) .set with ⟨r1, io1⟩
      simp only
      split
      · exact (by decide : FILE_SEEK_FAILED ≠ ALREADY_DONE)
      · rename_i hz
        rcases S.fwrite io1.sys .memory d with ⟨_ | _, sys⟩
        · exact (by decide : FILE_WRITE_FAILED ≠ ALREADY_DONE)
        · show r1 ≠ _
          rw [Decidable.not_not.mp hz]; decide
    · exact (by decide : (0 : Int) ≠ ALREADY_DONE)
  · rw [← h]; exact (by decide : (0 : Int) ≠ ALREADY_DONE)

/-- The whole update. -/
theorem applyInPlaceFilenamesOn_output [Build] (hS : HonestMem S patch view) {steps : Steps ν} {steps' : Steps υ} (hst : StepsAgree view user steps steps')
    (sys : ν) (n : Int) (io : Io ν) (h : applyInPlaceFilenamesOn S steps { sys := sys } = .ok (n, io)) (h0 : 0 ≤ n) (hc : io.closeFailed = false) :
    applyPatchInPlaceFilenames { memory := some (view sys).file, patch := some patch } steps' (user (view sys).step) =
      .ok (n, some (view io.sys).file, user (view io.sys).step) := by
  unfold applyInPlaceFilenamesOn at h
  have hv := inPlaceFileIoInitOn_view hS sys
  rcases hz : inPlaceFileIoInitOn S { sys := sys } with ⟨⟨res, size⟩, io0⟩
  have hk := inPlaceFileIoInitOn_kept S sys
  rw [hz] at hk h hv
  simp only at hk h hv
  rcases hk with ⟨k1, -, -, -⟩ | ⟨k1, k2, k3⟩
  · obtain ⟨v1, v0, v2, v3, v4⟩ := hv k1
    rw [if_neg (by omega), v1] at h
    simp only [Bind.bind, Except.bind, Int.toNat_natCast] at h
    split at h
    · cases h
    rename_i x hx
    have main (hn : 0 ≤ x.1) := applyPatchInPlaceCallbacks_sim (inPlaceFileIoEnv_sim hS hst) (inPlaceFileIoEnv_returns S steps)
      (fun io n => fileIoRead S io .patch n) (patchReadWith (Bytes × υ) fileRead)
      (fun a b n hR hr => inPlacePatchRead_sim hS a b n hR hr) patch.length io0 (((view sys).file, user (view sys).step), { data := patch })
      ⟨v2.symm, v3.symm, rfl, by rw [v4]⟩ (res := x.1) (w1 := x.2.1) (rs := x.2.2) hx hn
    unfold applyPatchInPlaceFilenames inPlaceFileIoInit
    simp only [Bool.true_eq_false, if_false, v0, Bind.bind, Except.bind]
    split at h
    · rename_i hne
      cases h
      obtain ⟨w2, e, hR, -, -, hU⟩ := main h0
      rw [e]
      simp only
      rw [if_pos hne, (inPlaceFileIoCleanupOn_view hS _ hc).2, ← hR, ← hU]
    · rename_i he
      have hx0 : x.1 = 0 := Decidable.not_not.mp he
      obtain ⟨w2, e, hR, -, -, hU⟩ := main (by omega)
      have h' : inPlaceFileIoCleanupOn S x.2.1.arg = (n, io) := by simpa using h
      have hcl := inPlaceFileIoCleanupOn_view hS x.2.1.arg (by rw [h']; exact hc)
      rw [h'] at hcl
      rw [e]
      simp only
      rw [if_neg he, show view io.sys = view x.2.1.arg.sys from hcl.2, ← hR, ← hU, show n = 0 from hcl.1]
      rfl
  · rw [if_pos (by omega)] at h
    cases h
    omega

end
end Detools
