import Verif.Proofs.CStdioSim
import Verif.Proofs.CStdioInPlaceSim
import Verif.Proofs.CInPlaceFiles
/-
Lemmas for C67: on a stdio on which no call fails that need not, the callbacks succeed
whenever those on files in memory do.
-/
namespace Detools

variable {S : Stdio ν} {fr patch : Bytes} {view : ν → StdioView}

theorem fileIoRead_works {io : Io ν} {fd : Fd} {n : Nat} (h : 0 < n → (S.fread io.sys fd n).1 ≠ none) : (fileIoRead S io fd n).1 = 0 := by
  unfold fileIoRead
  by_cases hn : n > 0
  · rw [if_pos hn]
    have h := h hn
    revert h
    rcases S.fread io.sys fd n with ⟨_ | d, sys⟩
    · intro h; exact absurd rfl h
    · intro _; rfl
  · rw [if_neg hn]

theorem fileEnv_sim (hS : Works S fr patch view) :
    SeqSim (fun b io => SameFiles patch view io b) ((fileEnv fr).with ReadFile) (fileIoEnv S) where
  read b io n hR h := by
    have hs : ((fileIoEnv S).fromRead io n).1 = 0 := by
      refine fileIoRead_works (fun hn => hS.readsFrom _ _ ?_)
      have h1 := hR.1
      simp only [SeqEnv.with, fileEnv] at h
      by_cases hc : n = 0 ∨ b.1.pos + n ≤ fr.length
      · omega
      · rw [if_neg hc] at h
        exact absurd h (by decide : FILE_READ_FAILED ≠ 0)
    obtain ⟨_, e, r⟩ := (fileIoEnv_sim hS.toHonest).read io b n hR hs
    exact ⟨hs, e.symm, r⟩
  seek b io n hR h := by
    have hs : ((fileIoEnv S).fromSeek io n).1 = 0 := by
      refine hS.seeksFrom _ _ ?_
      have h1 := hR.1
      simp only [SeqEnv.with, fileEnv] at h
      by_cases hc : b.1.pos + n < 0
      · rw [if_pos hc] at h
        exact absurd h (by decide : (-1 : Int) ≠ 0)
      · omega
    exact ⟨hs, ((fileIoEnv_sim hS.toHonest).seek io b n hR hs).2⟩
  write b io d hR _ := by
    have hs : ((fileIoEnv S).toWrite io d).1 = 0 := by
      show (fileIoToWrite S io d).1 = 0
      unfold fileIoToWrite
      have hw := hS.writes io.sys d
      revert hw
      rcases S.fwrite io.sys .to d with ⟨_ | _, sys⟩
      · intro hw; cases hw
      · intro _; split <;> rfl
    exact ⟨hs, ((fileIoEnv_sim hS.toHonest).write io b d hR hs).2⟩

theorem fileRead_sim (hS : Works S fr patch view) (b : Files × ReadFile) (io : Io ν) (n : Nat) (hR : SameFiles patch view io b)
    (h : (patchReadWith Files fileRead b n).1 = 0) : (fileIoRead S io .patch n).1 = 0 ∧
      (fileIoRead S io .patch n).2.1 = (patchReadWith Files fileRead b n).2.1 ∧
      SameFiles patch view (fileIoRead S io .patch n).2.2 (patchReadWith Files fileRead b n).2.2 := by
  have hs : (fileIoRead S io .patch n).1 = 0 := by
    refine fileIoRead_works (fun hn => hS.readsPatch _ _ ?_)
    obtain ⟨-, -, h3, h4⟩ := hR
    simp only [patchReadWith, fileRead] at h
    by_cases hc : n = 0 ∨ b.2.pos + n ≤ b.2.data.length
    · rw [h3, h4] at hc; omega
    · rw [if_neg hc] at h
      exact absurd h (by decide : FILE_READ_FAILED ≠ 0)
  obtain ⟨_, e, r⟩ := patchRead_sim hS.toHonest io b n hR hs
  exact ⟨hs, e.symm, r⟩

/-- The size of the patch is found, if it is not 0. -/
theorem fileSizeOn_works (hS : Works S fr patch view) (hne : patch ≠ []) (io : Io ν) : (fileSizeOn S io .patch).1.1 = 0 := by
  unfold fileSizeOn
  have e1 : view (io.fseek S .patch 0 .end_).2.sys = _ := hS.seekEnd io.sys (hS.seeksEnd _)
  have z1 : (io.fseek S .patch 0 .end_).1 = 0 := hS.seeksEnd _
  revert e1 z1
  rcases io.fseek S .patch 0 .end_ with ⟨r1, io1⟩
  intro e1 z1
  simp only at e1 z1 ⊢
  rw [if_neg (fun e => e z1)]
  have e2 : (io1.ftell S .patch).1 = _ := (hS.tell io1.sys (hS.tells _)).1
  revert e2
  rcases io1.ftell S .patch with ⟨z, io2⟩
  intro e2
  simp only at e2 ⊢
  have hl : 0 < patch.length := List.length_pos_iff.mpr hne
  rw [if_neg (by rw [e2, e1]; simp only; omega)]
  have z3 : (io2.fseek S .patch 0 .set).1 = 0 := hS.seeksSet _
  revert z3
  rcases io2.fseek S .patch 0 .set with ⟨r3, io3⟩
  intro z3
  simp only at z3 ⊢
  rw [if_neg (fun e => e z3)]
  exact z3

theorem fileIoInitOn_works (hS : Works S fr patch view) (hne : patch ≠ []) (sys : ν) : (fileIoInitOn S { sys := sys }).1.1 = 0 := by
  unfold fileIoInitOn Io.fopen
  have e1 := hS.opens sys .from_
  revert e1
  rcases S.fopen sys .from_ with ⟨_ | _, s1⟩
  · intro h; cases h
  intro _
  simp only
  have e2 := hS.opens s1 .to
  revert e2
  rcases S.fopen s1 .to with ⟨_ | _, s2⟩
  · intro h; cases h
  intro _
  simp only
  have e3 := hS.opens s2 .patch
  revert e3
  rcases S.fopen s2 .patch with ⟨_ | _, s3⟩
  · intro h; cases h
  intro _
  simp only
  have e4 := fileSizeOn_works hS hne { sys := s3, opened := [.patch, .to, .from_] }
  revert e4
  rcases fileSizeOn S { sys := s3, opened := [.patch, .to, .from_] } .patch with ⟨⟨res, size⟩, io⟩
  intro e4
  simp only at e4 ⊢
  rw [if_neg (fun e => e e4)]
  exact e4

theorem fileIoCleanupOn_works (hS : Works S fr patch view) (io : Io ν) : (fileIoCleanupOn S io).1 = 0 := by
  have h (io : Io ν) (fd : Fd) : (io.fclose S fd).1 = 0 := hS.closes _ _
  simp only [fileIoCleanupOn]
  rw [if_neg]
  · exact h _ _
  · rintro (e | e | e) <;> exact e (h _ _)

section
variable {view : ν → MemView} {user : Int → υ}

theorem inPlaceFileIoMemRead_works (hS : WorksMem S patch view) {io : Io ν} {addr n : Nat} (h : 0 ≤ (memFileRead (view io.sys).file addr n).1) :
    (inPlaceFileIoMemRead S io addr n).1 = 0 := by
  unfold inPlaceFileIoMemRead
  unfold memFileRead at h
  by_cases hn : n > 0
  · rw [if_pos hn]
    rw [if_neg (by omega)] at h
    by_cases ha : wrapInt addr < 0
    · rw [if_pos ha] at h; exact absurd h (by decide : ¬ 0 ≤ FILE_SEEK_FAILED)
    rw [if_neg ha] at h
    by_cases hl : (wrapInt addr).toNat + n ≤ (view io.sys).file.length
    rotate_left 1
    · rw [if_neg hl] at h; exact absurd h (by decide : ¬ 0 ≤ FILE_READ_FAILED)
    have z : (io.fseek S .memory (wrapInt addr) .set).1 = 0 := hS.seeksMemory _ _ (by omega)
    have e : view (io.fseek S .memory (wrapInt addr) .set).2.sys = _ := (hS.seekMemory io.sys (wrapInt addr) z).2
    revert z e
    rcases io.fseek S .memory (wrapInt addr) .set with ⟨r1, io1⟩
    intro z e
    simp only at z e ⊢
    rw [if_neg (fun k => k z)]
    refine fileIoRead_works (fun _ => hS.readsMemory _ _ ?_)
    rw [e]
    simp only
    exact hl
  · rw [if_neg hn]

theorem inPlaceFileIoMemWrite_works (hS : WorksMem S patch view) {io : Io ν} {addr : Nat} {d : Bytes} (h : 0 ≤ (memFileWrite (view io.sys).file addr d).1) :
    (inPlaceFileIoMemWrite S io addr d).1 = 0 := by
  unfold inPlaceFileIoMemWrite
  unfold memFileWrite at h
  by_cases hn : d.length > 0
  · rw [if_pos hn]
    rw [if_neg (by omega)] at h
    by_cases ha : wrapInt addr < 0
    · rw [if_pos ha] at h; exact absurd h (by decide : ¬ 0 ≤ FILE_SEEK_FAILED)
    have z : (io.fseek S .memory (wrapInt addr) .set).1 = 0 := hS.seeksMemory _ _ (by omega)
    revert z
    rcases io.fseek S .memory (wrapInt addr) .set with ⟨r1, io1⟩
    intro z
    simp only at z ⊢
    rw [if_neg (fun k => k z)]
    have hw := hS.writes io1.sys d
    revert hw
    rcases S.fwrite io1.sys .memory d with ⟨_ | _, sys⟩
    · intro hw; cases hw
    · intro _; exact z
  · rw [if_neg hn]

theorem memFileEnv_sim (hS : WorksMem S patch view) {steps : Steps ν} {steps' : Steps υ} (hst : StepsAgree view user steps steps')
    (hss : StepsSucceed steps) :
    EnvSim (fun b io => SameMem patch view user io b) ((memFileEnv steps').with ReadFile) (inPlaceFileIoEnv S steps) where
  read {b io addr n r d b'} hR h h0 := by
    simp only [MemEnv.with, memFileEnv, Prod.mk.injEq] at h
    obtain ⟨h1, h2, rfl⟩ := h
    have hz := inPlaceFileIoMemRead_works hS (io := io) (addr := addr) (n := n) (by rw [← hR.1, h1]; exact h0)
    rcases hx : inPlaceFileIoMemRead S io addr n with ⟨r', d', io'⟩
    rw [hx] at hz
    simp only at hz
    obtain ⟨e, hR'⟩ := inPlaceFileIoMemRead_sim hS.toHonestMem hR hx (by omega)
    rw [e] at h1 h2
    simp only at h1 h2
    subst h1 h2
    exact ⟨io', hx, hR'⟩
  write {b io addr d r b'} hR h h0 := by
    simp only [MemEnv.with, memFileEnv, Prod.mk.injEq] at h
    obtain ⟨h1, rfl⟩ := h
    have hz := inPlaceFileIoMemWrite_works hS (io := io) (addr := addr) (d := d) (by rw [← hR.1, h1]; exact h0)
    rcases hx : inPlaceFileIoMemWrite S io addr d with ⟨r', io'⟩
    rw [hx] at hz
    simp only at hz
    obtain ⟨e, hR'⟩ := inPlaceFileIoMemWrite_sim hS.toHonestMem hR hx (by omega)
    rw [e] at h1
    subst h1
    exact ⟨io', hx, hR'⟩
  erase hR h _ := by
    cases h
    exact ⟨_, rfl, hR⟩
  set := by
    rcases (inPlaceFileIoEnv_sim hS.toHonestMem hst).set with ⟨h1, h2⟩ | ⟨f, g, h1, h2, h3⟩
    · exact .inl ⟨h2, h1⟩
    · refine .inr ⟨g, f, h2, h1, ?_⟩
      intro b io step b' hR e
      have hz : (f io step).1 = 0 := by
        simp only [inPlaceFileIoEnv] at h1
        rcases hk : steps.set with _ | k
        · rw [hk] at h1; cases h1
        · rw [hk] at h1
          cases h1
          exact hss.sets k hk _ _
      obtain ⟨b'', e2, hR2⟩ := h3 (a' := (f io step).2) hR (by rw [← hz])
      rw [e] at e2
      cases e2
      exact ⟨_, by rw [← hz], hR2⟩
  get := by
    rcases (inPlaceFileIoEnv_sim hS.toHonestMem hst).get with ⟨h1, h2⟩ | ⟨f, g, h1, h2, h3⟩
    · exact .inl ⟨h2, h1⟩
    · refine .inr ⟨g, f, h2, h1, ?_⟩
      intro b io step b' hR e
      have hz : (f io).1 = 0 := by
        simp only [inPlaceFileIoEnv] at h1
        rcases hk : steps.get with _ | k
        · rw [hk] at h1; cases h1
        · rw [hk] at h1
          cases h1
          exact hss.gets k hk _
      obtain ⟨b'', e2, hR2⟩ := h3 (step := (f io).2.1) (a' := (f io).2.2) hR (by rw [← hz])
      rw [e] at e2
      cases e2
      exact ⟨_, by rw [← hz], hR2⟩

theorem inPlaceFileRead_sim (hS : WorksMem S patch view) (b : (Bytes × υ) × ReadFile) (io : Io ν) (n : Nat) (hR : SameMem patch view user io b)
    (h : (patchReadWith (Bytes × υ) fileRead b n).1 = 0) : (fileIoRead S io .patch n).1 = 0 ∧
      (fileIoRead S io .patch n).2.1 = (patchReadWith (Bytes × υ) fileRead b n).2.1 ∧
      SameMem patch view user (fileIoRead S io .patch n).2.2 (patchReadWith (Bytes × υ) fileRead b n).2.2 := by
  have hs : (fileIoRead S io .patch n).1 = 0 := by
    refine fileIoRead_works (fun hn => hS.readsPatch _ _ ?_)
    obtain ⟨-, h3, h4, -⟩ := hR
    simp only [patchReadWith, fileRead] at h
    by_cases hc : n = 0 ∨ b.2.pos + n ≤ b.2.data.length
    · rw [h3, h4] at hc; omega
    · rw [if_neg hc] at h
      exact absurd h (by decide : FILE_READ_FAILED ≠ 0)
  obtain ⟨_, e, r⟩ := inPlacePatchRead_sim hS.toHonestMem io b n hR hs
  exact ⟨hs, e.symm, r⟩

theorem fileSizeOn_worksMem (hS : WorksMem S patch view) (hne : patch ≠ []) (io : Io ν) : (fileSizeOn S io .patch).1.1 = 0 := by
  unfold fileSizeOn
  have e1 : view (io.fseek S .patch 0 .end_).2.sys = _ := hS.seekEnd io.sys (hS.seeksEnd _)
  have z1 : (io.fseek S .patch 0 .end_).1 = 0 := hS.seeksEnd _
  revert e1 z1
  rcases io.fseek S .patch 0 .end_ with ⟨r1, io1⟩
  intro e1 z1
  simp only at e1 z1 ⊢
  rw [if_neg (fun e => e z1)]
  have e2 : (io1.ftell S .patch).1 = _ := (hS.tell io1.sys (hS.tells _)).1
  revert e2
  rcases io1.ftell S .patch with ⟨z, io2⟩
  intro e2
  simp only at e2 ⊢
  have hl : 0 < patch.length := List.length_pos_iff.mpr hne
  rw [if_neg (by rw [e2, e1]; simp only; omega)]
  have z3 : (io2.fseek S .patch 0 .set).1 = 0 := hS.seeksSet _
  revert z3
  rcases io2.fseek S .patch 0 .set with ⟨r3, io3⟩
  intro z3
  simp only at z3 ⊢
  rw [if_neg (fun e => e z3)]
  exact z3

theorem inPlaceFileIoInitOn_works (hS : WorksMem S patch view) (hne : patch ≠ []) (sys : ν) : (inPlaceFileIoInitOn S { sys := sys }).1.1 = 0 := by
  unfold inPlaceFileIoInitOn Io.fopen
  have e1 := hS.opens sys .memory
  revert e1
  rcases S.fopen sys .memory with ⟨_ | _, s1⟩
  · intro h; cases h
  intro _
  simp only
  have e3 := hS.opens s1 .patch
  revert e3
  rcases S.fopen s1 .patch with ⟨_ | _, s3⟩
  · intro h; cases h
  intro _
  simp only
  have e4 := fileSizeOn_worksMem hS hne { sys := s3, opened := [.patch, .memory] }
  revert e4
  rcases fileSizeOn S { sys := s3, opened := [.patch, .memory] } .patch with ⟨⟨res, size⟩, io⟩
  intro e4
  simp only at e4 ⊢
  rw [if_neg (fun e => e e4)]
  exact e4

theorem inPlaceFileIoCleanupOn_works (hS : WorksMem S patch view) (io : Io ν) : (inPlaceFileIoCleanupOn S io).1 = 0 := by
  have h (io : Io ν) (fd : Fd) : (io.fclose S fd).1 = 0 := hS.closes _ _
  simp only [inPlaceFileIoCleanupOn]
  rw [if_neg]
  · exact h _ _
  · rintro (e | e) <;> exact e (h _ _)

theorem memFileEnv_returns {steps : Steps υ} (r : Int) (h : ((memFileEnv steps).with ReadFile).Returns r) : r ≤ 0 ∧ r ≠ ALREADY_DONE := by
  rcases h with ⟨a, addr, n, e⟩ | ⟨a, addr, d, e⟩ | ⟨a, addr, n, e⟩
  · rw [← e]; simp only [MemEnv.with, memFileEnv, memFileRead]; repeat' split
    all_goals simp [FILE_SEEK_FAILED, FILE_READ_FAILED, ALREADY_DONE]
  · rw [← e]; simp only [MemEnv.with, memFileEnv, memFileWrite]; repeat' split
    all_goals simp [FILE_SEEK_FAILED, FILE_READ_FAILED, ALREADY_DONE]
  · rw [← e]; simp only [MemEnv.with, memFileEnv]; decide

/-- The whole update. -/
theorem applyInPlaceFilenamesOn_works [Build] (hS : WorksMem S patch view) {steps : Steps ν} {steps' : Steps υ} (hst : StepsAgree view user steps steps')
    (hss : StepsSucceed steps) (sys : ν) (n : Int) (file : Option Bytes) (u : υ) (h0 : 0 ≤ n)
    (h : applyPatchInPlaceFilenames { memory := some (view sys).file, patch := some patch } steps' (user (view sys).step) = .ok (n, file, u)) :
    ∃ io, applyInPlaceFilenamesOn S steps { sys := sys } = .ok (n, io) ∧ file = some (view io.sys).file ∧ u = user (view io.sys).step ∧
      io.opened = [] ∧ io.failed = false ∧ io.closeFailed = false := by
  have hne : patch ≠ [] := by
    rintro rfl
    rw [show applyPatchInPlaceFilenames { memory := some (view sys).file, patch := some [] } steps' (user (view sys).step) =
      .ok (FILE_TELL_FAILED, some (view sys).file, user (view sys).step) from rfl] at h
    cases h
    exact absurd h0 (by decide)
  suffices hsuf : ∃ io, applyInPlaceFilenamesOn S steps { sys := sys } = .ok (n, io) ∧ io.opened = [] ∧ io.failed = false ∧ io.closeFailed = false by
    obtain ⟨io, e, k1, k2, k3⟩ := hsuf
    rw [applyInPlaceFilenamesOn_output hS.toHonestMem hst sys n io e h0 k3] at h
    cases h
    exact ⟨io, e, rfl, rfl, k1, k2, k3⟩
  have hi := inPlaceFileIoInitOn_works hS hne sys
  have hv := inPlaceFileIoInitOn_view hS.toHonestMem sys hi
  have hk := inPlaceFileIoInitOn_kept S sys
  unfold applyInPlaceFilenamesOn
  rcases hz : inPlaceFileIoInitOn S { sys := sys } with ⟨⟨res, size⟩, io0⟩
  rw [hz] at hi hv hk
  simp only at hi hv hk ⊢
  obtain ⟨v1, v0, v2, v3, v4⟩ := hv
  rcases hk with ⟨-, -, k3, k4⟩ | ⟨k, -, -⟩
  rotate_left 1
  · omega
  rw [if_neg (fun e => e hi), v1, Int.toNat_natCast]
  have hin : inPlaceFileIoInit { memory := some (view sys).file, patch := some patch } = .ok ((view sys).file, patch) := by
    simp [inPlaceFileIoInit, hne]
  unfold applyPatchInPlaceFilenames at h
  rw [hin] at h
  simp only [Bind.bind, Except.bind] at h
  split at h
  · cases h
  rename_i x hx
  obtain ⟨r, w, rs⟩ := x
  have hr : r = n := by
    simp only at h
    split at h
    · cases h; rfl
    · rename_i hr
      cases h
      exact Decidable.not_not.mp hr
  subst hr
  obtain ⟨w2, e, -⟩ := applyPatchInPlaceCallbacks_sim (memFileEnv_sim hS hst hss) memFileEnv_returns (patchReadWith (Bytes × υ) fileRead)
    (fun io n => fileIoRead S io .patch n) (fun a b n hR hr => inPlaceFileRead_sim hS a b n hR hr) patch.length _ io0
    ⟨v2.symm, v3.symm, rfl, by rw [v4]⟩ hx h0
  rw [e]
  have hw := applyPatchInPlaceCallbacks_kept (inPlaceFileIoEnv_watched S steps) (inPlaceFileIoEnv_np S steps) (fun io n => fileIoRead S io .patch n)
    (fun io n hi => fileIoRead_kept S io n (by decide) hi) patch.length io0 e k3 (by simp [k4])
  obtain ⟨c1, -, c3, c4⟩ := inPlaceFileIoCleanupOn_kept S w2.arg hw.1
  have hc := inPlaceFileIoCleanupOn_works hS w2.arg
  refine ⟨(inPlaceFileIoCleanupOn S w2.arg).2, ?_, c1, by rw [c3]; simpa using hw.2 h0, c4.1 hc⟩
  simp only [Bind.bind, Except.bind]
  split
  · rfl
  · rename_i hr
    rw [Decidable.not_not.mp hr, ← hc]

end

end Detools
