import Verif.Spec.CStdio
import Verif.Proofs.CStdio
/-
Lemmas for C67: two sets of callbacks of which the second does the same as the first whenever
the first succeeds.
-/
namespace Detools

/-- The second does the same as the first whenever the first succeeds. -/
structure SeqSim (R : σ → τ → Prop) (E1 : SeqEnv σ) (E2 : SeqEnv τ) : Prop where
  read : ∀ a b n, R a b → (E1.fromRead a n).1 = 0 →
    (E2.fromRead b n).1 = 0 ∧ (E2.fromRead b n).2.1 = (E1.fromRead a n).2.1 ∧ R (E1.fromRead a n).2.2 (E2.fromRead b n).2.2
  seek : ∀ a b n, R a b → (E1.fromSeek a n).1 = 0 → (E2.fromSeek b n).1 = 0 ∧ R (E1.fromSeek a n).2 (E2.fromSeek b n).2
  write : ∀ a b d, R a b → (E1.toWrite a d).1 = 0 → (E2.toWrite b d).1 = 0 ∧ R (E1.toWrite a d).2 (E2.toWrite b d).2

/-- Unless the first fails with IO_FAILED, the second has the same result. -/
def SimR (R : σ → τ → Prop) (x1 : C (SeqRes σ)) (x2 : C (SeqRes τ)) : Prop :=
  ∀ res s' w1', x1 = .ok (res, s', w1') → res = IO_FAILED ∨ ∃ w2', x2 = .ok (res, s', w2') ∧ R w1'.arg w2'.arg

section
variable [Build] {R : σ → τ → Prop} {E1 : SeqEnv σ} {E2 : SeqEnv τ}

omit [Build] in
theorem SimR.ok {res : Int} {s : ApplyPatch} {w1 : World σ} {w2 : World τ} (h : R w1.arg w2.arg) : SimR R (.ok (res, s, w1)) (.ok (res, s, w2)) := by
  intro _ _ _ e
  cases e
  exact .inr ⟨_, rfl, h⟩

omit [Build] in
theorem SimR.err {u : Ub} {x2 : C (SeqRes τ)} : SimR R (.error u) x2 := by
  intro _ _ _ e
  cases e

omit [Build] in
theorem SimR.io {s : ApplyPatch} {w1 : World σ} {x2 : C (SeqRes τ)} : SimR R (.ok (IO_FAILED, s, w1)) x2 := by
  intro _ _ _ e
  cases e
  exact .inl rfl

omit [Build] in
/-- One after the other, if the second part keeps IO_FAILED. -/
theorem SimR.bind {x1 : C (SeqRes σ)} {x2 : C (SeqRes τ)} {k1 : SeqRes σ → C (SeqRes σ)} {k2 : SeqRes τ → C (SeqRes τ)} (h : SimR R x1 x2)
    (hk : ∀ res s w1 w2, R w1.arg w2.arg → SimR R (k1 (res, s, w1)) (k2 (res, s, w2)))
    (hio : ∀ s w1 res s' w1', k1 (IO_FAILED, s, w1) = .ok (res, s', w1') → res = IO_FAILED) : SimR R (x1.bind k1) (x2.bind k2) := by
  intro res s' w1' e
  cases hx : x1 with
  | error u => rw [hx] at e; cases e
  | ok v =>
    obtain ⟨r, s, w⟩ := v
    rw [hx] at e
    have e : k1 (r, s, w) = .ok (res, s', w1') := e
    rcases h r s w hx with h1 | ⟨w2, h2, hR⟩
    · subst h1
      exact .inl (hio _ _ _ _ _ e)
    · rw [h2]
      exact hk r s w w2 hR _ _ _ e

theorem processInit_simR {s : ApplyPatch} {w1 : World σ} {w2 : World τ} (hR : R w1.arg w2.arg) : SimR R (processInit s w1) (processInit s w2) := by
  unfold processInit
  cases s.initState with
  | fixedHeader =>
    simp only [processInitFixedHeader, Bind.bind, Except.bind]
    rcases s.chunk.get with u | _ | ⟨byte, chunk⟩
    · exact .err
    · exact .ok hR
    · simp only
      split <;> exact .ok hR
  | toSize =>
    simp only [processInitToSize, Bind.bind, Except.bind]
    rcases chunkUnpackHeaderSize (s.chunk.left + 1) s.chunk s.size with u | ⟨t | _ | e, chunk, size⟩
    · exact .err
    rotate_left 1
    · exact .ok hR
    · exact .ok hR
    · simp only
      rcases CReader.init (szOfInt (s.patchSize - chunk.offset)) s.compression with _ | r
      · exact .ok hR
      · simp only
        split
        · exact .ok hR
        · split <;> exact .ok hR

theorem processDfpatchSize_simR {s : ApplyPatch} {w1 : World σ} {w2 : World τ} (hR : R w1.arg w2.arg) :
    SimR R (processDfpatchSize s w1) (processDfpatchSize s w2) := by
  simp only [processDfpatchSize, Bind.bind, Except.bind]
  rcases s.unpackSize with u | ⟨t | _ | e, s⟩
  · exact .err
  rotate_left 1
  · exact .ok hR
  · exact .ok hR
  · simp only
    split <;> exact .ok hR

theorem processSize_simR {s : ApplyPatch} {w1 : World σ} {w2 : World τ} {next : SeqPhase} (hR : R w1.arg w2.arg) :
    SimR R (processSize s w1 next) (processSize s w2 next) := by
  simp only [processSize, Bind.bind, Except.bind]
  rcases s.unpackSize with u | ⟨t | _ | e, s⟩
  · exact .err
  rotate_left 1
  · exact .ok hR
  · exact .ok hR
  · simp only
    split <;> exact .ok hR

omit [Build] in
theorem processWrite_simR (hE : SeqSim R E1 E2) {s : ApplyPatch} {w1 : World σ} {w2 : World τ} {to : Bytes} (hR : R w1.arg w2.arg) :
    SimR R (processWrite E1 s w1 to) (processWrite E2 s w2 to) := by
  simp only [processWrite]
  by_cases h : (E1.toWrite w1.arg to).1 ≠ 0
  · rw [if_pos h]; exact .io
  · have hs := hE.write w1.arg w2.arg to hR (Decidable.not_not.mp h)
    rw [if_neg h, if_neg (fun e => e hs.1)]
    exact .ok hs.2

theorem processData_simR (hE : SeqSim R E1 E2) {s : ApplyPatch} {w1 : World σ} {w2 : World τ} {next : SeqPhase} {diff : Bool} (hR : R w1.arg w2.arg) :
    SimR R (processData E1 s w1 next diff) (processData E2 s w2 next diff) := by
  simp only [processData]
  split
  · exact .ok hR
  rcases s.reader with _ | r
  · exact .err
  simp only [Bind.bind, Except.bind]
  rcases r.decompress s.chunk dataCap (min dataCap s.chunkSize) with u | ⟨to | _ | e, r, c⟩
  · exact .err
  rotate_left 1
  · exact .ok hR
  · exact .ok hR
  · simp only
    cases diff with
    | false => exact processWrite_simR hE hR
    | true =>
      simp only [if_true]
      by_cases h : (E1.fromRead w1.arg to.length).1 ≠ 0
      · rw [if_pos h]; exact .io
      · have hs := hE.read w1.arg w2.arg to.length hR (Decidable.not_not.mp h)
        rw [if_neg h, if_neg (c := (E2.fromRead w2.arg to.length).1 ≠ 0) (fun e => e hs.1), hs.2.1]
        split
        · exact .err
        · exact processWrite_simR hE hs.2.2

theorem processAdjustment_simR (hE : SeqSim R E1 E2) {s : ApplyPatch} {w1 : World σ} {w2 : World τ} (hR : R w1.arg w2.arg) :
    SimR R (processAdjustment E1 s w1) (processAdjustment E2 s w2) := by
  simp only [processAdjustment, Bind.bind, Except.bind]
  rcases s.unpackSize with u | ⟨t | _ | e, s⟩
  · exact .err
  rotate_left 1
  · exact .ok hR
  · exact .ok hR
  · simp only
    by_cases h : (E1.fromSeek w1.arg t).1 ≠ 0
    · rw [if_pos h]; exact .io
    · have hs := hE.seek w1.arg w2.arg t hR (Decidable.not_not.mp h)
      rw [if_neg h, if_neg (c := (E2.fromSeek w2.arg t).1 ≠ 0) (fun e => e hs.1)]
      split
      · exact .err
      · split <;> exact .ok hs.2

theorem processSwitch_simR (hE : SeqSim R E1 E2) {s : ApplyPatch} {w1 : World σ} {w2 : World τ} (hR : R w1.arg w2.arg) :
    SimR R (processSwitch E1 s w1) (processSwitch E2 s w2) := by
  unfold processSwitch
  cases s.state with
  | init => exact processInit_simR hR
  | dfpatchSize => exact processDfpatchSize_simR hR
  | diffSize => exact processSize_simR hR
  | diffData => exact processData_simR hE hR
  | extraSize => exact processSize_simR hR
  | extraData => exact processData_simR hE hR
  | adjustment => exact processAdjustment_simR hE hR
  | done => exact .ok hR
  | failed => exact .ok hR

theorem processOnce_simR (hE : SeqSim R E1 E2) {s : ApplyPatch} {w1 : World σ} {w2 : World τ} (hR : R w1.arg w2.arg) :
    SimR R (processOnce E1 s w1) (processOnce E2 s w2) := by
  unfold processOnce
  split
  · exact .ok hR
  · refine SimR.bind (processSwitch_simR hE hR) (fun res s w1 w2 hR => ?_) (fun s w1 res s' w1' e => ?_)
    · simp only
      split <;> exact .ok hR
    · simp only at e
      split at e <;> cases e <;> rfl

theorem processLoop_io {fuel : Nat} {s : ApplyPatch} {w : World σ} {res s' w'} (h : processLoop E1 fuel IO_FAILED s w = .ok (res, s', w')) :
    res = IO_FAILED := by
  cases fuel with
  | zero => cases h
  | succ fuel =>
    unfold processLoop at h
    rw [if_neg (fun e => absurd e.2 (by decide))] at h
    cases h; rfl

theorem processLoop_simR (hE : SeqSim R E1 E2) : ∀ (fuel : Nat) (r0 : Int) (s : ApplyPatch) (w1 : World σ) (w2 : World τ), R w1.arg w2.arg →
    SimR R (processLoop E1 fuel r0 s w1) (processLoop E2 fuel r0 s w2)
  | 0, _, _, _, _, _ => .err
  | fuel + 1, r0, s, w1, w2, hR => by
    unfold processLoop
    split
    · exact SimR.bind (processOnce_simR hE hR) (fun res s w1 w2 hR => processLoop_simR hE fuel res s w1 w2 hR)
        (fun s w1 res s' w1' e => processLoop_io e)
    · exact .ok hR

theorem applyPatchProcess_simR (hE : SeqSim R E1 E2) {s : ApplyPatch} {w1 : World σ} {w2 : World τ} {p : Bytes} (hR : R w1.arg w2.arg) :
    SimR R (applyPatchProcess E1 s w1 p) (applyPatchProcess E2 s w2 p) := by
  unfold applyPatchProcess
  refine SimR.bind (processLoop_simR hE _ _ _ _ _ hR) (fun res s w1 w2 hR => ?_) (fun s w1 res s' w1' e => ?_)
  · simp only
    split <;> exact .ok hR
  · simp only at e
    rw [if_neg (by decide)] at e
    cases e; rfl

theorem finalizeLoop_simR (hE : SeqSim R E1 E2) : ∀ (fuel : Nat) (s : ApplyPatch) (w1 : World σ) (w2 : World τ), R w1.arg w2.arg →
    SimR R (finalizeLoop E1 fuel s w1) (finalizeLoop E2 fuel s w2)
  | 0, _, _, _, _ => .err
  | fuel + 1, s, w1, w2, hR => by
    unfold finalizeLoop
    refine SimR.bind (processOnce_simR hE hR) (fun res s w1 w2 hR => ?_) (fun s w1 res s' w1' e => ?_)
    · simp only
      split
      · exact finalizeLoop_simR hE fuel s w1 w2 hR
      · exact .ok hR
    · simp only at e
      rw [if_neg (by decide)] at e
      cases e; rfl

theorem applyPatchFinalize_simR (hE : SeqSim R E1 E2) {s : ApplyPatch} {w1 : World σ} {w2 : World τ} (hR : R w1.arg w2.arg) :
    SimR R (applyPatchFinalize E1 s w1) (applyPatchFinalize E2 s w2) := by
  unfold applyPatchFinalize
  refine SimR.bind (finalizeLoop_simR hE _ _ _ _ hR) (fun res s w1 w2 hR => .ok hR) (fun s w1 res s' w1' e => ?_)
  cases e
  exact commonFinalize_io _ _

theorem callbacksLoop_simR (hE : SeqSim R E1 E2) (pr1 : PatchRead σ) (pr2 : PatchRead τ)
    (hp : ∀ a b n, R a b → (pr1 a n).1 = 0 → (pr2 b n).1 = 0 ∧ (pr2 b n).2.1 = (pr1 a n).2.1 ∧ R (pr1 a n).2.2 (pr2 b n).2.2) (P : Nat) :
    ∀ (fuel : Nat) (r0 : Int) (off : Nat) (s : ApplyPatch) (w1 : World σ) (w2 : World τ) (rs : Reads), R w1.arg w2.arg →
    ∀ {res s' w1' rs'}, callbacksLoop E1 pr1 P fuel r0 off s w1 rs = .ok (res, s', w1', rs') →
      res = IO_FAILED ∨ ∃ w2', callbacksLoop E2 pr2 P fuel r0 off s w2 rs = .ok (res, s', w2', rs') ∧ R w1'.arg w2'.arg
  | 0, _, _, _, _, _, _, _, _, _, _, _, h => by cases h
  | fuel + 1, r0, off, s, w1, w2, rs, hR, res, s', w1', rs', h => by
    have io : ∀ off s (w : World σ) rs, callbacksLoop E1 pr1 P fuel IO_FAILED off s w rs = .ok (res, s', w1', rs') → res = IO_FAILED := by
      intro off s w rs h
      cases fuel with
      | zero => cases h
      | succ fuel =>
        unfold callbacksLoop at h
        rw [if_neg (fun e => absurd e.2 (by decide))] at h
        cases h; rfl
    unfold callbacksLoop at h ⊢
    by_cases hc : off < P ∧ r0 = 0
    · rw [if_pos hc] at h ⊢
      simp only at h ⊢
      split at h
      · rename_i hz
        have hs := hp w1.arg w2.arg (min (P - off) callbackCap) hR hz
        rw [if_pos hs.1, hs.2.1, hs.1]
        rw [hz] at h
        split at h
        · cases h
        rename_i hl
        rw [if_neg hl]
        simp only [Bind.bind, Except.bind] at h ⊢
        split at h
        · cases h
        rename_i x hx
        rcases applyPatchProcess_simR hE (w2 := ⟨(pr2 w2.arg (min (P - off) callbackCap)).2.2, w2.trace⟩) hs.2.2 x.1 x.2.1 x.2.2 hx with e | ⟨w, e, hR2⟩
        · rw [e] at h
          exact .inl (io _ _ _ _ h)
        · rw [e]
          exact callbacksLoop_simR hE pr1 pr2 hp P fuel _ _ _ _ _ _ hR2 h
      · exact .inl (io _ _ _ _ h)
    · rw [if_neg hc] at h ⊢
      cases h
      exact .inr ⟨w2, rfl, hR⟩

/-- An update that succeeds with the first set succeeds in the same way with the second. -/
theorem applyPatchCallbacks_simR (hE : SeqSim R E1 E2) (pr1 : PatchRead σ) (pr2 : PatchRead τ)
    (hp : ∀ a b n, R a b → (pr1 a n).1 = 0 → (pr2 b n).1 = 0 ∧ (pr2 b n).2.1 = (pr1 a n).2.1 ∧ R (pr1 a n).2.2 (pr2 b n).2.2)
    (P : Nat) (a : σ) (b : τ) (hR : R a b) {res w1 rs} (h : applyPatchCallbacks E1 pr1 P a = .ok (res, w1, rs)) (h0 : 0 ≤ res) :
    ∃ w2, applyPatchCallbacks E2 pr2 P b = .ok (res, w2, rs) ∧ R w1.arg w2.arg := by
  unfold applyPatchCallbacks at h ⊢
  rcases callbacksLoop_ok E1 pr1 P (P + 2) 0 (applyPatchInit P) { arg := a } [] (SInv.start P) (by omega) (by omega) with
    (e | e) | ⟨r1, s1, w, rs1, e, hs, hend⟩
  · rw [e] at h; cases h
  · rw [e] at h; cases h
  rw [e] at h
  simp only [Bind.bind, Except.bind] at h ⊢
  have hz : r1 = 0 := by
    apply Decidable.byContradiction
    intro hz
    rw [if_neg hz] at h
    split at h
    · cases h
    cases h
    cases hend with
    | all _ _ => exact hz rfl
    | failed _ k _ => omega
    | read _ _ => exact absurd h0 (by decide)
  subst hz
  rw [if_pos rfl] at h
  rcases callbacksLoop_simR hE pr1 pr2 hp P _ _ _ _ _ { arg := b } _ hR e with k | ⟨w2, e2, hR2⟩
  · exact absurd k (by decide)
  rw [e2]
  simp only [if_true]
  split at h
  · cases h
  rename_i x hx
  cases h
  rcases applyPatchFinalize_simR hE hR2 x.1 x.2.1 x.2.2 hx with k | ⟨w3, e3, hR3⟩
  · rw [k] at h0; exact absurd h0 (by decide)
  · rw [e3]
    exact ⟨w3, rfl, hR3⟩

end

/-- Stdio and files in memory are at the same point. -/
def SameFiles (patch : Bytes) (view : ν → StdioView) (io : Io ν) (b : Files × ReadFile) : Prop :=
  b.1.pos = (view io.sys).fromPos ∧ b.1.out = (view io.sys).out ∧ b.2.pos = (view io.sys).patchPos ∧ b.2.data = patch

section
variable {S : Stdio ν} {fr patch : Bytes} {view : ν → StdioView}

theorem fileIoEnv_sim (hS : Honest S fr patch view) : SeqSim (SameFiles patch view) (fileIoEnv S) ((fileEnv fr).with ReadFile) where
  read io b n hR h := by
    obtain ⟨h1, h2, h3, h4⟩ := hR
    have h : (fileIoRead S io .from_ n).1 = 0 := h
    show (((fileEnv fr).with ReadFile).fromRead b n).1 = 0 ∧ (((fileEnv fr).with ReadFile).fromRead b n).2.1 = (fileIoRead S io .from_ n).2.1 ∧
      SameFiles patch view (fileIoRead S io .from_ n).2.2 (((fileEnv fr).with ReadFile).fromRead b n).2.2
    simp only [SeqEnv.with, fileEnv]
    unfold fileIoRead at h ⊢
    by_cases hn : n > 0
    · rw [if_pos hn] at h ⊢
      have hr := hS.readFrom io.sys n
      revert h hr
      rcases S.fread io.sys .from_ n with ⟨_ | d, sys⟩
      · intro h; exact absurd h (by decide : FILE_READ_FAILED ≠ 0)
      · intro _ hr
        obtain ⟨r1, r2, r3⟩ := hr d rfl
        simp only at r3
        rw [if_pos (.inr (by rw [h1]; omega))]
        refine ⟨rfl, ?_, ?_⟩
        · show _ = d
          rw [r2, h1]; rfl
        · refine ⟨?_, ?_, ?_, h4⟩
          · show b.1.pos + n = ((view sys).fromPos : Int)
            rw [r3, h1]; simp
          · show b.1.out = (view sys).out
            rw [r3]; exact h2
          · show b.2.pos = (view sys).patchPos
            rw [r3]; exact h3
    · have hn : n = 0 := by omega
      subst hn
      rw [if_neg (c := 0 > 0) (by omega), if_pos (c := 0 = 0 ∨ _) (.inl rfl)]
      exact ⟨rfl, by simp, by simpa using h1, h2, h3, h4⟩
  seek io b n hR h := by
    obtain ⟨h1, h2, h3, h4⟩ := hR
    have h : (S.fseek io.sys .from_ n .cur).1 = 0 := h
    obtain ⟨r1, r2⟩ := hS.seekFrom io.sys n h
    show (((fileEnv fr).with ReadFile).fromSeek b n).1 = 0 ∧ SameFiles patch view (io.fseek S .from_ n .cur).2 (((fileEnv fr).with ReadFile).fromSeek b n).2
    simp only [SeqEnv.with, fileEnv]
    rw [if_neg (by rw [h1]; omega)]
    refine ⟨rfl, ?_, ?_, ?_, h4⟩
    · show b.1.pos + n = ((view (S.fseek io.sys .from_ n .cur).2).fromPos : Int)
      rw [r2, h1]
      simp only
      omega
    · show b.1.out = (view (S.fseek io.sys .from_ n .cur).2).out
      rw [r2]; exact h2
    · show b.2.pos = (view (S.fseek io.sys .from_ n .cur).2).patchPos
      rw [r2]; exact h3
  write io b d hR h := by
    obtain ⟨h1, h2, h3, h4⟩ := hR
    have h : (fileIoToWrite S io d).1 = 0 := h
    show (((fileEnv fr).with ReadFile).toWrite b d).1 = 0 ∧ SameFiles patch view (fileIoToWrite S io d).2 (((fileEnv fr).with ReadFile).toWrite b d).2
    simp only [SeqEnv.with, fileEnv]
    refine ⟨trivial, ?_⟩
    unfold fileIoToWrite at h ⊢
    by_cases hn : d.length > 0
    · rw [if_pos hn] at h ⊢
      have hw := hS.write io.sys d
      revert h hw
      rcases S.fwrite io.sys .to d with ⟨_ | _, sys⟩
      · intro h; exact absurd h (by decide : FILE_WRITE_FAILED ≠ 0)
      · intro _ hw
        have hw := hw rfl
        simp only at hw
        refine ⟨?_, ?_, ?_, h4⟩
        · show b.1.pos = ((view sys).fromPos : Int)
          rw [hw]; exact h1
        · show b.1.out ++ d = (view sys).out
          rw [hw, h2]
        · show b.2.pos = (view sys).patchPos
          rw [hw]; exact h3
    · rw [if_neg hn]
      have : d = [] := by cases d with | nil => rfl | cons _ _ => simp at hn
      subst this
      exact ⟨h1, by simpa using h2, h3, h4⟩

theorem patchRead_sim (hS : Honest S fr patch view) (io : Io ν) (b : Files × ReadFile) (n : Nat) (hR : SameFiles patch view io b)
    (h : (fileIoRead S io .patch n).1 = 0) : (patchReadWith Files fileRead b n).1 = 0 ∧
      (patchReadWith Files fileRead b n).2.1 = (fileIoRead S io .patch n).2.1 ∧
      SameFiles patch view (fileIoRead S io .patch n).2.2 (patchReadWith Files fileRead b n).2.2 := by
  obtain ⟨h1, h2, h3, h4⟩ := hR
  simp only [patchReadWith, fileRead]
  unfold fileIoRead at h ⊢
  by_cases hn : n > 0
  · rw [if_pos hn] at h ⊢
    have hr := hS.readPatch io.sys n
    revert h hr
    rcases S.fread io.sys .patch n with ⟨_ | d, sys⟩
    · intro h; exact absurd h (by decide : FILE_READ_FAILED ≠ 0)
    · intro _ hr
      obtain ⟨r1, r2, r3⟩ := hr d rfl
      simp only at r3
      rw [if_pos (.inr (by rw [h3, h4]; exact r1))]
      refine ⟨rfl, ?_, ?_⟩
      · show _ = d
        rw [r2, h3, h4]
      · refine ⟨?_, ?_, ?_, h4⟩
        · show b.1.pos = ((view sys).fromPos : Int)
          rw [r3]; exact h1
        · show b.1.out = (view sys).out
          rw [r3]; exact h2
        · show b.2.pos + n = (view sys).patchPos
          rw [r3, h3]
  · have hn : n = 0 := by omega
    subst hn
    rw [if_neg (c := 0 > 0) (by omega), if_pos (c := 0 = 0 ∨ _) (.inl rfl)]
    exact ⟨rfl, by simp, h1, h2, by simpa using h3, h4⟩

/-- The size of the patch, if it is found. -/
theorem fileSizeOn_view (hS : Honest S fr patch view) (io : Io ν) (h : (fileSizeOn S io .patch).1.1 = 0) :
    (fileSizeOn S io .patch).1.2 = patch.length ∧ view (fileSizeOn S io .patch).2.sys = { view io.sys with patchPos := 0 } := by
  unfold fileSizeOn at h ⊢
  have e1 : (io.fseek S .patch 0 .end_).1 = 0 → view (io.fseek S .patch 0 .end_).2.sys = _ := hS.seekEnd io.sys
  revert h e1
  rcases io.fseek S .patch 0 .end_ with ⟨r1, io1⟩
  intro h e1
  simp only at h e1 ⊢
  by_cases h1 : r1 ≠ 0
  · rw [if_pos h1] at h; exact absurd h (by decide : FILE_SEEK_FAILED ≠ 0)
  rw [if_neg h1] at h ⊢
  have e1 := e1 (Decidable.not_not.mp h1)
  have e2 : 0 ≤ (io1.ftell S .patch).1 → (io1.ftell S .patch).1 = _ ∧ view (io1.ftell S .patch).2.sys = _ := hS.tell io1.sys
  revert h e2
  rcases io1.ftell S .patch with ⟨z, io2⟩
  intro h e2
  simp only at h e2 ⊢
  by_cases h2 : z ≤ 0
  · rw [if_pos h2] at h; exact absurd h (by decide : FILE_TELL_FAILED ≠ 0)
  rw [if_neg h2] at h ⊢
  have e2 := e2 (by omega)
  have e3 : (io2.fseek S .patch 0 .set).1 = 0 → view (io2.fseek S .patch 0 .set).2.sys = _ := hS.seekSet io2.sys
  revert h e3
  rcases io2.fseek S .patch 0 .set with ⟨r3, io3⟩
  intro h e3
  simp only at h e3 ⊢
  by_cases h3 : r3 ≠ 0
  · rw [if_pos h3] at h; exact absurd h (by decide : FILE_SEEK_FAILED ≠ 0)
  rw [if_neg h3] at h ⊢
  have e3 := e3 (Decidable.not_not.mp h3)
  refine ⟨?_, ?_⟩
  · show z = _
    rw [e2.1, e1]
  · show view io3.sys = _
    rw [e3, e2.2, e1]

/-- Opening the files, if it succeeds. -/
theorem fileIoInitOn_view (hS : Honest S fr patch view) (sys : ν) (h : (fileIoInitOn S { sys := sys }).1.1 = 0) :
    (fileIoInitOn S { sys := sys }).1.2 = patch.length ∧ view (fileIoInitOn S { sys := sys }).2.sys = ⟨0, 0, []⟩ := by
  unfold fileIoInitOn Io.fopen at h ⊢
  have e1 := hS.openFrom sys
  revert h e1
  rcases S.fopen sys .from_ with ⟨_ | _, s1⟩
  · intro h; exact absurd h (by decide : FILE_OPEN_FAILED ≠ 0)
  intro h e1
  have e1 := e1 rfl
  simp only at h e1 ⊢
  have e2 := hS.openTo s1
  revert h e2
  rcases S.fopen s1 .to with ⟨_ | _, s2⟩
  · intro h; exact absurd h (by decide : FILE_OPEN_FAILED ≠ 0)
  intro h e2
  have e2 := e2 rfl
  simp only at h e2 ⊢
  have e3 := hS.openPatch s2
  revert h e3
  rcases S.fopen s2 .patch with ⟨_ | _, s3⟩
  · intro h; exact absurd h (by decide : FILE_OPEN_FAILED ≠ 0)
  intro h e3
  have e3 := e3 rfl
  simp only at h e3 ⊢
  have e4 := fileSizeOn_view hS { sys := s3, opened := [.patch, .to, .from_] }
  revert h e4
  rcases fileSizeOn S { sys := s3, opened := [.patch, .to, .from_] } .patch with ⟨⟨res, size⟩, io⟩
  intro h e4
  simp only at h e4 ⊢
  by_cases hr : res ≠ 0
  · rw [if_pos hr] at h; exact absurd h hr
  rw [if_neg hr]
  have e4 := e4 (Decidable.not_not.mp hr)
  refine ⟨e4.1, ?_⟩
  show view io.sys = _
  rw [e4.2, e3, e2, e1]

theorem fclose_view (hS : Honest S fr patch view) (io : Io ν) (fd : Fd) (h : (io.fclose S fd).1 = 0) :
    view (io.fclose S fd).2.sys = view io.sys := hS.close io.sys fd h

theorem fclose_failed (io : Io ν) (fd : Fd) : (io.fclose S fd).2.closeFailed = (io.closeFailed || decide ((io.fclose S fd).1 ≠ 0)) := rfl

/-- Closing the files, if it succeeds. -/
theorem fileIoCleanupOn_view (hS : Honest S fr patch view) (io : Io ν) (h : (fileIoCleanupOn S io).2.closeFailed = false) :
    view (fileIoCleanupOn S io).2.sys = view io.sys := by
  unfold fileIoCleanupOn at h ⊢
  have e1 := fclose_view hS io .from_
  have c1 := fclose_failed (S := S) io .from_
  revert h e1 c1
  rcases io.fclose S .from_ with ⟨r1, io1⟩
  intro h e1 c1
  simp only at h e1 c1 ⊢
  have e2 := fclose_view hS io1 .to
  have c2 := fclose_failed (S := S) io1 .to
  revert h e2 c2
  rcases io1.fclose S .to with ⟨r2, io2⟩
  intro h e2 c2
  simp only at h e2 c2 ⊢
  have e3 := fclose_view hS io2 .patch
  have c3 := fclose_failed (S := S) io2 .patch
  revert h e3 c3
  rcases io2.fclose S .patch with ⟨r3, io3⟩
  intro h e3 c3
  simp only at h e3 c3 ⊢
  rw [c3, c2, c1] at h
  simp only [ne_eq, Bool.or_eq_false_iff, decide_eq_false_iff_not, Decidable.not_not] at h
  rw [e3 h.2, e2 h.1.2, e1 h.1.1.2]

end
end Detools
