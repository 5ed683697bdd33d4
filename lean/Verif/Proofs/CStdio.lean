import Verif.Model.CStdio
import Verif.Proofs.CCallbacks
/-
Lemmas for C67.
-/
namespace Detools

/-- The callbacks keep `I`, and a state is `bad` only after one of them failed. -/
structure Watched (E : SeqEnv σ) (I bad : σ → Prop) : Prop where
  read : ∀ a n, I a → I (E.fromRead a n).2.2 ∧ (¬ bad a → bad (E.fromRead a n).2.2 → (E.fromRead a n).1 ≠ 0)
  seek : ∀ a n, I a → I (E.fromSeek a n).2 ∧ (¬ bad a → bad (E.fromSeek a n).2 → (E.fromSeek a n).1 ≠ 0)
  write : ∀ a d, I a → I (E.toWrite a d).2 ∧ (¬ bad a → bad (E.toWrite a d).2 → (E.toWrite a d).1 ≠ 0)

/-- What is kept by a step from user state `a` to `b` with this result. -/
def Kept (I bad : σ → Prop) (a b : σ) (res : Int) : Prop := I a → I b ∧ (¬ bad a → bad b → res = IO_FAILED)

theorem Kept.same {I bad : σ → Prop} {a : σ} {res : Int} : Kept I bad a a res := fun h => ⟨h, fun h1 h2 => absurd h2 h1⟩

theorem Kept.trans {I bad : σ → Prop} {a b c : σ} {r1 r2 : Int} (h1 : Kept I bad a b r1) (hr : r1 ≠ IO_FAILED) (h2 : Kept I bad b c r2) :
    Kept I bad a c r2 := fun ha =>
  ⟨(h2 (h1 ha).1).1, fun hb => (h2 (h1 ha).1).2 (fun e => hr ((h1 ha).2 hb e))⟩

section
variable [Build] {E : SeqEnv σ} {I bad : σ → Prop}

theorem processInit_world {s : ApplyPatch} {w : World σ} {res s' w'} (h : processInit s w = .ok (res, s', w')) : w' = w := by
  unfold processInit at h
  split at h
  · unfold processInitFixedHeader at h
    simp only [Bind.bind, Except.bind] at h
    split at h
    · cases h
    split at h
    · cases h; rfl
    split at h <;> cases h <;> rfl
  · unfold processInitToSize at h
    simp only [Bind.bind, Except.bind] at h
    split at h
    · cases h
    split at h
    · cases h; rfl
    · cases h; rfl
    split at h
    · cases h; rfl
    split at h
    · cases h; rfl
    split at h <;> cases h <;> rfl

theorem processDfpatchSize_world {s : ApplyPatch} {w : World σ} {res s' w'} (h : processDfpatchSize s w = .ok (res, s', w')) : w' = w := by
  unfold processDfpatchSize at h
  simp only [Bind.bind, Except.bind] at h
  split at h
  · cases h
  split at h
  · cases h; rfl
  · cases h; rfl
  split at h <;> cases h <;> rfl

theorem processSize_world {s : ApplyPatch} {w : World σ} {next res s' w'} (h : processSize s w next = .ok (res, s', w')) : w' = w := by
  unfold processSize at h
  simp only [Bind.bind, Except.bind] at h
  split at h
  · cases h
  split at h
  · cases h; rfl
  · cases h; rfl
  split at h <;> cases h <;> rfl

theorem processWrite_kept (hE : Watched E I bad) {s : ApplyPatch} {w : World σ} {to res s' w'} (h : processWrite E s w to = .ok (res, s', w')) :
    Kept I bad w.arg w'.arg res := by
  unfold processWrite at h
  simp only at h
  have := hE.write w.arg to
  split at h
  · cases h
    exact fun hi => ⟨(this hi).1, fun _ _ => rfl⟩
  · rename_i hz
    cases h
    exact fun hi => ⟨(this hi).1, fun h1 h2 => absurd ((this hi).2 h1 h2) hz⟩

theorem processData_kept (hE : Watched E I bad) {s : ApplyPatch} {w : World σ} {next diff res s' w'}
    (h : processData E s w next diff = .ok (res, s', w')) : Kept I bad w.arg w'.arg res := by
  unfold processData at h
  simp only at h
  split at h
  · cases h; exact .same
  split at h
  · cases h
  simp only [Bind.bind, Except.bind] at h
  split at h
  · cases h
  split at h
  · cases h; exact .same
  · cases h; exact .same
  rename_i to r c _
  split at h
  · have := hE.read w.arg to.length
    split at h
    · cases h
      exact fun hi => ⟨(this hi).1, fun _ _ => rfl⟩
    · rename_i hz
      split at h
      · cases h
      · exact Kept.trans (r1 := 0) (fun hi => ⟨(this hi).1, fun h1 h2 => absurd ((this hi).2 h1 h2) hz⟩) (by decide) (processWrite_kept hE h)
  · exact processWrite_kept hE h

theorem processAdjustment_kept (hE : Watched E I bad) {s : ApplyPatch} {w : World σ} {res s' w'}
    (h : processAdjustment E s w = .ok (res, s', w')) : Kept I bad w.arg w'.arg res := by
  unfold processAdjustment at h
  simp only [Bind.bind, Except.bind] at h
  split at h
  · cases h
  split at h
  · cases h; exact .same
  · cases h; exact .same
  rename_i offset s1 _
  have := hE.seek w.arg offset
  split at h
  · cases h
    exact fun hi => ⟨(this hi).1, fun _ _ => rfl⟩
  · rename_i hz
    have hk : Kept I bad w.arg (E.fromSeek w.arg offset).2 0 := fun hi => ⟨(this hi).1, fun h1 h2 => absurd ((this hi).2 h1 h2) hz⟩
    split at h
    · cases h
    split at h <;> cases h <;> exact hk

theorem processSwitch_kept (hE : Watched E I bad) {s : ApplyPatch} {w : World σ} {res s' w'}
    (h : processSwitch E s w = .ok (res, s', w')) : Kept I bad w.arg w'.arg res := by
  unfold processSwitch at h
  split at h
  · rw [processInit_world h]; exact .same
  · rw [processDfpatchSize_world h]; exact .same
  · rw [processSize_world h]; exact .same
  · exact processData_kept hE h
  · rw [processSize_world h]; exact .same
  · exact processData_kept hE h
  · exact processAdjustment_kept hE h
  · cases h; exact .same
  · cases h; exact .same

theorem processOnce_kept (hE : Watched E I bad) {s : ApplyPatch} {w : World σ} {res s' w'}
    (h : processOnce E s w = .ok (res, s', w')) : Kept I bad w.arg w'.arg res := by
  unfold processOnce at h
  split at h
  · cases h; exact .same
  simp only [Bind.bind, Except.bind] at h
  split at h
  · cases h
  rename_i x hx
  have := processSwitch_kept hE (res := x.1) (s' := x.2.1) (w' := x.2.2) hx
  split at h <;> cases h <;> exact this

theorem processLoop_kept (hE : Watched E I bad) : ∀ (fuel : Nat) (r0 : Int) (s : ApplyPatch) (w : World σ) {res s' w'},
    processLoop E fuel r0 s w = .ok (res, s', w') → (res = r0 ∧ w' = w) ∨ Kept I bad w.arg w'.arg res
  | 0, _, _, _, _, _, _, h => by cases h
  | fuel + 1, r0, s, w, res, s', w', h => by
    unfold processLoop at h
    by_cases hc : s.chunk.available ∧ r0 ≥ 0
    · rw [if_pos hc] at h
      simp only [Bind.bind, Except.bind] at h
      split at h
      · cases h
      rename_i x hx
      have hk := processOnce_kept hE (res := x.1) (s' := x.2.1) (w' := x.2.2) hx
      by_cases hf : x.1 = IO_FAILED
      · cases fuel with
        | zero => cases h
        | succ fuel =>
          unfold processLoop at h
          rw [if_neg (by rw [hf]; exact fun e => absurd e.2 (by decide))] at h
          cases h
          exact .inr hk
      · rcases processLoop_kept hE fuel x.1 x.2.1 x.2.2 h with ⟨e1, e2⟩ | h2
        · subst e1 e2; exact .inr hk
        · exact .inr (hk.trans hf h2)
    · rw [if_neg hc] at h
      cases h
      exact .inl ⟨rfl, rfl⟩

theorem applyPatchProcess_kept (hE : Watched E I bad) {s : ApplyPatch} {w : World σ} {p res s' w'}
    (h : applyPatchProcess E s w p = .ok (res, s', w')) : Kept I bad w.arg w'.arg res := by
  unfold applyPatchProcess at h
  simp only [Bind.bind, Except.bind] at h
  split at h
  · cases h
  rename_i x hx
  have hk : Kept I bad w.arg x.2.2.arg x.1 := by
    rcases processLoop_kept hE _ _ _ _ (res := x.1) (s' := x.2.1) (w' := x.2.2) hx with ⟨-, e⟩ | e
    · rw [e]; exact .same
    · exact e
  split at h
  · rename_i hz
    cases h
    intro hi
    refine ⟨(hk hi).1, fun h1 h2 => ?_⟩
    have := (hk hi).2 h1 h2
    rw [this] at hz
    exact absurd hz (by decide)
  · cases h; exact hk

theorem finalizeLoop_kept (hE : Watched E I bad) : ∀ (fuel : Nat) (s : ApplyPatch) (w : World σ) {res s' w'},
    finalizeLoop E fuel s w = .ok (res, s', w') → Kept I bad w.arg w'.arg res
  | 0, _, _, _, _, _, h => by cases h
  | fuel + 1, s, w, res, s', w', h => by
    unfold finalizeLoop at h
    simp only [Bind.bind, Except.bind] at h
    split at h
    · cases h
    rename_i x hx
    have hk := processOnce_kept hE (res := x.1) (s' := x.2.1) (w' := x.2.2) hx
    split at h
    · rename_i hz
      exact hk.trans (by rw [hz]; decide) (finalizeLoop_kept hE fuel _ _ h)
    · cases h; exact hk

theorem commonFinalize_io (r : Option CReader) (n : Nat) : commonFinalize IO_FAILED r n = IO_FAILED := by
  unfold commonFinalize
  cases r with
  | none => rfl
  | some r => rfl

theorem applyPatchFinalize_kept (hE : Watched E I bad) {s : ApplyPatch} {w : World σ} {res s' w'}
    (h : applyPatchFinalize E s w = .ok (res, s', w')) : Kept I bad w.arg w'.arg res := by
  unfold applyPatchFinalize at h
  simp only [Bind.bind, Except.bind] at h
  split at h
  · cases h
  rename_i x hx
  have hk := finalizeLoop_kept hE _ _ _ (res := x.1) (s' := x.2.1) (w' := x.2.2) hx
  cases h
  intro hi
  refine ⟨(hk hi).1, fun h1 h2 => ?_⟩
  rw [(hk hi).2 h1 h2, commonFinalize_io]

theorem callbacksLoop_kept (hE : Watched E I bad) (pr : PatchRead σ)
    (hp : ∀ a n, I a → I (pr a n).2.2 ∧ (¬ bad a → bad (pr a n).2.2 → (pr a n).1 ≠ 0)) (P : Nat) :
    ∀ (fuel : Nat) (r0 : Int) (off : Nat) (s : ApplyPatch) (w : World σ) (rs : Reads) {res s' w' rs'},
    callbacksLoop E pr P fuel r0 off s w rs = .ok (res, s', w', rs') → (res = r0 ∧ w' = w) ∨ Kept I bad w.arg w'.arg res
  | 0, _, _, _, _, _, _, _, _, _, h => by cases h
  | fuel + 1, r0, off, s, w, rs, res, s', w', rs', h => by
    unfold callbacksLoop at h
    by_cases hc : off < P ∧ r0 = 0
    · rw [if_pos hc] at h
      simp only at h
      have hpr := hp w.arg (min (P - off) callbackCap)
      split at h
      · rename_i hz
        have hk0 : Kept I bad w.arg (pr w.arg (min (P - off) callbackCap)).2.2 0 :=
          fun hi => ⟨(hpr hi).1, fun h1 h2 => absurd hz ((hpr hi).2 h1 h2)⟩
        split at h
        · cases h
        simp only [Bind.bind, Except.bind] at h
        split at h
        · cases h
        rename_i x hx
        have hk := applyPatchProcess_kept hE (res := x.1) (s' := x.2.1) (w' := x.2.2) hx
        have hk1 := hk0.trans (by decide) hk
        by_cases hf : x.1 = IO_FAILED
        · cases fuel with
          | zero => cases h
          | succ fuel =>
            unfold callbacksLoop at h
            rw [if_neg (by rw [hf]; exact fun e => absurd e.2 (by decide))] at h
            cases h
            exact .inr hk1
        · rcases callbacksLoop_kept hE pr hp P fuel x.1 _ x.2.1 x.2.2 _ h with ⟨e1, e2⟩ | h2
          · subst e1 e2; exact .inr hk1
          · exact .inr (hk1.trans hf h2)
      · cases fuel with
        | zero => cases h
        | succ fuel =>
          unfold callbacksLoop at h
          rw [if_neg (fun e => absurd e.2 (by decide))] at h
          cases h
          exact .inr (fun hi => ⟨(hpr hi).1, fun _ _ => rfl⟩)
    · rw [if_neg hc] at h
      cases h
      exact .inl ⟨rfl, rfl⟩

/-- The whole update keeps `I`, and is a failure if a callback failed. -/
theorem applyPatchCallbacks_kept (hE : Watched E I bad) (pr : PatchRead σ)
    (hp : ∀ a n, I a → I (pr a n).2.2 ∧ (¬ bad a → bad (pr a n).2.2 → (pr a n).1 ≠ 0)) (P : Nat) (a : σ) {res w rs}
    (h : applyPatchCallbacks E pr P a = .ok (res, w, rs)) (hi : I a) (hb : ¬ bad a) : I w.arg ∧ (0 ≤ res → ¬ bad w.arg) := by
  unfold applyPatchCallbacks at h
  rcases callbacksLoop_ok E pr P (P + 2) 0 (applyPatchInit P) { arg := a } [] (SInv.start P) (by omega) (by omega) with
    (e | e) | ⟨r1, s1, w1, rs1, e, hs, hend⟩
  · rw [e] at h; cases h
  · rw [e] at h; cases h
  rw [e] at h
  simp only [Bind.bind, Except.bind] at h
  have hk : Kept I bad a w1.arg r1 := by
    rcases callbacksLoop_kept hE pr hp P _ _ _ _ _ _ e with ⟨-, k⟩ | k
    · rw [k]; exact .same
    · exact k
  by_cases hz : r1 = 0
  · rw [if_pos hz] at h
    split at h
    · cases h
    rename_i x hx
    cases h
    have hf := applyPatchFinalize_kept hE (res := x.1) (s' := x.2.1) (w' := x.2.2) hx
    have := (hk.trans (by rw [hz]; decide) hf) hi
    refine ⟨this.1, fun h0 hbad => ?_⟩
    have := this.2 hb hbad
    rw [this] at h0
    exact absurd h0 (by decide)
  · rw [if_neg hz] at h
    split at h
    · cases h
    rename_i x hx
    cases h
    have hf := applyPatchFinalize_kept hE (res := x.1) (s' := x.2.1) (w' := x.2.2) hx
    refine ⟨(hf (hk hi).1).1, fun h0 => ?_⟩
    exfalso
    cases hend with
    | all _ _ => exact hz rfl
    | failed _ k _ => omega
    | read _ _ => exact absurd h0 (by decide)

end

/-- These files are open, and none was misused. -/
def OpenAre (L : List Fd) (io : Io ν) : Prop := io.opened = L ∧ io.misused = false ∧ io.closeFailed = false

/-- All three files are open, and none was misused. -/
abbrev AllOpen (io : Io ν) : Prop := OpenAre [.patch, .to, .from_] io

theorem used_open {io : Io ν} {L : List Fd} (h : OpenAre L io) {fd : Fd} (hf : fd ∈ L) (sys : ν) (ok : Bool) : OpenAre L (io.used fd sys ok) := by
  refine ⟨h.1, ?_, h.2.2⟩
  show (io.misused || !decide (fd ∈ io.opened)) = false
  rw [h.1, h.2.1, decide_eq_true hf]
  rfl

theorem fileIoRead_kept (S : Stdio ν) (io : Io ν) {fd : Fd} (n : Nat) {L : List Fd} (hf : fd ∈ L) (h : OpenAre L io) :
    OpenAre L (fileIoRead S io fd n).2.2 ∧ (¬ io.failed = true → (fileIoRead S io fd n).2.2.failed = true → (fileIoRead S io fd n).1 ≠ 0) := by
  unfold fileIoRead
  by_cases hn : n > 0
  · rw [if_pos hn]
    rcases S.fread io.sys fd n with ⟨d, sys⟩
    cases d with
    | none => exact ⟨used_open h hf _ _, fun _ _ => (by decide : FILE_READ_FAILED ≠ 0)⟩
    | some d => exact ⟨used_open h hf _ _, fun h1 h2 => absurd (show io.failed = true by simpa [Io.used] using h2) h1⟩
  · rw [if_neg hn]
    exact ⟨h, fun h1 h2 => absurd h2 h1⟩

theorem fileIoEnv_watched (S : Stdio ν) : Watched (fileIoEnv S) AllOpen (fun io => io.failed = true) where
  read io n h := fileIoRead_kept S io n (by decide) h
  seek io n h := by
    have hf : Fd.from_ ∈ [Fd.patch, .to, .from_] := by decide
    show AllOpen (io.fseek S .from_ n .cur).2 ∧ (_ → (io.fseek S .from_ n .cur).2.failed = true → (io.fseek S .from_ n .cur).1 ≠ 0)
    unfold Io.fseek
    rcases S.fseek io.sys .from_ n .cur with ⟨r, sys⟩
    refine ⟨used_open h hf _ _, fun h1 h2 hr => h1 ?_⟩
    simpa [Io.used, show r = 0 from hr] using h2
  write io d h := by
    have hf : Fd.to ∈ [Fd.patch, .to, .from_] := by decide
    show AllOpen (fileIoToWrite S io d).2 ∧ (_ → (fileIoToWrite S io d).2.failed = true → (fileIoToWrite S io d).1 ≠ 0)
    unfold fileIoToWrite
    by_cases hn : d.length > 0
    · rw [if_pos hn]
      rcases S.fwrite io.sys .to d with ⟨ok, sys⟩
      cases ok with
      | false => exact ⟨used_open h hf _ _, fun _ _ => (by decide : FILE_WRITE_FAILED ≠ 0)⟩
      | true => exact ⟨used_open h hf _ _, fun h1 h2 => absurd (show io.failed = true by simpa [Io.used] using h2) h1⟩
    · rw [if_neg hn]
      exact ⟨h, fun h1 h2 => absurd h2 h1⟩

theorem fseek_kept (S : Stdio ν) {io : Io ν} {L : List Fd} (h : OpenAre L io) {fd : Fd} (hf : fd ∈ L) (o : Int) (wh : Whence) :
    OpenAre L (io.fseek S fd o wh).2 ∧ ((io.fseek S fd o wh).1 = 0 → (io.fseek S fd o wh).2.failed = io.failed) := by
  refine ⟨used_open h hf _ _, fun e => ?_⟩
  show (io.failed || !decide ((S.fseek io.sys fd o wh).1 = 0)) = io.failed
  rw [show (S.fseek io.sys fd o wh).1 = 0 from e]
  simp

theorem ftell_kept (S : Stdio ν) {io : Io ν} {L : List Fd} (h : OpenAre L io) {fd : Fd} (hf : fd ∈ L) :
    OpenAre L (io.ftell S fd).2 ∧ (0 ≤ (io.ftell S fd).1 → (io.ftell S fd).2.failed = io.failed) := by
  refine ⟨used_open h hf _ _, fun e => ?_⟩
  show (io.failed || !decide (0 ≤ (S.ftell io.sys fd).1)) = io.failed
  rw [decide_eq_true (show 0 ≤ (S.ftell io.sys fd).1 from e)]
  simp

/-- The size of an open file: it stays open. -/
theorem fileSizeOn_kept (S : Stdio ν) (io : Io ν) {L : List Fd} (hf : Fd.patch ∈ L) (h : OpenAre L io) :
    OpenAre L (fileSizeOn S io .patch).2 ∧
      ((fileSizeOn S io .patch).1.1 = 0 → (fileSizeOn S io .patch).2.failed = io.failed ∧ 0 < (fileSizeOn S io .patch).1.2) ∧
      (fileSizeOn S io .patch).1.1 ≤ 0 := by
  unfold fileSizeOn
  have k1 := fseek_kept S h hf 0 .end_
  revert k1
  rcases io.fseek S .patch 0 .end_ with ⟨r1, io1⟩
  intro k1
  simp only at k1 ⊢
  by_cases h1 : r1 ≠ 0
  · rw [if_pos h1]
    exact ⟨k1.1, fun e => absurd e (by decide : FILE_SEEK_FAILED ≠ 0), (by decide : FILE_SEEK_FAILED ≤ 0)⟩
  rw [if_neg h1]
  have k2 := ftell_kept S k1.1 hf
  revert k2
  rcases io1.ftell S .patch with ⟨z, io2⟩
  intro k2
  simp only at k2 ⊢
  by_cases h2 : z ≤ 0
  · rw [if_pos h2]
    exact ⟨k2.1, fun e => absurd e (by decide : FILE_TELL_FAILED ≠ 0), (by decide : FILE_TELL_FAILED ≤ 0)⟩
  rw [if_neg h2]
  have k3 := fseek_kept S k2.1 hf 0 .set
  revert k3
  rcases io2.fseek S .patch 0 .set with ⟨r3, io3⟩
  intro k3
  simp only at k3 ⊢
  by_cases h3 : r3 ≠ 0
  · rw [if_pos h3]
    exact ⟨k3.1, fun e => absurd e (by decide : FILE_SEEK_FAILED ≠ 0), (by decide : FILE_SEEK_FAILED ≤ 0)⟩
  rw [if_neg h3]
  have e3 : r3 = 0 := by omega
  refine ⟨k3.1, fun _ => ⟨?_, show 0 < z by omega⟩, show r3 ≤ 0 by omega⟩
  show io3.failed = io.failed
  rw [k3.2 e3, k2.2 (by omega), k1.2 (by omega)]

/-- Closing the three files in the order of the clean up. -/
theorem fileIoCleanupOn_kept (S : Stdio ν) (io : Io ν) (h : AllOpen io) :
    (fileIoCleanupOn S io).2.opened = [] ∧ (fileIoCleanupOn S io).2.misused = false ∧ (fileIoCleanupOn S io).2.failed = io.failed ∧
      ((fileIoCleanupOn S io).1 = 0 ↔ (fileIoCleanupOn S io).2.closeFailed = false) ∧ (fileIoCleanupOn S io).1 ≤ 0 := by
  rcases io with ⟨sys, opened, misused, failed, closeFailed⟩
  obtain ⟨h1, h2, h3⟩ := h
  simp only at h1 h2 h3
  subst h1 h2 h3
  have key (r1 r2 r3 : Int) : ((if r1 ≠ 0 ∨ r2 ≠ 0 ∨ r3 ≠ 0 then FILE_CLOSE_FAILED else r1) = 0 ↔
      (((false || decide (r1 ≠ 0)) || decide (r2 ≠ 0)) || decide (r3 ≠ 0)) = false) ∧
      (if r1 ≠ 0 ∨ r2 ≠ 0 ∨ r3 ≠ 0 then FILE_CLOSE_FAILED else r1) ≤ 0 := by
    by_cases e1 : r1 = 0 <;> by_cases e2 : r2 = 0 <;> by_cases e3 : r3 = 0 <;> simp [e1, e2, e3, FILE_CLOSE_FAILED]
  exact ⟨rfl, rfl, rfl, (key _ _ _).1, (key _ _ _).2⟩

/-- Opening the files: all or none. -/
theorem fileIoInitOn_kept (S : Stdio ν) (sys : ν) :
    ((fileIoInitOn S { sys := sys }).1.1 = 0 ∧ 0 < (fileIoInitOn S { sys := sys }).1.2 ∧ AllOpen (fileIoInitOn S { sys := sys }).2 ∧
      (fileIoInitOn S { sys := sys }).2.failed = false) ∨
    ((fileIoInitOn S { sys := sys }).1.1 < 0 ∧ (fileIoInitOn S { sys := sys }).2.opened = [] ∧ (fileIoInitOn S { sys := sys }).2.misused = false) := by
  unfold fileIoInitOn Io.fopen
  try simp only
  rcases S.fopen sys .from_ with ⟨o1, s1⟩
  cases o1 with
  | false => exact .inr ⟨(by decide : FILE_OPEN_FAILED < 0), rfl, rfl⟩
  | true =>
    try simp only
    rcases S.fopen s1 .to with ⟨o2, s2⟩
    cases o2 with
    | false => exact .inr ⟨(by decide : FILE_OPEN_FAILED < 0), rfl, rfl⟩
    | true =>
      try simp only
      rcases S.fopen s2 .patch with ⟨o3, s3⟩
      cases o3 with
      | false => exact .inr ⟨(by decide : FILE_OPEN_FAILED < 0), rfl, rfl⟩
      | true =>
        try simp only
        have hk := fileSizeOn_kept S { sys := s3, opened := [.patch, .to, .from_] } (L := [.patch, .to, .from_]) (by decide) ⟨rfl, rfl, rfl⟩
        rcases hz : fileSizeOn S { sys := s3, opened := [.patch, .to, .from_] } .patch with ⟨⟨res, size⟩, io⟩
        rw [hz] at hk
        simp only at hk ⊢
        by_cases hr : res ≠ 0
        · rw [if_pos hr]
          rcases io with ⟨sys, opened, misused, failed, closeFailed⟩
          obtain ⟨⟨h1, h2, h3⟩, -, h5⟩ := hk
          simp only at h1 h2 h3
          subst h1 h2 h3
          exact .inr ⟨by simp only; omega, rfl, rfl⟩
        · rw [if_neg hr]
          have hr : res = 0 := by omega
          exact .inl ⟨hr, (hk.2.1 hr).2, hk.1, (hk.2.1 hr).1⟩

end Detools
