import Verif.Proofs.CStdio
import Verif.Proofs.CCodes
/-
Lemmas for C67: the in-place functions.
-/
namespace Detools

/-- The values that tell that a file function failed. -/
def FileFault (r : Int) : Prop := r = IO_FAILED ∨ r = FILE_SEEK_FAILED ∨ r = FILE_READ_FAILED ∨ r = FILE_WRITE_FAILED

theorem FileFault.neg {r : Int} (h : FileFault r) : r < 0 ∧ r ≠ ALREADY_DONE := by
  rcases h with h | h | h | h <;> subst h <;> decide

/-- What is kept by a step from user state `a` to `b` with this result. -/
def KeptM (I bad : σ → Prop) (a b : σ) (res : Int) : Prop := I a → I b ∧ (¬ bad a → bad b → FileFault res)

/-- Nothing failed from `a` to `b`. -/
def Quiet (I bad : σ → Prop) (a b : σ) : Prop := I a → I b ∧ (¬ bad a → ¬ bad b)

theorem Quiet.same {I bad : σ → Prop} {a : σ} : Quiet I bad a a := fun h => ⟨h, id⟩

theorem Quiet.kept {I bad : σ → Prop} {a b : σ} (h : Quiet I bad a b) (res : Int) : KeptM I bad a b res :=
  fun hi => ⟨(h hi).1, fun h1 h2 => absurd h2 ((h hi).2 h1)⟩

theorem KeptM.same {I bad : σ → Prop} {a : σ} {res : Int} : KeptM I bad a a res := Quiet.same.kept res

theorem KeptM.quiet {I bad : σ → Prop} {a b : σ} {r : Int} (h : KeptM I bad a b r) (hr : ¬ FileFault r) : Quiet I bad a b :=
  fun hi => ⟨(h hi).1, fun h1 h2 => hr ((h hi).2 h1 h2)⟩

theorem KeptM.zero {I bad : σ → Prop} {a b : σ} {r : Int} (h : KeptM I bad a b r) (hr : r = 0) : Quiet I bad a b :=
  h.quiet (fun e => absurd e.neg.1 (by omega))

theorem KeptM.io {I bad : σ → Prop} {a b : σ} {r : Int} (h : KeptM I bad a b r) : KeptM I bad a b IO_FAILED :=
  fun hi => ⟨(h hi).1, fun _ _ => .inl rfl⟩

theorem Quiet.trans {I bad : σ → Prop} {a b c : σ} {r : Int} (h1 : Quiet I bad a b) (h2 : KeptM I bad b c r) : KeptM I bad a c r :=
  fun ha => ⟨(h2 (h1 ha).1).1, fun hb => (h2 (h1 ha).1).2 ((h1 ha).2 hb)⟩

theorem Quiet.trans' {I bad : σ → Prop} {a b c : σ} (h1 : Quiet I bad a b) (h2 : Quiet I bad b c) : Quiet I bad a c :=
  fun ha => ⟨(h2 (h1 ha).1).1, fun hb => (h2 (h1 ha).1).2 ((h1 ha).2 hb)⟩

/-- The callbacks keep `I`, and a state is `bad` only after one on the memory failed. -/
structure WatchedM (E : MemEnv σ) (I bad : σ → Prop) : Prop where
  read : ∀ a addr n, KeptM I bad a (E.memRead a addr n).2.2 (E.memRead a addr n).1
  write : ∀ a addr d, KeptM I bad a (E.memWrite a addr d).2 (E.memWrite a addr d).1
  erase : ∀ a addr n, KeptM I bad a (E.memErase a addr n).2 (E.memErase a addr n).1
  set : ∀ f, E.stepSet = some f → ∀ a n, Quiet I bad a (f a n).2
  get : ∀ f, E.stepGet = some f → ∀ a, Quiet I bad a (f a).2.2

section
variable {E : MemEnv σ} {I bad : σ → Prop}

theorem callStepSet_quiet (hE : WatchedM E I bad) (w : MWorld σ) (n : Int) : Quiet I bad w.arg (callStepSet E w n).2.arg := by
  unfold callStepSet
  split
  · exact .same
  · rename_i f hf
    exact hE.set f hf _ _

theorem isStepCompleted_quiet (hE : WatchedM E I bad) (o : Int) (w : MWorld σ) : Quiet I bad w.arg (isStepCompleted E o w).2.2.arg := by
  unfold isStepCompleted
  split
  · exact .same
  · rename_i f hf
    simp only
    split <;> exact hE.get f hf _

theorem nextStep_quiet (hE : WatchedM E I bad) (s : InPlace) (w : MWorld σ) : Quiet I bad w.arg (nextStep E s w).2.2.arg := by
  unfold nextStep
  split
  · exact .same
  · simp only
    have := isStepCompleted_quiet hE s.ongoingStep w
    split
    · exact this
    · split
      · exact this
      · exact this.trans' (callStepSet_quiet hE _ _)

theorem ipRead_kept (hE : WatchedM E I bad) {o : Int} {w : MWorld σ} {addr n res d w'} (h : ipRead E o w addr n = .ok (res, d, w')) :
    KeptM I bad w.arg w'.arg res := by
  unfold ipRead at h
  simp only at h
  have hq := isStepCompleted_quiet hE o w
  split at h
  · cases h; exact hq.kept _
  split at h
  · cases h; exact hq.kept _
  have hr := hq.trans (hE.read (isStepCompleted E o w).2.2.arg addr n)
  split at h
  · cases h; exact hr
  rename_i hz
  split at h
  · cases h
  · cases h; exact (hr.zero (Decidable.not_not.mp hz)).kept _

theorem ipWrite_kept (hE : WatchedM E I bad) (o : Int) (w : MWorld σ) (addr : Nat) (d : Bytes) :
    KeptM I bad w.arg (ipWrite E o w addr d).2.arg (ipWrite E o w addr d).1 := by
  unfold ipWrite
  simp only
  have hq := isStepCompleted_quiet hE o w
  split
  · exact hq.kept _
  split
  · exact hq.kept _
  exact hq.trans (hE.write (isStepCompleted E o w).2.2.arg addr d)

theorem ipErase_kept (hE : WatchedM E I bad) (o : Int) (w : MWorld σ) (addr n : Nat) :
    KeptM I bad w.arg (ipErase E o w addr n).2.arg (ipErase E o w addr n).1 := by
  unfold ipErase
  simp only
  have hq := isStepCompleted_quiet hE o w
  split
  · exact hq.kept _
  split
  · exact hq.kept _
  exact hq.trans (hE.erase (isStepCompleted E o w).2.2.arg addr n)

theorem copyLoop_kept (hE : WatchedM E I bad) {o : Int} {n ra wa : Nat} : ∀ (fuel off : Nat) (w : MWorld σ) {res w'},
    copyLoop E o n ra wa fuel off w = .ok (res, w') → KeptM I bad w.arg w'.arg res
  | 0, _, _, _, _, h => by cases h
  | fuel + 1, off, w, res, w', h => by
    unfold copyLoop at h
    split at h
    · simp only [Bind.bind, Except.bind] at h
      split at h
      · cases h
      rename_i x hx
      have hk := ipRead_kept hE (res := x.1) (d := x.2.1) (w' := x.2.2) hx
      split at h
      · cases h; exact hk
      rename_i hz
      have hk2 := (hk.zero (Decidable.not_not.mp hz)).trans (ipWrite_kept hE o x.2.2 (sz (wa + off)) x.2.1)
      split at h
      · cases h; exact hk2
      rename_i hz2
      exact (hk2.zero (Decidable.not_not.mp hz2)).trans (copyLoop_kept hE fuel _ _ h)
    · cases h; exact .same

theorem shiftOne_kept (hE : WatchedM E I bad) {s : InPlace} {w : MWorld σ} {ra wa : Nat} {res s' w'}
    (h : shiftOne E s w ra wa = .ok (res, s', w')) : KeptM I bad w.arg w'.arg res := by
  unfold shiftOne at h
  simp only [Bind.bind, Except.bind] at h
  have he := ipErase_kept hE s.ongoingStep w wa s.segmentSize
  split at h
  · cases h; exact he
  rename_i hz
  split at h
  · cases h
  rename_i x hx
  have hk := (he.zero (Decidable.not_not.mp hz)).trans (copyLoop_kept hE _ _ _ (res := x.1) (w' := x.2) hx)
  split at h
  · cases h; exact hk
  rename_i hz2
  have hn := (hk.zero (Decidable.not_not.mp hz2)).trans' (nextStep_quiet hE s x.2)
  simp only [Except.ok.injEq] at h
  rw [h] at hn
  exact hn.kept _

theorem shiftLoop_kept (hE : WatchedM E I bad) : ∀ (n : Nat) (s : InPlace) (w : MWorld σ) (ra wa : Nat) {res s' w'},
    shiftLoop E n s w ra wa = .ok (res, s', w') → KeptM I bad w.arg w'.arg res
  | 0, _, _, _, _, _, _, _, h => by cases h; exact .same
  | n + 1, s, w, ra, wa, res, s', w', h => by
    unfold shiftLoop at h
    simp only [Bind.bind, Except.bind] at h
    split at h
    · cases h
    rename_i x hx
    have hk := shiftOne_kept hE (res := x.1) (s' := x.2.1) (w' := x.2.2) hx
    split at h
    · cases h; exact hk
    rename_i hz
    exact (hk.zero (Decidable.not_not.mp hz)).trans (shiftLoop_kept hE n _ _ _ _ h)

variable [Build]

omit [Build] in
theorem ipInitSize_world {s : InPlace} {w : MWorld σ} {next set res s' w'} (h : ipInitSize s w next set = .ok (res, s', w')) : w' = w := by
  unfold ipInitSize at h
  simp only [Bind.bind, Except.bind] at h
  split at h
  · cases h
  split at h <;> cases h <;> rfl

theorem ipInit_kept (hE : WatchedM E I bad) {s : InPlace} {w : MWorld σ} {res s' w'}
    (h : ipInit E s w = .ok (res, s', w')) : KeptM I bad w.arg w'.arg res := by
  unfold ipInit at h
  split at h
  · unfold ipInitFixedHeader at h
    simp only [Bind.bind, Except.bind] at h
    split at h
    · cases h
    split at h
    · cases h; exact .same
    split at h <;> cases h <;> exact .same
  · rw [ipInitSize_world h]; exact .same
  · rw [ipInitSize_world h]; exact .same
  · rw [ipInitSize_world h]; exact .same
  · rw [ipInitSize_world h]; exact .same
  · unfold ipInitToSize at h
    simp only [Bind.bind, Except.bind] at h
    split at h
    · cases h
    split at h
    · cases h; exact .same
    · cases h; exact .same
    split at h
    · cases h; exact .same
    split at h
    · cases h; exact .same
    split at h
    · split at h
      · cases h
      rename_i x hx
      unfold inPlaceShiftMemory at hx
      split at hx
      · cases hx
      have hk := shiftLoop_kept hE _ _ _ _ _ (res := x.1) (s' := x.2.1) (w' := x.2.2) hx
      split at h
      · cases h; exact hk
      · rename_i hz
        cases h
        exact (hk.zero (Decidable.not_not.mp hz)).kept _
    · cases h; exact .same

theorem ipDfpatchSize_kept (hE : WatchedM E I bad) {s : InPlace} {w : MWorld σ} {res s' w'}
    (h : ipDfpatchSize E s w = .ok (res, s', w')) : KeptM I bad w.arg w'.arg res := by
  unfold ipDfpatchSize at h
  simp only [Bind.bind, Except.bind] at h
  split at h
  · cases h
  split at h
  · cases h; exact .same
  · cases h; exact .same
  split at h
  · cases h; exact .same
  · cases h; exact ipErase_kept hE _ _ _ _

theorem ipSize_world {s : InPlace} {w : MWorld σ} {next res s' w'} (h : ipSize s w next = .ok (res, s', w')) : w' = w := by
  unfold ipSize at h
  simp only [Bind.bind, Except.bind] at h
  split at h
  · cases h
  split at h
  · cases h; rfl
  · cases h; rfl
  split at h <;> cases h <;> rfl

omit [Build] in
theorem ipDataWrite_kept (hE : WatchedM E I bad) {s : InPlace} {w : MWorld σ} {to res s' w'} (h : ipDataWrite E s w to = .ok (res, s', w')) :
    KeptM I bad w.arg w'.arg res := by
  unfold ipDataWrite at h
  simp only at h
  have hk := ipWrite_kept hE s.ongoingStep w (sz (s.segment.toPos + s.segment.toOffset)) to
  split at h
  · cases h; exact hk.io
  · rename_i hz
    cases h
    exact (hk.zero (Decidable.not_not.mp hz)).kept _

theorem ipData_kept (hE : WatchedM E I bad) {s : InPlace} {w : MWorld σ} {next diff res s' w'}
    (h : ipData E s w next diff = .ok (res, s', w')) : KeptM I bad w.arg w'.arg res := by
  unfold ipData at h
  simp only at h
  split at h
  · cases h; exact .same
  split at h
  · cases h
  simp only [Bind.bind, Except.bind] at h
  split at h
  · cases h
  split at h
  · cases h; exact .same
  · cases h; exact .same
  split at h
  · split at h
    · cases h
    rename_i x hx
    have hk := ipRead_kept hE (res := x.1) (d := x.2.1) (w' := x.2.2) hx
    split at h
    · cases h; exact hk.io
    rename_i hz
    split at h
    · cases h
    · exact (hk.zero (Decidable.not_not.mp hz)).trans (ipDataWrite_kept hE h)
  · exact ipDataWrite_kept hE h

theorem ipAdjustment_kept (hE : WatchedM E I bad) {s : InPlace} {w : MWorld σ} {res s' w'}
    (h : ipAdjustment E s w = .ok (res, s', w')) : KeptM I bad w.arg w'.arg res := by
  unfold ipAdjustment at h
  simp only [Bind.bind, Except.bind] at h
  split at h
  · cases h
  split at h
  · cases h; exact .same
  · cases h; exact .same
  split at h
  · cases h; exact (callStepSet_quiet hE w 0).kept _
  split at h
  · cases h; exact (nextStep_quiet hE _ w).kept _
  split at h <;> cases h
  exact .same

theorem ipSwitch_kept (hE : WatchedM E I bad) {s : InPlace} {w : MWorld σ} {res s' w'}
    (h : ipSwitch E s w = .ok (res, s', w')) : KeptM I bad w.arg w'.arg res := by
  unfold ipSwitch at h
  split at h
  · exact ipInit_kept hE h
  · exact ipDfpatchSize_kept hE h
  · rw [ipSize_world h]; exact .same
  · exact ipData_kept hE h
  · rw [ipSize_world h]; exact .same
  · exact ipData_kept hE h
  · exact ipAdjustment_kept hE h
  · cases h; exact .same
  · cases h; exact .same

theorem ipOnce_kept (hE : WatchedM E I bad) {s : InPlace} {w : MWorld σ} {res s' w'}
    (h : ipOnce E s w = .ok (res, s', w')) : KeptM I bad w.arg w'.arg res := by
  unfold ipOnce at h
  split at h
  · cases h; exact .same
  simp only [Bind.bind, Except.bind] at h
  split at h
  · cases h
  rename_i x hx
  have := ipSwitch_kept hE (res := x.1) (s' := x.2.1) (w' := x.2.2) hx
  split at h <;> cases h <;> exact this

theorem ipProcessLoop_kept (hE : WatchedM E I bad) : ∀ (fuel : Nat) (r0 : Int) (s : InPlace) (w : MWorld σ) {res s' w'},
    ipProcessLoop E fuel r0 s w = .ok (res, s', w') → (res = r0 ∧ w' = w) ∨ KeptM I bad w.arg w'.arg res
  | 0, _, _, _, _, _, _, h => by cases h
  | fuel + 1, r0, s, w, res, s', w', h => by
    unfold ipProcessLoop at h
    by_cases hc : s.chunk.available ∧ r0 ≥ 0
    · rw [if_pos hc] at h
      simp only [Bind.bind, Except.bind] at h
      split at h
      · cases h
      rename_i x hx
      have hk := ipOnce_kept hE (res := x.1) (s' := x.2.1) (w' := x.2.2) hx
      by_cases hf : FileFault x.1
      · cases fuel with
        | zero => cases h
        | succ fuel =>
          unfold ipProcessLoop at h
          rw [if_neg (fun e => by have := hf.neg.1; omega)] at h
          cases h
          exact .inr hk
      · rcases ipProcessLoop_kept hE fuel x.1 x.2.1 x.2.2 h with ⟨e1, e2⟩ | h2
        · subst e1 e2; exact .inr hk
        · exact .inr ((hk.quiet hf).trans h2)
    · rw [if_neg hc] at h
      cases h
      exact .inl ⟨rfl, rfl⟩

theorem inPlaceProcess_kept (hE : WatchedM E I bad) {s : InPlace} {w : MWorld σ} {p res s' w'}
    (h : inPlaceProcess E s w p = .ok (res, s', w')) : KeptM I bad w.arg w'.arg res := by
  unfold inPlaceProcess at h
  simp only [Bind.bind, Except.bind] at h
  split at h
  · cases h
  rename_i x hx
  have hk : KeptM I bad w.arg x.2.2.arg x.1 := by
    rcases ipProcessLoop_kept hE _ _ _ _ (res := x.1) (s' := x.2.1) (w' := x.2.2) hx with ⟨-, e⟩ | e
    · rw [e]; exact .same
    · exact e
  split at h
  · rename_i hz
    cases h
    exact (hk.quiet (fun e => by have := e.neg; exact hz.elim (fun k => by omega) this.2)).kept _
  · cases h; exact hk

theorem ipFinalizeLoop_kept (hE : WatchedM E I bad) : ∀ (fuel : Nat) (s : InPlace) (w : MWorld σ) {res s' w'},
    ipFinalizeLoop E fuel s w = .ok (res, s', w') → KeptM I bad w.arg w'.arg res
  | 0, _, _, _, _, _, h => by cases h
  | fuel + 1, s, w, res, s', w', h => by
    unfold ipFinalizeLoop at h
    simp only [Bind.bind, Except.bind] at h
    split at h
    · cases h
    rename_i x hx
    have hk := ipOnce_kept hE (res := x.1) (s' := x.2.1) (w' := x.2.2) hx
    split at h
    · rename_i hz
      exact (hk.zero hz).trans (ipFinalizeLoop_kept hE fuel _ _ h)
    · cases h; exact hk

omit [Build] in
theorem commonFinalize_fault {e : Int} (he : FileFault e) (r : Option CReader) (n : Nat) : commonFinalize e r n = e := by
  rcases he with h | h | h | h <;> subst h <;> cases r <;> rfl

theorem inPlaceFinalize_kept (hE : WatchedM E I bad) {s : InPlace} {w : MWorld σ} {res s' w'}
    (h : inPlaceFinalize E s w = .ok (res, s', w')) : KeptM I bad w.arg w'.arg res := by
  unfold inPlaceFinalize at h
  simp only [Bind.bind, Except.bind] at h
  split at h
  · cases h
  rename_i x hx
  have hk := ipFinalizeLoop_kept hE _ _ _ (res := x.1) (s' := x.2.1) (w' := x.2.2) hx
  cases h
  intro hi
  refine ⟨(hk hi).1, fun h1 h2 => ?_⟩
  have := (hk hi).2 h1 h2
  rw [commonFinalize_fault this]
  exact this

theorem inPlaceCallbacksLoop_kept (hE : WatchedM E I bad) (pr : PatchRead σ)
    (hp : ∀ a n, I a → I (pr a n).2.2 ∧ (¬ bad a → bad (pr a n).2.2 → (pr a n).1 ≠ 0)) (P : Nat) :
    ∀ (fuel : Nat) (r0 : Int) (off : Nat) (s : InPlace) (w : MWorld σ) (rs : Reads) {res s' w' rs'},
    inPlaceCallbacksLoop E pr P fuel r0 off s w rs = .ok (res, s', w', rs') → (res = r0 ∧ w' = w) ∨ KeptM I bad w.arg w'.arg res
  | 0, _, _, _, _, _, _, _, _, _, h => by cases h
  | fuel + 1, r0, off, s, w, rs, res, s', w', rs', h => by
    unfold inPlaceCallbacksLoop at h
    by_cases hc : off < P ∧ r0 = 0
    · rw [if_pos hc] at h
      simp only at h
      have hpr := hp w.arg (min (P - off) callbackCap)
      split at h
      · rename_i hz
        have hk0 : Quiet I bad w.arg (pr w.arg (min (P - off) callbackCap)).2.2 :=
          fun hi => ⟨(hpr hi).1, fun h1 h2 => absurd hz ((hpr hi).2 h1 h2)⟩
        split at h
        · cases h
        simp only [Bind.bind, Except.bind] at h
        split at h
        · cases h
        rename_i x hx
        have hk1 := hk0.trans (inPlaceProcess_kept hE (res := x.1) (s' := x.2.1) (w' := x.2.2) hx)
        by_cases hf : FileFault x.1
        · cases fuel with
          | zero => cases h
          | succ fuel =>
            unfold inPlaceCallbacksLoop at h
            rw [if_neg (fun e => by have := hf.neg.1; omega)] at h
            cases h
            exact .inr hk1
        · rcases inPlaceCallbacksLoop_kept hE pr hp P fuel x.1 _ x.2.1 x.2.2 _ h with ⟨e1, e2⟩ | h2
          · subst e1 e2; exact .inr hk1
          · exact .inr ((hk1.quiet hf).trans h2)
      · cases fuel with
        | zero => cases h
        | succ fuel =>
          unfold inPlaceCallbacksLoop at h
          rw [if_neg (fun e => absurd e.2 (by decide))] at h
          cases h
          exact .inr (fun hi => ⟨(hpr hi).1, fun _ _ => .inl rfl⟩)
    · rw [if_neg hc] at h
      cases h
      exact .inl ⟨rfl, rfl⟩

/-- The whole update keeps `I`, and is a failure if a callback failed. -/
theorem applyPatchInPlaceCallbacks_kept (hE : WatchedM E I bad) (hn : ∀ r, E.Returns r → r ≤ 0) (pr : PatchRead σ)
    (hp : ∀ a n, I a → I (pr a n).2.2 ∧ (¬ bad a → bad (pr a n).2.2 → (pr a n).1 ≠ 0)) (P : Nat) (a : σ) {res w rs}
    (h : applyPatchInPlaceCallbacks E pr P a = .ok (res, w, rs)) (hi : I a) (hb : ¬ bad a) : I w.arg ∧ (0 ≤ res → ¬ bad w.arg) := by
  unfold applyPatchInPlaceCallbacks at h
  simp only [Bind.bind, Except.bind] at h
  split at h
  · cases h
  rename_i v hl
  obtain ⟨r1, s1, w1, rs1⟩ := v
  obtain ⟨-, h2⟩ := inPlaceCallbacksLoop_doc _ (IPState.start P) (.inl rfl) hl
  have hk : KeptM I bad a w1.arg r1 := by
    rcases inPlaceCallbacksLoop_kept hE pr hp P _ _ _ _ _ _ hl with ⟨-, k⟩ | k
    · rw [k]; exact .same
    · exact k
  split at h
  · rename_i hz
    split at h
    · cases h
    rename_i x hx
    cases h
    have hf := (hk.zero hz).trans (inPlaceFinalize_kept hE (res := x.1) (s' := x.2.1) (w' := x.2.2) hx)
    exact ⟨(hf hi).1, fun h0 hbad => by have := ((hf hi).2 hb hbad).neg.1; omega⟩
  · rename_i hz
    split at h
    · cases h
    rename_i x hx
    cases h
    have hf := inPlaceFinalize_kept hE (res := x.1) (s' := x.2.1) (w' := x.2.2) hx
    refine ⟨(hf (hk hi).1).1, fun h0 => ?_⟩
    exfalso
    have hd : ∀ e, DocumentedError e → e ≤ 0 := fun e he => by have := he.2; omega
    rcases h2 with h2 | h2 | h2
    · exact hz h2
    · have := hd _ h2
      simp only at h0 hz; omega
    · have := hn _ h2
      simp only at h0 hz; omega

end

/-- Both files are open, and none was misused. -/
abbrev BothOpen (io : Io ν) : Prop := OpenAre [.patch, .memory] io

theorem fileIoRead_fault (S : Stdio ν) (io : Io ν) (fd : Fd) (n : Nat) :
    (fileIoRead S io fd n).1 = 0 ∨ (fileIoRead S io fd n).1 = FILE_READ_FAILED := by
  unfold fileIoRead
  split
  · rcases S.fread io.sys fd n with ⟨_ | _, sys⟩
    · exact .inr rfl
    · exact .inl rfl
  · exact .inl rfl

theorem inPlaceFileIoMemRead_kept (S : Stdio ν) (io : Io ν) (src n : Nat) :
    KeptM BothOpen (fun io => io.failed = true) io (inPlaceFileIoMemRead S io src n).2.2 (inPlaceFileIoMemRead S io src n).1 ∧
      (inPlaceFileIoMemRead S io src n).1 ≤ 0 := by
  unfold inPlaceFileIoMemRead
  by_cases hn : n > 0
  · rw [if_pos hn]
    have k1 : BothOpen io → _ := fun h => fseek_kept S h (fd := .memory) (by decide) (wrapInt src) .set
    revert k1
    rcases io.fseek S .memory (wrapInt src) .set with ⟨r, io1⟩
    intro k1
    simp only at k1 ⊢
    by_cases hr : r ≠ 0
    · rw [if_pos hr]
      exact ⟨fun h => ⟨(k1 h).1, fun _ _ => .inr (.inl rfl)⟩, (by decide : FILE_SEEK_FAILED ≤ 0)⟩
    · rw [if_neg hr]
      have hr : r = 0 := by omega
      refine ⟨fun h => ?_, ?_⟩
      · have k2 := fileIoRead_kept S io1 (fd := .memory) n (by decide) (k1 h).1
        refine ⟨k2.1, fun h1 h2 => ?_⟩
        rcases fileIoRead_fault S io1 .memory n with e | e
        · exact absurd e (k2.2 (by rw [(k1 h).2 hr]; exact h1) h2)
        · exact .inr (.inr (.inl e))
      · rcases fileIoRead_fault S io1 .memory n with e | e <;> rw [e] <;> decide
  · rw [if_neg hn]
    exact ⟨.same, Int.le_refl 0⟩

theorem inPlaceFileIoMemWrite_kept (S : Stdio ν) (io : Io ν) (dst : Nat) (d : Bytes) :
    KeptM BothOpen (fun io => io.failed = true) io (inPlaceFileIoMemWrite S io dst d).2 (inPlaceFileIoMemWrite S io dst d).1 ∧
      (inPlaceFileIoMemWrite S io dst d).1 ≤ 0 := by
  unfold inPlaceFileIoMemWrite
  by_cases hn : d.length > 0
  · rw [if_pos hn]
    have k1 : BothOpen io → _ := fun h => fseek_kept S h (fd := .memory) (by decide) (wrapInt dst) .set
    revert k1
    rcases io.fseek S .memory (wrapInt dst) .set with ⟨r, io1⟩
    intro k1
    simp only at k1 ⊢
    by_cases hr : r ≠ 0
    · rw [if_pos hr]
      exact ⟨fun h => ⟨(k1 h).1, fun _ _ => .inr (.inl rfl)⟩, (by decide : FILE_SEEK_FAILED ≤ 0)⟩
    · rw [if_neg hr]
      have hr : r = 0 := by omega
      rcases S.fwrite io1.sys .memory d with ⟨ok, sys⟩
      cases ok with
      | false =>
        exact ⟨fun h => ⟨used_open (k1 h).1 (by decide) _ _, fun _ _ => .inr (.inr (.inr rfl))⟩, (by decide : FILE_WRITE_FAILED ≤ 0)⟩
      | true =>
        refine ⟨fun h => ⟨used_open (k1 h).1 (by decide) _ _, fun h1 h2 => absurd ?_ h1⟩, show r ≤ 0 by omega⟩
        show io.failed = true
        rw [← (k1 h).2 hr]
        simpa [Io.used] using h2
  · rw [if_neg hn]
    exact ⟨.same, Int.le_refl 0⟩

theorem inPlaceFileIoEnv_watched (S : Stdio ν) (steps : Steps ν) :
    WatchedM (inPlaceFileIoEnv S steps) BothOpen (fun io => io.failed = true) where
  read io addr n := (inPlaceFileIoMemRead_kept S io addr n).1
  write io addr d := (inPlaceFileIoMemWrite_kept S io addr d).1
  erase io addr n := .same
  set f hf a n := by
    simp only [inPlaceFileIoEnv, Option.map_eq_some_iff] at hf
    obtain ⟨k, -, e⟩ := hf
    subst e
    exact fun h => ⟨h, id⟩
  get f hf a := by
    simp only [inPlaceFileIoEnv, Option.map_eq_some_iff] at hf
    obtain ⟨k, -, e⟩ := hf
    subst e
    exact fun h => ⟨h, id⟩

theorem inPlaceFileIoEnv_np (S : Stdio ν) (steps : Steps ν) (r : Int) (h : (inPlaceFileIoEnv S steps).Returns r) : r ≤ 0 := by
  rcases h with ⟨a, addr, n, h⟩ | ⟨a, addr, d, h⟩ | ⟨a, addr, n, h⟩
  · rw [← h]; exact (inPlaceFileIoMemRead_kept S a addr n).2
  · rw [← h]; exact (inPlaceFileIoMemWrite_kept S a addr d).2
  · rw [← h]; exact Int.le_refl 0

/-- Closing the two files. -/
theorem inPlaceFileIoCleanupOn_kept (S : Stdio ν) (io : Io ν) (h : BothOpen io) :
    (inPlaceFileIoCleanupOn S io).2.opened = [] ∧ (inPlaceFileIoCleanupOn S io).2.misused = false ∧
      (inPlaceFileIoCleanupOn S io).2.failed = io.failed ∧
      ((inPlaceFileIoCleanupOn S io).1 = 0 ↔ (inPlaceFileIoCleanupOn S io).2.closeFailed = false) := by
  rcases io with ⟨sys, opened, misused, failed, closeFailed⟩
  obtain ⟨h1, h2, h3⟩ := h
  simp only at h1 h2 h3
  subst h1 h2 h3
  have key (r1 r2 : Int) : ((if r1 ≠ 0 ∨ r2 ≠ 0 then FILE_CLOSE_FAILED else r1) = 0 ↔
      ((false || decide (r1 ≠ 0)) || decide (r2 ≠ 0)) = false) := by
    by_cases e1 : r1 = 0 <;> by_cases e2 : r2 = 0 <;> simp [e1, e2, FILE_CLOSE_FAILED]
  exact ⟨rfl, rfl, rfl, key _ _⟩

/-- Opening the files: both or none. -/
theorem inPlaceFileIoInitOn_kept (S : Stdio ν) (sys : ν) :
    ((inPlaceFileIoInitOn S { sys := sys }).1.1 = 0 ∧ 0 < (inPlaceFileIoInitOn S { sys := sys }).1.2 ∧
      BothOpen (inPlaceFileIoInitOn S { sys := sys }).2 ∧ (inPlaceFileIoInitOn S { sys := sys }).2.failed = false) ∨
    ((inPlaceFileIoInitOn S { sys := sys }).1.1 < 0 ∧ (inPlaceFileIoInitOn S { sys := sys }).2.opened = [] ∧
      (inPlaceFileIoInitOn S { sys := sys }).2.misused = false) := by
  unfold inPlaceFileIoInitOn Io.fopen
  try simp only
  rcases S.fopen sys .memory with ⟨o2, s2⟩
  cases o2 with
  | false => exact .inr ⟨(by decide : FILE_OPEN_FAILED < 0), rfl, rfl⟩
  | true =>
    try simp only
    rcases S.fopen s2 .patch with ⟨o3, s3⟩
    cases o3 with
    | false => exact .inr ⟨(by decide : FILE_OPEN_FAILED < 0), rfl, rfl⟩
    | true =>
      try simp only
      have hk := fileSizeOn_kept S { sys := s3, opened := [.patch, .memory] } (L := [.patch, .memory]) (by decide) ⟨rfl, rfl, rfl⟩
      rcases hz : fileSizeOn S { sys := s3, opened := [.patch, .memory] } .patch with ⟨⟨res, size⟩, io⟩
      rw [hz] at hk
      simp only at hk ⊢
      by_cases hr : res ≠ 0
      · rw [if_pos hr]
        rcases io with ⟨sys, opened, misused, failed, closeFailed⟩
        obtain ⟨⟨h1, h2, h3⟩, -, h5⟩ := hk
        simp only at h1 h2 h3
        subst h1 h2 h3
        exact .inr ⟨by simp only; omega, rfl, rfl⟩
      · rw [if_neg hr]
        have hr : res = 0 := by omega
        exact .inl ⟨hr, (hk.2.1 hr).2, hk.1, (hk.2.1 hr).1⟩

end Detools
