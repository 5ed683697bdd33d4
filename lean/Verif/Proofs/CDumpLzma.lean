import Verif.Spec.CDumpRestore
/-
The program of c/examples/dump_restore/main.c and patches compressed with LZMA.
-/
namespace Detools
variable [Build]

/-- What the header byte selected stays selected. -/
structure Selected (k : Nat) (s : ApplyPatch) : Prop where
  comp : s.compression = k
  past : s.state = .init → s.initState = .toSize

theorem unpackSize_selected {k : Nat} {s : ApplyPatch} (h : Selected k s) {v s'} (hu : s.unpackSize = .ok (v, s')) : Selected k s' := by
  unfold ApplyPatch.unpackSize at hu
  cases hr : s.reader with
  | none => rw [hr] at hu; cases hu
  | some r =>
    rw [hr] at hu
    simp only [Bind.bind, Except.bind] at hu
    generalize patchReaderUnpackSize r s.chunk s.readerSize = x at hu
    cases x with
    | error e => cases hu
    | ok x => cases hu; exact ⟨h.comp, h.past⟩

omit [Build] in
theorem processWrite_selected {k : Nat} {E : SeqEnv σ} {s : ApplyPatch} {w : World σ} {to : Bytes} (h : Selected k s) {res s' w'}
    (hp : processWrite E s w to = .ok (res, s', w')) : Selected k s' := by
  unfold processWrite at hp
  simp only [] at hp
  by_cases hc : (E.toWrite w.arg to).1 ≠ 0
  · rw [if_pos hc] at hp; cases hp; exact ⟨h.comp, h.past⟩
  · rw [if_neg hc] at hp; cases hp; exact ⟨h.comp, h.past⟩

theorem processSwitch_selected {k : Nat} {E : SeqEnv σ} {s : ApplyPatch} {w : World σ} (h : Selected k s) {res s' w'}
    (hp : processSwitch E s w = .ok (res, s', w')) : Selected k s' := by
  unfold processSwitch at hp
  cases hst : s.state with
  | init =>
    rw [hst] at hp
    simp only [processInit, h.past hst, processInitToSize, Bind.bind, Except.bind] at hp
    generalize chunkUnpackHeaderSize (s.chunk.left + 1) s.chunk s.size = x at hp
    rcases x with e | ⟨v, c, z⟩
    · cases hp
    cases v with
    | more => cases hp; exact ⟨h.comp, fun _ => rfl⟩
    | fail e => cases hp; exact ⟨h.comp, fun _ => rfl⟩
    | value n =>
      simp only [] at hp
      generalize CReader.init _ s.compression = r at hp
      cases r with
      | none => cases hp; exact ⟨h.comp, fun _ => rfl⟩
      | some r =>
        simp only [] at hp
        by_cases h1 : n < 0
        · rw [if_pos h1] at hp; cases hp; exact ⟨h.comp, fun _ => rfl⟩
        · rw [if_neg h1] at hp
          by_cases h2 : n > 0
          · rw [if_pos h2] at hp; cases hp; exact ⟨h.comp, fun h => by cases h⟩
          · rw [if_neg h2] at hp; cases hp; exact ⟨h.comp, fun h => by cases h⟩
  | dfpatchSize =>
    rw [hst] at hp
    simp only [processDfpatchSize, Bind.bind, Except.bind] at hp
    generalize hu : s.unpackSize = x at hp
    rcases x with e | ⟨v, s1⟩
    · cases hp
    have h1 := unpackSize_selected h hu
    cases v with
    | more => cases hp; exact h1
    | fail e => cases hp; exact h1
    | value n =>
      simp only [] at hp
      by_cases h2 : n > 0
      · rw [if_pos h2] at hp; cases hp; exact h1
      · rw [if_neg h2] at hp; cases hp; exact ⟨h1.comp, fun h => by cases h⟩
  | diffSize | extraSize =>
    rw [hst] at hp
    simp only [processSize, Bind.bind, Except.bind] at hp
    generalize hu : s.unpackSize = x at hp
    rcases x with e | ⟨v, s1⟩
    · cases hp
    have h1 := unpackSize_selected h hu
    cases v with
    | more => cases hp; exact h1
    | fail e => cases hp; exact h1
    | value n =>
      simp only [] at hp
      by_cases h2 : sizeTooBig s1.toOffset s1.toSize n = true
      · rw [if_pos h2] at hp; cases hp; exact h1
      · rw [if_neg h2] at hp; cases hp; exact ⟨h1.comp, fun h => by cases h⟩
  | diffData =>
    rw [hst] at hp
    simp only [processData] at hp
    by_cases h0 : min dataCap s.chunkSize = 0
    · rw [if_pos h0] at hp; cases hp; exact ⟨h.comp, fun h => by cases h⟩
    rw [if_neg h0] at hp
    cases hr : s.reader with
    | none => rw [hr] at hp; cases hp
    | some r =>
      rw [hr] at hp
      simp only [Bind.bind, Except.bind] at hp
      generalize r.decompress s.chunk dataCap _ = x at hp
      rcases x with e | ⟨v, r', c⟩
      · cases hp
      cases v with
      | more => cases hp; exact ⟨h.comp, h.past⟩
      | fail e => cases hp; exact ⟨h.comp, h.past⟩
      | ok to =>
        simp only [if_true] at hp
        by_cases h1 : (E.fromRead w.arg to.length).1 ≠ 0
        · rw [if_pos h1] at hp; cases hp; exact ⟨h.comp, h.past⟩
        · rw [if_neg h1] at hp
          by_cases h2 : (E.fromRead w.arg to.length).2.1.length ≠ to.length
          · rw [if_pos h2] at hp; cases hp
          · rw [if_neg h2] at hp
            refine processWrite_selected (k := k) ?_ hp
            exact ⟨h.comp, h.past⟩
  | extraData =>
    rw [hst] at hp
    simp only [processData] at hp
    by_cases h0 : min dataCap s.chunkSize = 0
    · rw [if_pos h0] at hp; cases hp; exact ⟨h.comp, fun h => by cases h⟩
    rw [if_neg h0] at hp
    cases hr : s.reader with
    | none => rw [hr] at hp; cases hp
    | some r =>
      rw [hr] at hp
      simp only [Bind.bind, Except.bind] at hp
      generalize r.decompress s.chunk dataCap _ = x at hp
      rcases x with e | ⟨v, r', c⟩
      · cases hp
      cases v with
      | more => cases hp; exact ⟨h.comp, h.past⟩
      | fail e => cases hp; exact ⟨h.comp, h.past⟩
      | ok to =>
        simp only [Bool.false_eq_true, if_false] at hp
        refine processWrite_selected (k := k) ?_ hp
        exact ⟨h.comp, h.past⟩
  | adjustment =>
    rw [hst] at hp
    simp only [processAdjustment, Bind.bind, Except.bind] at hp
    generalize hu : s.unpackSize = x at hp
    rcases x with e | ⟨v, s1⟩
    · cases hp
    have h1 := unpackSize_selected h hu
    cases v with
    | more => cases hp; exact h1
    | fail e => cases hp; exact h1
    | value n =>
      simp only [] at hp
      by_cases h2 : (E.fromSeek w.arg n).1 ≠ 0
      · rw [if_pos h2] at hp; cases hp; exact h1
      rw [if_neg h2] at hp
      by_cases h3 : s1.fromOffset + n < -2 ^ 31 ∨ 2 ^ 31 ≤ s1.fromOffset + n
      · rw [if_pos h3] at hp; cases hp
      rw [if_neg h3] at hp
      by_cases h4 : s1.toOffset = s1.toSize
      · rw [if_pos h4] at hp; cases hp; exact ⟨h1.comp, fun h => by cases h⟩
      · rw [if_neg h4] at hp; cases hp; exact ⟨h1.comp, fun h => by cases h⟩
  | done => rw [hst] at hp; cases hp; exact h
  | failed => rw [hst] at hp; cases hp; exact h

theorem processOnce_selected {k : Nat} {E : SeqEnv σ} {s : ApplyPatch} {w : World σ} (h : Selected k s) {res s' w'}
    (hp : processOnce E s w = .ok (res, s', w')) : Selected k s' := by
  unfold processOnce at hp
  by_cases hd : s.state = .done
  · rw [if_pos hd] at hp; cases hp; exact h
  rw [if_neg hd] at hp
  simp only [Bind.bind, Except.bind] at hp
  generalize hx : processSwitch E s w = x at hp
  rcases x with e | ⟨r, s1, w1⟩
  · cases hp
  have h1 := processSwitch_selected h hx
  simp only [] at hp
  by_cases h2 : r < 0
  · rw [if_pos h2] at hp; cases hp; exact ⟨h1.comp, fun h => by cases h⟩
  · rw [if_neg h2] at hp; cases hp; exact h1

theorem processLoop_selected {k : Nat} {E : SeqEnv σ} : ∀ (fuel : Nat) {r : Int} {s : ApplyPatch} {w : World σ}, Selected k s →
    ∀ {res s' w'}, processLoop E fuel r s w = .ok (res, s', w') → Selected k s'
  | 0, _, _, _, _, _, _, _, hp => by cases hp
  | fuel + 1, r, s, w, h, res, s', w', hp => by
    unfold processLoop at hp
    by_cases hc : s.chunk.available = true ∧ r ≥ 0
    · rw [if_pos hc] at hp
      simp only [Bind.bind, Except.bind] at hp
      generalize hx : processOnce E s w = x at hp
      rcases x with e | ⟨r1, s1, w1⟩
      · cases hp
      exact processLoop_selected fuel (processOnce_selected h hx) hp
    · rw [if_neg hc] at hp; cases hp; exact h


theorem first_once_selected {E : SeqEnv σ} {s : ApplyPatch} {w : World σ} {b : UInt8} {p : Bytes} (h1 : s.state = .init)
    (h2 : s.initState = .fixedHeader) (h3 : s.chunk = { buf := b :: p, offset := 0 }) {res s' w'}
    (hp : processOnce E s w = .ok (res, s', w')) : res = BAD_PATCH_TYPE ∨ Selected (b.toNat &&& 0xf) s' := by
  have hg : s.chunk.get = .ok (some (b, { buf := b :: p, offset := 1 })) := by
    rw [h3]
    have : ({ buf := b :: p, offset := 0 } : Chunk).available = true := by simp [Chunk.available, Chunk.left]
    unfold Chunk.get
    rw [if_pos this]
    rfl
  unfold processOnce at hp
  rw [if_neg (by rw [h1]; decide)] at hp
  simp only [processSwitch, h1, processInit, h2, processInitFixedHeader, hg, Bind.bind, Except.bind] at hp
  by_cases ht : (b.toNat >>> 4) &&& 0x7 ≠ 0
  · rw [if_pos ht] at hp
    simp only [] at hp
    rw [if_pos (by decide)] at hp
    cases hp
    exact .inl rfl
  · rw [if_neg ht] at hp
    simp only [] at hp
    rw [if_neg (by decide)] at hp
    cases hp
    exact .inr ⟨rfl, fun _ => rfl⟩

theorem processLoop_neg {E : SeqEnv σ} : ∀ (fuel : Nat) {r : Int} {s : ApplyPatch} {w : World σ}, r < 0 →
    ∀ {res s' w'}, processLoop E fuel r s w = .ok (res, s', w') → res = r
  | 0, _, _, _, _, _, _, _, hp => by cases hp
  | fuel + 1, r, s, w, h, res, s', w', hp => by
    unfold processLoop at hp
    rw [if_neg (fun hc => by omega)] at hp
    cases hp
    rfl

theorem first_loop_selected {E : SeqEnv σ} (fuel : Nat) {s : ApplyPatch} {w : World σ} {b : UInt8} {p : Bytes} (h1 : s.state = .init)
    (h2 : s.initState = .fixedHeader) (h3 : s.chunk = { buf := b :: p, offset := 0 }) {res s' w'}
    (hp : processLoop E fuel 0 s w = .ok (res, s', w')) : res = BAD_PATCH_TYPE ∨ Selected (b.toNat &&& 0xf) s' := by
  cases fuel with
  | zero => cases hp
  | succ fuel =>
    unfold processLoop at hp
    rw [if_pos ⟨by rw [h3]; simp [Chunk.available, Chunk.left], by decide⟩] at hp
    simp only [Bind.bind, Except.bind] at hp
    generalize hx : processOnce E s w = x at hp
    rcases x with e | ⟨r1, s1, w1⟩
    · cases hp
    rcases first_once_selected h1 h2 h3 hx with h | h
    · simp only [] at hp h
      exact .inl ((processLoop_neg fuel (by rw [h]; decide) hp).trans h)
    · exact .inr (processLoop_selected fuel h hp)

theorem process_loop {E : SeqEnv σ} {s : ApplyPatch} {w : World σ} {p : Bytes} {res s' w'}
    (hp : applyPatchProcess E s w p = .ok (res, s', w')) : ∃ fuel r,
      processLoop E fuel 0 { s with patchOffset := sz (s.patchOffset + p.length), chunk := { buf := p, offset := 0 } } w = .ok (r, s', w') ∧
      res = if r = 1 ∨ r = ALREADY_DONE then 0 else r := by
  unfold applyPatchProcess at hp
  simp only [Bind.bind, Except.bind] at hp
  generalize hf : ApplyPatch.fuel _ = fuel at hp
  generalize hx : processLoop E _ 0 _ w = x at hp
  rcases x with e | ⟨r, s1, w1⟩
  · cases hp
  simp only [] at hp
  by_cases hr : r = 1 ∨ r = ALREADY_DONE
  · rw [if_pos hr] at hp; cases hp; exact ⟨_, _, hx, by rw [if_pos hr]⟩
  · rw [if_neg hr] at hp; cases hp; exact ⟨_, _, hx, by rw [if_neg hr]⟩

/-- The first data given to a fresh object. -/
theorem first_selected {E : SeqEnv σ} {n : Nat} {w : World σ} {b : UInt8} {p q : Bytes} (hq : p = b :: q) {res s' w'}
    (hp : applyPatchProcess E (applyPatchInit n) w p = .ok (res, s', w')) (h0 : 0 ≤ res) :
    Selected (b.toNat &&& 0xf) s' := by
  obtain ⟨fuel, r, h1, h2⟩ := process_loop hp
  rcases first_loop_selected (b := b) (p := q) fuel rfl rfl (by rw [← hq]) h1 with h | h
  · subst h
    rw [if_neg (by decide)] at h2
    subst h2
    exact absurd h0 (by decide)
  · exact h

theorem process_selected {k : Nat} {E : SeqEnv σ} {s : ApplyPatch} {w : World σ} {p : Bytes} {res s' w'} (h : Selected k s)
    (hp : applyPatchProcess E s w p = .ok (res, s', w')) : Selected k s' := by
  obtain ⟨fuel, r, h1, h2⟩ := process_loop hp
  exact processLoop_selected (k := k) fuel (by exact ⟨h.comp, h.past⟩) h1

omit [Build] in
/-- Dumps of an LZMA patch are of objects that have not read the header. -/
theorem dump_lzma {s : ApplyPatch} (h : Selected 1 s) {dumped} (hd : applyPatchDump s = (0, dumped)) : dumped.state = .init := by
  unfold applyPatchDump at hd
  by_cases hi : s.state = .init
  · rw [if_pos hi] at hd; cases hd; exact hi
  · rw [if_neg hi, if_neg (by rw [h.comp]; decide)] at hd
    cases hd

omit [Build] in
theorem tryRestore_init {fr : Bytes} {n : Nat} {d : DumpDisk} (hd : ∀ t, d.state = some (.whole t) → t.state = .init) {restored s w}
    (ht : tryRestore fr n d = some (restored, s, w)) : ∃ m, s = applyPatchInit m := by
  unfold tryRestore at ht
  cases hs : d.state with
  | none => rw [hs] at ht; cases ht; exact ⟨_, rfl⟩
  | some f =>
    rw [hs] at ht
    cases f with
    | short => cases ht
    | whole t =>
      have := hd t hs
      simp only [applyPatchRestore, applyPatchInit, this, if_true] at ht
      rw [if_neg (by decide)] at ht
      cases ht
      exact ⟨_, rfl⟩

omit [Build] in
theorem readPatch_head {b : UInt8} {t : Bytes} {size : Nat} {p : Bytes} (h : readPatch (b :: t) 0 size = some p) : ∃ q, p = b :: q := by
  unfold readPatch at h
  by_cases hc : size = 0 ∨ (b :: t).length < 0 + size
  · rw [if_pos hc] at h; cases h
  · rw [if_neg hc] at h
    cases h
    cases size with
    | zero => exact absurd (.inl rfl) hc
    | succ size => exact ⟨_, rfl⟩

theorem finalizeAndExit_none {fr : Bytes} {restored : Bool} {s : ApplyPatch} {w : World Files} {status d'}
    (hr : finalizeAndExit fr restored s w = .ok (status, d')) : d'.state = none := by
  unfold finalizeAndExit at hr
  simp only [Bind.bind, Except.bind] at hr
  by_cases h : restored = true
  · rw [if_pos h] at hr
    generalize applyPatchFinalizeRestored (fileEnv fr) s w = y at hr
    rcases y with e | ⟨r, s2, w2⟩
    · cases hr
    simp only [] at hr
    by_cases h2 : r < 0
    · rw [if_pos h2] at hr; cases hr; rfl
    · rw [if_neg h2] at hr; cases hr; rfl
  · rw [if_neg h] at hr
    generalize applyPatchFinalize (fileEnv fr) s w = y at hr
    rcases y with e | ⟨r, s2, w2⟩
    · cases hr
    simp only [] at hr
    by_cases h2 : r < 0
    · rw [if_pos h2] at hr; cases hr; rfl
    · rw [if_neg h2] at hr; cases hr; rfl

theorem run_lzma {fr : Bytes} {b : UInt8} {t : Bytes} (hb : b.toNat &&& 0xf = 1) {d : DumpDisk}
    (hd : ∀ t, d.state = some (.whole t) → t.state = .init) {size after status d'}
    (hr : dumpRestoreMain fr (b :: t) size after d = .ok (status, d')) :
    (∀ t, d'.state = some (.whole t) → t.state = .init) ∧ (status = 0 → d'.state = none → size = (b :: t).length) := by
  unfold dumpRestoreMain at hr
  rw [if_neg (by simp)] at hr
  cases ht : tryRestore fr (b :: t).length d with
  | none => rw [ht] at hr; cases hr; exact ⟨fun t h => (by cases h), fun h => (by cases h)⟩
  | some x =>
    obtain ⟨restored, s, w⟩ := x
    obtain ⟨m, rfl⟩ := tryRestore_init hd ht
    rw [ht] at hr
    simp only [] at hr
    cases hp : readPatch (b :: t) (applyPatchInit m).patchOffset size with
    | none => rw [hp] at hr; cases hr; exact ⟨fun t h => (by cases h), fun h => (by cases h)⟩
    | some p =>
      rw [hp] at hr
      obtain ⟨q, hq⟩ := readPatch_head hp
      simp only [Bind.bind, Except.bind] at hr
      cases hx : applyPatchProcess (fileEnv fr) (applyPatchInit m) w p with
      | error e => rw [hx] at hr; cases hr
      | ok x =>
        obtain ⟨res, s1, w1⟩ := x
        rw [hx] at hr
        simp only [] at hr
        by_cases h0 : res < 0
        · rw [if_pos h0] at hr; cases hr; exact ⟨fun t h => (by cases h), fun h => (by cases h)⟩
        rw [if_neg h0] at hr
        have hsel := first_selected hq hx (by omega)
        rw [hb] at hsel
        by_cases h1 : (applyPatchInit m).patchOffset + size = (b :: t).length
        · rw [if_pos h1] at hr
          have := finalizeAndExit_none hr
          exact ⟨fun t h => (by rw [this] at h; cases h), fun _ _ => (by rw [← h1]; simp [applyPatchInit])⟩
        · rw [if_neg h1] at hr
          unfold storeAndGoOn at hr
          cases hdu : applyPatchDump s1 with
          | mk r dumped =>
          rw [hdu] at hr
          simp only [] at hr
          by_cases h2 : r ≠ 0
          · rw [if_pos h2] at hr; cases hr; exact ⟨fun t h => (by cases h), fun h => (by cases h)⟩
          rw [if_neg h2] at hr
          have hdi : dumped.state = .init := dump_lzma hsel (by rw [hdu, Decidable.not_not.1 h2])
          by_cases h3 : after = 0
          · rw [if_pos h3] at hr; cases hr; exact ⟨fun t h => (by cases h; exact hdi), fun _ h => (by cases h)⟩
          rw [if_neg h3] at hr
          cases hp2 : readPatch (b :: t) ((applyPatchInit m).patchOffset + size) after with
          | none => rw [hp2] at hr; cases hr; exact ⟨fun t h => (by cases h), fun h => (by cases h)⟩
          | some p2 =>
            rw [hp2] at hr
            simp only [Bind.bind, Except.bind] at hr
            cases hx2 : applyPatchProcess (fileEnv fr) s1 w1 p2 with
            | error e => rw [hx2] at hr; cases hr
            | ok x =>
              obtain ⟨res2, s2, w2⟩ := x
              rw [hx2] at hr
              simp only [] at hr
              by_cases h4 : res2 < 0
              · rw [if_pos h4] at hr; cases hr; exact ⟨fun t h => (by cases h), fun h => (by cases h)⟩
              · rw [if_neg h4] at hr; cases hr; exact ⟨fun t h => (by cases h; exact hdi), fun _ h => (by cases h)⟩

theorem reach_lzma {synced : Bool} {fr : Bytes} {b : UInt8} {t : Bytes} (hb : b.toNat &&& 0xf = 1) {d : DumpDisk}
    (hd : DumpReach synced fr (b :: t) d) : ∀ t, d.state = some (.whole t) → t.state = .init := by
  induction hd with
  | first to => intro t h; cases h
  | ran _ hr ih => exact (run_lzma hb ih hr).1
  | interrupted _ hi ih =>
    cases hi with
    | early => exact ih
    | processing => exact ih
    | storing => intro t h; cases h
    | removed => intro t h; cases h
    | stored ht hp hx h0 _ hdu _ _ =>
      intro t h
      cases h
      obtain ⟨m, rfl⟩ := tryRestore_init ih ht
      obtain ⟨q, hq⟩ := readPatch_head hp
      have := first_selected hq hx h0
      rw [hb] at this
      exact dump_lzma this hdu

end Detools
