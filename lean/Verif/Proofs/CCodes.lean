import Verif.Spec.CCodes
import Verif.Proofs.CSeqHist
import Verif.Proofs.CInPlaceCalls
import Verif.Model.CMain
/-
The return values of the C library are documented.
-/
namespace Detools

variable [Build]

omit [Build] in
theorem ReadErr.doc {e : Int} (h : ReadErr e) : DocumentedError e := by
  rcases h with h | h | h | h | h | h <;> subst h <;> decide

omit [Build] in
theorem headerSizeByte_doc {s : SizeAcc} {b : UInt8} {s' e} (h : headerSizeByte s b = .ok (s', some (.fail e))) : DocumentedError e := by
  unfold headerSizeByte at h
  split at h
  · simp only at h
    split at h <;> cases h
  · split at h
    · cases h; decide
    · simp only [Bind.bind, Except.bind] at h
      split at h
      · cases h
      · split at h <;> cases h

omit [Build] in
theorem headerSize_doc : ∀ (fuel : Nat) (c : Chunk) (s : SizeAcc) {e c' s'},
    chunkUnpackHeaderSize fuel c s = .ok (.fail e, c', s') → DocumentedError e
  | 0, _, _, _, _, _, h => by cases h
  | fuel + 1, c, s, e, c', s', h => by
    simp only [chunkUnpackHeaderSize, Bind.bind, Except.bind] at h
    split at h
    · cases h
    · split at h
      · cases h
      · split at h
        · cases h
        · rename_i hb
          split at h
          · cases h; exact headerSizeByte_doc hb
          · exact headerSize_doc fuel _ _ h

omit [Build] in
theorem sizeByte_doc {s : SizeAcc} {b : UInt8} {s' e} (h : sizeByte s b = .ok (s', some (.fail e))) : DocumentedError e := by
  unfold sizeByte at h
  split at h
  · simp only at h
    split at h <;> cases h
  · split at h
    · cases h; decide
    · simp only [Bind.bind, Except.bind] at h
      split at h
      · cases h
      · split at h <;> cases h

theorem unpackSizeC_doc : ∀ (fuel : Nat) (r : CReader) (c : Chunk) (s : SizeAcc) {e o},
    unpackSizeC fuel r c s = .ok (.fail e, o) → DocumentedError e
  | 0, _, _, _, _, _, h => by cases h
  | fuel + 1, r, c, s, e, o, h => by
    simp only [unpackSizeC, Bind.bind, Except.bind] at h
    split at h
    · cases h
    · rename_i hd
      split at h
      · cases h
      · cases h; exact (decompress_code hd).doc
      · cases h
      · split at h
        · cases h
        · rename_i hb
          split at h
          · cases h; exact sizeByte_doc hb
          · exact unpackSizeC_doc fuel _ _ _ h

/-! The sequential API. -/

theorem seqUnpack_doc {s : ApplyPatch} {e s'} (h : s.unpackSize = .ok (.fail e, s')) : DocumentedError e := by
  unfold ApplyPatch.unpackSize at h
  split at h
  · cases h
  · simp only [Bind.bind, Except.bind] at h
    split at h
    · cases h
    · rename_i v hu
      obtain ⟨r1, o1⟩ := v
      cases h
      exact unpackSizeC_doc _ _ _ _ hu

variable {E : SeqEnv σ}

theorem processSwitch_doc {s : ApplyPatch} {w : World σ} {res o} (h : processSwitch E s w = .ok (res, o)) :
    res = 0 ∨ res = 1 ∨ DocumentedError res := by
  have io : DocumentedError IO_FAILED := by decide
  have wr : ∀ {s : ApplyPatch} {w : World σ} {to res o}, processWrite E s w to = .ok (res, o) → res = 0 ∨ res = 1 ∨ DocumentedError res := by
    intro s w to res o h
    unfold processWrite at h
    simp only at h
    split at h
    · cases h; exact .inr (.inr io)
    · cases h; exact .inl rfl
  have un : ∀ {k : Int → ApplyPatch → C (SeqRes σ)}, (∀ v s res o, k v s = .ok (res, o) → res = 0 ∨ res = 1 ∨ DocumentedError res) →
      ∀ {s : ApplyPatch} {res o}, (do match ← s.unpackSize with
        | (.more, s) => .ok (1, s, w)
        | (.fail e, s) => .ok (e, s, w)
        | (.value v, s) => k v s : C (SeqRes σ)) = .ok (res, o) → res = 0 ∨ res = 1 ∨ DocumentedError res := by
    intro k hk s res o h
    simp only [Bind.bind, Except.bind] at h
    split at h
    · cases h
    · rename_i hu
      split at h
      · cases h; exact .inr (.inl rfl)
      · cases h; exact .inr (.inr (seqUnpack_doc hu))
      · exact hk _ _ _ _ h
  have sizeCase : ∀ next {res o}, processSize s w next = .ok (res, o) → res = 0 ∨ res = 1 ∨ DocumentedError res := by
    intro next res o h
    refine un (k := fun size s => if sizeTooBig s.toOffset s.toSize size then .ok (CORRUPT_PATCH, s, w)
      else .ok (0, { s with state := next, chunkSize := szOfInt size }, w)) ?_ h
    intro v s res o h
    split at h <;> cases h
    · exact .inr (.inr (by decide))
    · exact .inl rfl
  have dataCase : ∀ next diff {res o}, processData E s w next diff = .ok (res, o) → res = 0 ∨ res = 1 ∨ DocumentedError res := by
    intro next diff res o h
    unfold processData at h
    simp only at h
    split at h
    · cases h; exact .inl rfl
    · split at h
      · cases h
      · simp only [Bind.bind, Except.bind] at h
        split at h
        · cases h
        · rename_i hd
          split at h
          · cases h; exact .inr (.inl rfl)
          · cases h; exact .inr (.inr (decompress_code hd).doc)
          · split at h
            · split at h
              · cases h; exact .inr (.inr io)
              · split at h
                · cases h
                · exact wr h
            · exact wr h
  unfold processSwitch at h
  split at h
  · unfold processInit at h
    split at h
    · simp only [processInitFixedHeader, Bind.bind, Except.bind] at h
      split at h
      · cases h
      · split at h
        · cases h; exact .inr (.inr (by decide))
        · split at h
          · cases h; exact .inr (.inr (by decide))
          · cases h; exact .inl rfl
    · simp only [processInitToSize, Bind.bind, Except.bind] at h
      split at h
      · cases h
      · rename_i hu
        split at h
        · cases h; exact .inr (.inl rfl)
        · cases h; exact .inr (.inr (headerSize_doc _ _ _ hu))
        · split at h
          · cases h; exact .inr (.inr (by decide))
          · split at h
            · cases h; exact .inr (.inr (by decide))
            · split at h
              · cases h; exact .inl rfl
              · cases h; exact .inl rfl
  · refine un (k := fun size s => if size > 0 then .ok (NOT_IMPLEMENTED, s, w)
      else .ok (0, { s with state := .diffSize }, w)) ?_ h
    intro v s res o h
    split at h <;> cases h
    · exact .inr (.inr (by decide))
    · exact .inl rfl
  · exact sizeCase _ h
  · exact dataCase _ _ h
  · exact sizeCase _ h
  · exact dataCase _ _ h
  · simp only [processAdjustment, Bind.bind, Except.bind] at h
    split at h
    · cases h
    · rename_i hu
      split at h
      · cases h; exact .inr (.inl rfl)
      · cases h; exact .inr (.inr (seqUnpack_doc hu))
      · split at h
        · cases h; exact .inr (.inr io)
        · split at h
          · cases h
          · split at h <;> (cases h; exact .inl rfl)
  · cases h; exact .inr (.inr (by decide))
  · cases h; exact .inr (.inr (by decide))

theorem processOnce_doc {s : ApplyPatch} {w : World σ} {res o} (h : processOnce E s w = .ok (res, o)) :
    res = 0 ∨ res = 1 ∨ DocumentedError res := by
  unfold processOnce at h
  split at h
  · cases h; exact .inr (.inr (by decide))
  · simp only [Bind.bind, Except.bind] at h
    split at h
    · cases h
    · rename_i hs
      split at h <;> (cases h; exact processSwitch_doc hs)

theorem processLoop_doc : ∀ (fuel : Nat) {res : Int} {s : ApplyPatch} {w : World σ} {res' o}, (res = 0 ∨ res = 1 ∨ DocumentedError res) →
    processLoop E fuel res s w = .ok (res', o) → res' = 0 ∨ res' = 1 ∨ DocumentedError res'
  | 0, _, _, _, _, _, _, h => by cases h
  | fuel + 1, res, s, w, res', o, hr, h => by
    unfold processLoop at h
    split at h
    · simp only [Bind.bind, Except.bind] at h
      split at h
      · cases h
      · rename_i hs
        exact processLoop_doc fuel (processOnce_doc hs) h
    · cases h; exact hr

theorem process_doc {s : ApplyPatch} {w : World σ} {p : Bytes} {res o} (h : applyPatchProcess E s w p = .ok (res, o)) :
    res = 0 ∨ DocumentedError res := by
  unfold applyPatchProcess at h
  simp only [Bind.bind, Except.bind] at h
  split at h
  · cases h
  · rename_i hs
    have := processLoop_doc _ (.inl rfl) hs
    split at h
    · cases h; exact .inl rfl
    · rename_i hn
      cases h
      rcases this with k | k | k
      · exact .inl k
      · exact absurd (.inl k) hn
      · exact .inr k

theorem finalizeLoop_doc : ∀ (fuel : Nat) {s : ApplyPatch} {w : World σ} {res o},
    finalizeLoop E fuel s w = .ok (res, o) → res = 0 ∨ res = 1 ∨ DocumentedError res
  | 0, _, _, _, _, h => by cases h
  | fuel + 1, s, w, res, o, h => by
    simp only [finalizeLoop, Bind.bind, Except.bind] at h
    split at h
    · cases h
    · rename_i hs
      split at h
      · exact finalizeLoop_doc fuel h
      · cases h; exact processOnce_doc hs

omit [Build] in
theorem commonFinalize_doc {P : Int → Prop} (hP : ∀ {e}, DocumentedError e → P e) {res : Int} (hr : res = 0 ∨ res = 1 ∨ P res) {r : Option CReader} {n : Nat} (hn : n < 2 ^ 27) :
    0 ≤ commonFinalize res r n ∨ P (commonFinalize res r n) := by
  have hw : 0 ≤ wrapInt n := by unfold wrapInt; omega
  have hd : ∀ r : CReader, r.destroy = 0 ∨ P r.destroy := fun r => by
    rcases destroy_code r with k | k
    · exact .inl k
    · rw [k]; exact .inr (hP (by decide))
  have key : ∀ q : Int, commonFinalize res r n = (match r with | none => (if q = 0 then wrapInt n else q) | some r => if (if q = 0 then r.destroy else q) = 0 then wrapInt n else (if q = 0 then r.destroy else q)) →
      q = 0 ∨ P q → 0 ≤ commonFinalize res r n ∨ P (commonFinalize res r n) := by
    intro q he hq
    rw [he]
    cases r with
    | none =>
      simp only
      by_cases h : q = 0
      · rw [if_pos h]; exact .inl hw
      · rw [if_neg h]; exact .inr (hq.resolve_left h)
    | some r =>
      simp only
      by_cases h : q = 0
      · rw [if_pos h]
        by_cases h' : r.destroy = 0
        · rw [if_pos h']; exact .inl hw
        · rw [if_neg h']; exact .inr ((hd r).resolve_left h')
      · rw [if_neg h, if_neg h]; exact .inr (hq.resolve_left h)
  by_cases h1 : res = 1
  · refine key NOT_ENOUGH_PATCH_DATA ?_ (.inr (hP (by decide)))
    rw [h1]
    cases r <;> rfl
  · by_cases h2 : res = ALREADY_DONE
    · refine key 0 ?_ (.inl rfl)
      rw [h2]
      cases r <;> rfl
    · refine key res ?_ (hr.imp id fun k => k.resolve_left h1)
      cases r <;> simp only [commonFinalize, if_neg h1, if_neg h2]

theorem finalize_doc {s : ApplyPatch} (hI : SInv s) {w : World σ} {res o} (h : applyPatchFinalize E s w = .ok (res, o)) :
    0 ≤ res ∨ DocumentedError res := by
  unfold applyPatchFinalize at h
  simp only [Bind.bind, Except.bind] at h
  split at h
  · cases h
  · rename_i v hs
    obtain ⟨r1, s1, w1⟩ := v
    cases h
    have hz : s1.toSize < 2 ^ 27 := by
      rcases finalize_ok E hI w with (k | k) | ⟨res, s', w', k, _, k2, _⟩
      · simp only [applyPatchFinalize, Bind.bind, Except.bind] at k; rw [hs] at k; cases k
      · simp only [applyPatchFinalize, Bind.bind, Except.bind] at k; rw [hs] at k; cases k
      · simp only [applyPatchFinalize, Bind.bind, Except.bind] at k
        rw [hs] at k
        cases k
        exact k2.inv.toSz
    exact commonFinalize_doc (P := DocumentedError) (fun h => h) (finalizeLoop_doc _ hs) hz

theorem runCalls_doc : ∀ (calls : List Call) {s : ApplyPatch} {w : World σ} {rs o}, SInv s → runCalls E s w calls = .ok (rs, o) →
    ∀ r ∈ rs, 0 ≤ r ∨ DocumentedError r
  | [], _, _, _, _, _, h => by cases h; simp
  | .process p :: cs, s, w, rs, o, hI, h => by
    rw [runCalls] at h
    simp only [Bind.bind, Except.bind] at h
    split at h
    · cases h
    · rename_i v hp
      obtain ⟨r1, s1, w1⟩ := v
      split at h
      · cases h
      · rename_i hr
        cases h
        have hI1 : SInv s1 := by
          rcases process_ok E hI w p with (k | k) | ⟨res, s', w', k, _, k2, _⟩
          · rw [hp] at k; cases k
          · rw [hp] at k; cases k
          · rw [hp] at k; cases k; exact k2.inv
        intro r hm
        rcases List.mem_cons.1 hm with rfl | hm
        · exact (process_doc hp).imp (fun k => by omega) id
        · exact runCalls_doc cs hI1 hr r hm
  | .finalize :: cs, s, w, rs, o, hI, h => by
    rw [runCalls] at h
    simp only [Bind.bind, Except.bind] at h
    split at h
    · cases h
    · rename_i v hp
      obtain ⟨r1, s1, w1⟩ := v
      split at h
      · cases h
      · rename_i hr
        cases h
        have hI1 : SInv s1 := by
          rcases finalize_ok E hI w with (k | k) | ⟨res, s', w', k, _, k2, _⟩
          · rw [hp] at k; cases k
          · rw [hp] at k; cases k
          · rw [hp] at k; cases k; exact k2.inv
        intro r hm
        rcases List.mem_cons.1 hm with rfl | hm
        · exact finalize_doc hI hp
        · exact runCalls_doc cs hI1 hr r hm

theorem callbacksLoop_doc {patchRead : PatchRead σ} {P : Nat} : ∀ (fuel : Nat) {res : Int} {off : Nat} {s : ApplyPatch} {w : World σ} {rs res' s' w' rs'},
    SInv s → (res = 0 ∨ DocumentedError res) → callbacksLoop E patchRead P fuel res off s w rs = .ok (res', s', w', rs') →
    SInv s' ∧ (res' = 0 ∨ DocumentedError res')
  | 0, _, _, _, _, _, _, _, _, _, _, _, h => by cases h
  | fuel + 1, res, off, s, w, rs, res', s', w', rs', hI, hr, h => by
    unfold callbacksLoop at h
    split at h
    · simp only at h
      split at h
      · split at h
        · cases h
        · simp only [Bind.bind, Except.bind] at h
          split at h
          · cases h
          · rename_i v hp
            obtain ⟨r1, s1, w1⟩ := v
            refine callbacksLoop_doc fuel ?_ (process_doc hp) h
            rcases process_ok E hI _ _ with (k | k) | ⟨res, s', w', k, _, k2, _⟩
            · rw [hp] at k; cases k
            · rw [hp] at k; cases k
            · rw [hp] at k; cases k; exact k2.inv
      · exact callbacksLoop_doc fuel hI (.inr (by decide)) h
    · cases h; exact ⟨hI, hr⟩

theorem callbacks_doc {patchRead : PatchRead σ} {P : Nat} {arg : σ} {res o} (h : applyPatchCallbacks E patchRead P arg = .ok (res, o)) :
    0 ≤ res ∨ DocumentedError res := by
  unfold applyPatchCallbacks at h
  simp only [Bind.bind, Except.bind] at h
  split at h
  · cases h
  · rename_i v hl
    obtain ⟨r1, s1, w1, rs1⟩ := v
    obtain ⟨h1, h2⟩ := callbacksLoop_doc _ (SInv.start P) (.inl rfl) hl
    split at h
    · split at h
      · cases h
      · rename_i hf
        cases h
        exact finalize_doc h1 hf
    · split at h
      · cases h
      · cases h
        exact h2.imp (fun k => by omega) id

omit [Build] in
theorem fileIoCleanup_doc (os : Os) : fileIoCleanup os = 0 ∨ DocumentedError (fileIoCleanup os) := by
  unfold fileIoCleanup
  split
  · exact .inr (by decide)
  · rename_i h
    exact .inl (Decidable.byContradiction fun k => h (.inl k))

omit [Build] in
theorem fileIoInit_doc {os : Os} {e b} (h : fileIoInit os = (.error e, b)) : DocumentedError e := by
  unfold fileIoInit at h
  split at h
  · cases h; decide
  · split at h
    · cases h; decide
    · split at h
      · cases h; decide
      · split at h
        · cases h; decide
        · split at h
          · cases h; decide
          · cases h

theorem filenames_doc {os : Os} {res o} (h : applyPatchFilenames os = .ok (res, o)) : 0 ≤ res ∨ DocumentedError res := by
  unfold applyPatchFilenames at h
  split at h
  · rename_i hi
    cases h
    exact .inr (fileIoInit_doc hi)
  · simp only [Bind.bind, Except.bind] at h
    split at h
    · cases h
    · rename_i hc
      split at h
      · cases h; exact callbacks_doc hc
      · cases h; exact (fileIoCleanup_doc os).imp (fun k => by omega) id

/-! The in-place API. -/

/-- A documented error, or what a memory callback returned. -/
def IPErr (E : MemEnv σ) (e : Int) : Prop := DocumentedError e ∨ E.Returns e

omit [Build] in
theorem callStepSet_doc {E : MemEnv σ} {w : MWorld σ} {step : Int} : (callStepSet E w step).1 = 0 ∨ DocumentedError (callStepSet E w step).1 := by
  unfold callStepSet
  split
  · exact .inl rfl
  · simp only
    split
    · exact .inr (by decide)
    · exact .inl rfl

omit [Build] in
theorem isStepCompleted_doc {E : MemEnv σ} {w : MWorld σ} {o : Int} : (isStepCompleted E o w).1 = 0 ∨ DocumentedError (isStepCompleted E o w).1 := by
  unfold isStepCompleted
  split
  · exact .inl rfl
  · simp only
    split
    · exact .inr (show DocumentedError STEP_GET_FAILED by decide)
    · exact .inl rfl

omit [Build] in
theorem nextStep_doc {E : MemEnv σ} {s : InPlace} {w : MWorld σ} : (nextStep E s w).1 = 0 ∨ DocumentedError (nextStep E s w).1 := by
  unfold nextStep
  split
  · exact .inl rfl
  · simp only
    split
    · exact isStepCompleted_doc
    · split
      · exact .inl rfl
      · exact callStepSet_doc

omit [Build] in
theorem ipErase_doc {E : MemEnv σ} {o : Int} {w : MWorld σ} {addr n : Nat} : (ipErase E o w addr n).1 = 0 ∨ IPErr E (ipErase E o w addr n).1 := by
  unfold ipErase
  simp only
  split
  · exact isStepCompleted_doc.imp id .inl
  · split
    · exact .inl rfl
    · exact .inr (.inr (.inr (.inr ⟨_, _, _, rfl⟩)))

omit [Build] in
theorem ipWrite_doc {E : MemEnv σ} {o : Int} {w : MWorld σ} {addr : Nat} {d : Bytes} : (ipWrite E o w addr d).1 = 0 ∨ IPErr E (ipWrite E o w addr d).1 := by
  unfold ipWrite
  simp only
  split
  · exact isStepCompleted_doc.imp id .inl
  · split
    · exact .inl rfl
    · exact .inr (.inr (.inr (.inl ⟨_, _, _, rfl⟩)))

omit [Build] in
theorem ipRead_doc {E : MemEnv σ} {o : Int} {w : MWorld σ} {addr n : Nat} {res out} (h : ipRead E o w addr n = .ok (res, out)) : res = 0 ∨ IPErr E res := by
  unfold ipRead at h
  simp only at h
  split at h
  · cases h; exact isStepCompleted_doc.imp id .inl
  · split at h
    · cases h; exact .inl rfl
    · split at h
      · cases h; exact .inr (.inr (.inl ⟨_, _, _, rfl⟩))
      · split at h
        · cases h
        · cases h; exact .inl rfl

omit [Build] in
theorem copyLoop_doc {E : MemEnv σ} {o : Int} {n ra wa : Nat} : ∀ (fuel off : Nat) {w : MWorld σ} {res out},
    copyLoop E o n ra wa fuel off w = .ok (res, out) → res = 0 ∨ IPErr E res
  | 0, _, _, _, _, h => by cases h
  | fuel + 1, off, w, res, out, h => by
    unfold copyLoop at h
    split at h
    · simp only [Bind.bind, Except.bind] at h
      split at h
      · cases h
      · rename_i hr
        split at h
        · cases h; exact ipRead_doc hr
        · split at h
          · cases h; exact ipWrite_doc
          · exact copyLoop_doc fuel _ h
    · cases h; exact .inl rfl

omit [Build] in
theorem shiftOne_doc {E : MemEnv σ} {s : InPlace} {w : MWorld σ} {ra wa : Nat} {res out} (h : shiftOne E s w ra wa = .ok (res, out)) :
    res = 0 ∨ IPErr E res := by
  unfold shiftOne at h
  simp only [Bind.bind, Except.bind] at h
  split at h
  · cases h; exact ipErase_doc
  · split at h
    · cases h
    · rename_i hc
      split at h
      · cases h; exact copyLoop_doc _ _ hc
      · injection h with h
        have h1 : (nextStep E s _).1 = res := congrArg Prod.fst h
        rw [← h1]
        exact nextStep_doc.imp id .inl

omit [Build] in
theorem shiftLoop_doc {E : MemEnv σ} : ∀ (n : Nat) {s : InPlace} {w : MWorld σ} {ra wa : Nat} {res out},
    shiftLoop E n s w ra wa = .ok (res, out) → res = 0 ∨ IPErr E res
  | 0, _, _, _, _, _, _, h => by cases h; exact .inl rfl
  | n + 1, s, w, ra, wa, res, out, h => by
    unfold shiftLoop at h
    simp only [Bind.bind, Except.bind] at h
    split at h
    · cases h
    · rename_i ho
      split at h
      · cases h; exact shiftOne_doc ho
      · exact shiftLoop_doc n h

omit [Build] in
theorem shift_doc {E : MemEnv σ} {s : InPlace} {w : MWorld σ} {m f : Nat} {res out} (h : inPlaceShiftMemory E s w m f = .ok (res, out)) :
    res = 0 ∨ IPErr E res := by
  unfold inPlaceShiftMemory at h
  split at h
  · cases h
  · exact shiftLoop_doc _ h

theorem ipUnpack_doc {s : InPlace} {e s'} (h : s.unpackSize = .ok (.fail e, s')) : DocumentedError e := by
  unfold InPlace.unpackSize at h
  split at h
  · cases h
  · simp only [Bind.bind, Except.bind] at h
    split at h
    · cases h
    · rename_i v hu
      obtain ⟨r1, o1⟩ := v
      cases h
      exact unpackSizeC_doc _ _ _ _ hu

omit [Build] in
theorem ipHeader_doc {s : InPlace} {e s'} (h : s.headerSize = .ok (.fail e, s')) : DocumentedError e := by
  unfold InPlace.headerSize at h
  simp only [Bind.bind, Except.bind] at h
  split at h
  · cases h
  · rename_i v hu
    obtain ⟨r1, o1⟩ := v
    cases h
    exact headerSize_doc _ _ _ hu

variable {M : MemEnv σ}

theorem ipSwitch_doc {s : InPlace} {w : MWorld σ} {res o} (h : ipSwitch M s w = .ok (res, o)) :
    res = 0 ∨ res = 1 ∨ IPErr M res := by
  have io : IPErr M IO_FAILED := .inl (by decide)
  have wr : ∀ {s : InPlace} {w : MWorld σ} {to res o}, ipDataWrite M s w to = .ok (res, o) → res = 0 ∨ res = 1 ∨ IPErr M res := by
    intro s w to res o h
    unfold ipDataWrite at h
    simp only at h
    split at h
    · cases h; exact .inr (.inr io)
    · cases h; exact .inl rfl
  have sizeCase : ∀ next {res o}, ipSize s w next = .ok (res, o) → res = 0 ∨ res = 1 ∨ IPErr M res := by
    intro next res o h
    simp only [ipSize, Bind.bind, Except.bind] at h
    split at h
    · cases h
    · rename_i hu
      split at h
      · cases h; exact .inr (.inl rfl)
      · cases h; exact .inr (.inr (.inl (ipUnpack_doc hu)))
      · split at h <;> cases h
        · exact .inr (.inr (.inl (by decide)))
        · exact .inl rfl
  have hdrCase : ∀ next set {res o}, ipInitSize s w next set = .ok (res, o) → res = 0 ∨ res = 1 ∨ IPErr M res := by
    intro next set res o h
    simp only [ipInitSize, Bind.bind, Except.bind] at h
    split at h
    · cases h
    · rename_i hu
      split at h
      · cases h; exact .inr (.inl rfl)
      · cases h; exact .inr (.inr (.inl (ipHeader_doc hu)))
      · cases h; exact .inl rfl
  have dataCase : ∀ next diff {res o}, ipData M s w next diff = .ok (res, o) → res = 0 ∨ res = 1 ∨ IPErr M res := by
    intro next diff res o h
    unfold ipData at h
    simp only at h
    split at h
    · cases h; exact .inl rfl
    · split at h
      · cases h
      · simp only [Bind.bind, Except.bind] at h
        split at h
        · cases h
        · rename_i hd
          split at h
          · cases h; exact .inr (.inl rfl)
          · cases h; exact .inr (.inr (.inl (decompress_code hd).doc))
          · split at h
            · split at h
              · cases h
              · split at h
                · cases h; exact .inr (.inr io)
                · split at h
                  · cases h
                  · exact wr h
            · exact wr h
  unfold ipSwitch at h
  split at h
  · unfold ipInit at h
    split at h
    · simp only [ipInitFixedHeader, Bind.bind, Except.bind] at h
      split at h
      · cases h
      · split at h
        · cases h; exact .inr (.inr (.inl (by decide)))
        · split at h
          · cases h; exact .inr (.inr (.inl (by decide)))
          · cases h; exact .inl rfl
    · exact hdrCase _ _ h
    · exact hdrCase _ _ h
    · exact hdrCase _ _ h
    · exact hdrCase _ _ h
    · simp only [ipInitToSize, Bind.bind, Except.bind] at h
      split at h
      · cases h
      · rename_i hu
        split at h
        · cases h; exact .inr (.inl rfl)
        · cases h; exact .inr (.inr (.inl (ipHeader_doc hu)))
        · split at h
          · cases h; exact .inr (.inr (.inl (by decide)))
          · split at h
            · cases h; exact .inr (.inr (.inl (by decide)))
            · split at h
              · split at h
                · cases h
                · rename_i hs
                  split at h
                  · cases h; exact (shift_doc hs).imp id .inr
                  · cases h; exact .inl rfl
              · cases h; exact .inl rfl
  · simp only [ipDfpatchSize, Bind.bind, Except.bind] at h
    split at h
    · cases h
    · rename_i hu
      split at h
      · cases h; exact .inr (.inl rfl)
      · cases h; exact .inr (.inr (.inl (ipUnpack_doc hu)))
      · split at h
        · cases h; exact .inr (.inr (.inl (by decide)))
        · cases h; exact ipErase_doc.imp id .inr
  · exact sizeCase _ h
  · exact dataCase _ _ h
  · exact sizeCase _ h
  · exact dataCase _ _ h
  · simp only [ipAdjustment, Bind.bind, Except.bind] at h
    split at h
    · cases h
    · rename_i hu
      split at h
      · cases h; exact .inr (.inl rfl)
      · cases h; exact .inr (.inr (.inl (ipUnpack_doc hu)))
      · split at h
        · cases h; exact callStepSet_doc.imp id fun h => .inr (.inl h)
        · split at h
          · cases h; exact nextStep_doc.imp id fun h => .inr (.inl h)
          · split at h
            · cases h
            · cases h; exact .inl rfl
  · cases h; exact .inr (.inr (.inl (by decide)))
  · cases h; exact .inr (.inr (.inl (by decide)))

theorem ipOnce_doc {s : InPlace} {w : MWorld σ} {res o} (h : ipOnce M s w = .ok (res, o)) :
    res = 0 ∨ res = 1 ∨ IPErr M res := by
  unfold ipOnce at h
  split at h
  · cases h; exact .inr (.inr (.inl (by decide)))
  · simp only [Bind.bind, Except.bind] at h
    split at h
    · cases h
    · rename_i hs
      split at h <;> (cases h; exact ipSwitch_doc hs)

theorem ipProcessLoop_doc : ∀ (fuel : Nat) {res : Int} {s : InPlace} {w : MWorld σ} {res' o}, (res = 0 ∨ res = 1 ∨ IPErr M res) →
    ipProcessLoop M fuel res s w = .ok (res', o) → res' = 0 ∨ res' = 1 ∨ IPErr M res'
  | 0, _, _, _, _, _, _, h => by cases h
  | fuel + 1, res, s, w, res', o, hr, h => by
    unfold ipProcessLoop at h
    split at h
    · simp only [Bind.bind, Except.bind] at h
      split at h
      · cases h
      · rename_i hs
        exact ipProcessLoop_doc fuel (ipOnce_doc hs) h
    · cases h; exact hr

theorem ipProcess_doc {s : InPlace} {w : MWorld σ} {p : Bytes} {res o} (h : inPlaceProcess M s w p = .ok (res, o)) :
    res = 0 ∨ IPErr M res := by
  unfold inPlaceProcess at h
  simp only [Bind.bind, Except.bind] at h
  split at h
  · cases h
  · rename_i hs
    have := ipProcessLoop_doc _ (.inl rfl) hs
    split at h
    · cases h; exact .inl rfl
    · rename_i hn
      cases h
      rcases this with k | k | k
      · exact .inl k
      · exact absurd (.inl k) hn
      · exact .inr k

theorem ipFinalizeLoop_doc : ∀ (fuel : Nat) {s : InPlace} {w : MWorld σ} {res o},
    ipFinalizeLoop M fuel s w = .ok (res, o) → res = 0 ∨ res = 1 ∨ IPErr M res
  | 0, _, _, _, _, h => by cases h
  | fuel + 1, s, w, res, o, h => by
    simp only [ipFinalizeLoop, Bind.bind, Except.bind] at h
    split at h
    · cases h
    · rename_i hs
      split at h
      · exact ipFinalizeLoop_doc fuel h
      · cases h; exact ipOnce_doc hs

theorem ipFinalize_doc (hM : ¬ M.Returns ALREADY_DONE) {s : InPlace} (hI : IPState s) {w : MWorld σ} {res o} (h : inPlaceFinalize M s w = .ok (res, o)) :
    0 ≤ res ∨ IPErr M res := by
  by_cases hf : s.state = .failed
  · obtain ⟨s1, e1, _⟩ := ip_failed_finalize (E := M) hf w
    rw [e1] at h
    cases h
    exact .inr (.inl (by decide))
  · have hI' := hI.resolve_left hf
    simp only [inPlaceFinalize, Bind.bind, Except.bind] at h
    split at h
    · cases h
    · rename_i v hs
      obtain ⟨r1, s1, w1⟩ := v
      cases h
      rcases ipFinalizeLoop_safe (E := M) _ _ w (hI'.setChunk []) hf (mu_fuel (hI'.setChunk []).chunk) with ⟨u, e, hu⟩ | ⟨r2, s2, w2, e, ho, hne⟩
      · rw [hs] at e; cases e
      · rw [hs] at e
        cases e
        cases ho with
        | live g1 g2 g3 g4 g5 => exact commonFinalize_doc (P := IPErr M) .inl (ipFinalizeLoop_doc _ hs) g2.toSz
        | done g1 g2 g3 => exact commonFinalize_doc (P := IPErr M) .inl (ipFinalizeLoop_doc _ hs) g2.toSz
        | fail g1 g2 g3 g4 =>
          have hd := ipFinalizeLoop_doc _ hs
          have h1 : r1 ≠ ALREADY_DONE := fun k => by
            rw [k] at g2
            rcases g2 with g | ⟨_, g⟩ | g
            · exact absurd g (by decide)
            · exact absurd rfl g
            · exact hM g
          have h2 : r1 ≠ 1 := by omega
          rw [cf_other h2 h1 hne]
          rcases hd with k | k | k
          · exact absurd k hne
          · exact absurd k h2
          · exact .inr k

theorem runInPlaceCalls_doc (hM : ¬ M.Returns ALREADY_DONE) : ∀ (calls : List Call) {s : InPlace} {w : MWorld σ} {rs o}, IPState s → runInPlaceCalls M s w calls = .ok (rs, o) →
    ∀ r ∈ rs, 0 ≤ r ∨ IPErr M r
  | [], _, _, _, _, _, h => by cases h; simp
  | .process p :: cs, s, w, rs, o, hI, h => by
    rw [runInPlaceCalls] at h
    simp only [Bind.bind, Except.bind] at h
    split at h
    · cases h
    · rename_i v hp
      obtain ⟨r1, s1, w1⟩ := v
      split at h
      · cases h
      · rename_i hr
        cases h
        have hI1 : IPState s1 := by
          rcases inPlaceProcess_safe (E := M) hI w p with ⟨u, k, _⟩ | ⟨o, k, _, k2⟩
          · rw [hp] at k; cases k
          · rw [hp] at k; cases k; exact k2
        intro r hm
        rcases List.mem_cons.1 hm with rfl | hm
        · exact (ipProcess_doc hp).imp (fun k => by omega) id
        · exact runInPlaceCalls_doc hM cs hI1 hr r hm
  | .finalize :: cs, s, w, rs, o, hI, h => by
    rw [runInPlaceCalls] at h
    simp only [Bind.bind, Except.bind] at h
    split at h
    · cases h
    · rename_i v hp
      obtain ⟨r1, s1, w1⟩ := v
      split at h
      · cases h
      · rename_i hr
        cases h
        have hI1 : IPState s1 := by
          rcases inPlaceFinalize_safe (E := M) hI w with ⟨u, k, _⟩ | ⟨o, k, _, k2⟩
          · rw [hp] at k; cases k
          · rw [hp] at k; cases k; exact k2
        intro r hm
        rcases List.mem_cons.1 hm with rfl | hm
        · exact ipFinalize_doc hM hI hp
        · exact runInPlaceCalls_doc hM cs hI1 hr r hm

theorem inPlaceCallbacksLoop_doc {patchRead : PatchRead σ} {P : Nat} : ∀ (fuel : Nat) {res : Int} {off : Nat} {s : InPlace} {w : MWorld σ} {rs res' s' w' rs'},
    IPState s → (res = 0 ∨ IPErr M res) → inPlaceCallbacksLoop M patchRead P fuel res off s w rs = .ok (res', s', w', rs') →
    IPState s' ∧ (res' = 0 ∨ IPErr M res')
  | 0, _, _, _, _, _, _, _, _, _, _, _, h => by cases h
  | fuel + 1, res, off, s, w, rs, res', s', w', rs', hI, hr, h => by
    unfold inPlaceCallbacksLoop at h
    split at h
    · simp only at h
      split at h
      · split at h
        · cases h
        · simp only [Bind.bind, Except.bind] at h
          split at h
          · cases h
          · rename_i v hp
            obtain ⟨r1, s1, w1⟩ := v
            refine inPlaceCallbacksLoop_doc fuel ?_ (ipProcess_doc hp) h
            rcases inPlaceProcess_safe (E := M) hI _ _ with ⟨u, k, _⟩ | ⟨o, k, _, k2⟩
            · rw [hp] at k; cases k
            · rw [hp] at k; cases k; exact k2
      · exact inPlaceCallbacksLoop_doc fuel hI (.inr (.inl (by decide))) h
    · cases h; exact ⟨hI, hr⟩

theorem inPlaceCallbacks_doc (hM : ¬ M.Returns ALREADY_DONE) {patchRead : PatchRead σ} {P : Nat} {arg : σ} {res o}
    (h : applyPatchInPlaceCallbacks M patchRead P arg = .ok (res, o)) : 0 ≤ res ∨ IPErr M res := by
  unfold applyPatchInPlaceCallbacks at h
  simp only [Bind.bind, Except.bind] at h
  split at h
  · cases h
  · rename_i v hl
    obtain ⟨r1, s1, w1, rs1⟩ := v
    obtain ⟨h1, h2⟩ := inPlaceCallbacksLoop_doc _ (IPState.start P) (.inl rfl) hl
    split at h
    · split at h
      · cases h
      · rename_i hf
        cases h
        exact ipFinalize_doc hM h1 hf
    · split at h
      · cases h
      · cases h
        exact h2.imp (fun k => by omega) id

omit [Build] in
theorem memFile_doc {steps : Steps υ} {res : Int} (h : ((memFileEnv steps).with ReadFile).Returns res) :
    res = 0 ∨ res = FILE_SEEK_FAILED ∨ res = FILE_READ_FAILED := by
  rcases h with ⟨a, addr, n, h⟩ | ⟨a, addr, d, h⟩ | ⟨a, addr, n, h⟩
  · simp only [MemEnv.with, memFileEnv, memFileRead] at h
    split at h
    · exact .inl h.symm
    · split at h
      · exact .inr (.inl h.symm)
      · split at h
        · exact .inl h.symm
        · exact .inr (.inr h.symm)
  · simp only [MemEnv.with, memFileEnv, memFileWrite] at h
    split at h
    · exact .inl h.symm
    · split at h
      · exact .inr (.inl h.symm)
      · exact .inl h.symm
  · exact .inl h.symm

omit [Build] in
theorem inPlaceFileIoInit_doc {os : IpOs} {e} (h : inPlaceFileIoInit os = .error e) : DocumentedError e := by
  unfold inPlaceFileIoInit at h
  split at h
  · cases h; decide
  · split at h
    · cases h; decide
    · split at h
      · cases h; decide
      · split at h
        · cases h; decide
        · cases h

theorem inPlaceFilenames_doc {os : IpOs} {steps : Steps υ} {u : υ} {res o} (h : applyPatchInPlaceFilenames os steps u = .ok (res, o)) :
    0 ≤ res ∨ DocumentedError res := by
  unfold applyPatchInPlaceFilenames at h
  split at h
  · rename_i hi
    cases h
    exact .inr (inPlaceFileIoInit_doc hi)
  · simp only [Bind.bind, Except.bind] at h
    split at h
    · cases h
    · rename_i hc
      split at h
      · cases h
        rcases inPlaceCallbacks_doc (fun k => by rcases memFile_doc k with k | k | k <;> exact absurd k (by decide)) hc with k | k | k
        · exact .inl k
        · exact .inr k
        · rcases memFile_doc k with k | k | k
          · exact .inl (by omega)
          · rw [k]; exact .inr (by decide)
          · rw [k]; exact .inr (by decide)
      · cases h
        unfold inPlaceFileIoCleanup
        split
        · exact .inr (by decide)
        · rename_i h
          exact .inl (by rw [Decidable.byContradiction fun k => h (.inl k)]; exact Int.le_refl _)

end Detools
