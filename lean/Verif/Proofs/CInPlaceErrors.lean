import Verif.Spec.CInPlaceErrors
import Verif.Proofs.CSeqErrors
import Verif.Proofs.CInPlaceCauses
/-
The errors of the in-place C API.
-/
namespace Detools

variable [Build]

/-! Callbacks. -/

def Ext (w w' : MWorld σ) : Prop := ∃ evs, w'.trace = evs ++ w.trace

omit [Build] in
theorem Ext.refl (w : MWorld σ) : Ext w w := ⟨[], rfl⟩

omit [Build] in
theorem Ext.trans {w w1 w2 : MWorld σ} (h1 : Ext w w1) (h2 : Ext w1 w2) : Ext w w2 := by
  obtain ⟨a, ha⟩ := h1
  obtain ⟨b, hb⟩ := h2
  exact ⟨b ++ a, by rw [hb, ha, List.append_assoc]⟩

/-- The last callback failed, and `r` is an error for it. -/
def CbErr (w w' : MWorld σ) (r : Int) : Prop := ∃ ev evs, w'.trace = ev :: (evs ++ w.trace) ∧ CallbackError ev r

omit [Build] in
theorem CbErr.pre {w w1 w2 : MWorld σ} {r : Int} (h1 : Ext w w1) (h2 : CbErr w1 w2 r) : CbErr w w2 r := by
  obtain ⟨a, ha⟩ := h1
  obtain ⟨ev, b, hb, hc⟩ := h2
  exact ⟨ev, b ++ a, by rw [hb, ha, List.append_assoc], hc⟩

/-- A helper that makes callbacks: it returns 0 or the error for the last of them. -/
def CbX (w : MWorld σ) (r : Int) (w' : MWorld σ) : Prop := Ext w w' ∧ (r ≠ 0 → CbErr w w' r)

omit [Build] in
theorem CbX.quiet (w : MWorld σ) : CbX w 0 w := ⟨.refl w, fun h => absurd rfl h⟩

omit [Build] in
theorem CbX.seq {w w1 w2 : MWorld σ} {r1 r2 : Int} (h1 : CbX w r1 w1) (h2 : CbX w1 r2 w2) : CbX w r2 w2 :=
  ⟨h1.1.trans h2.1, fun h => .pre h1.1 (h2.2 h)⟩

omit [Build] in
theorem CbX.one {w : MWorld σ} {arg : σ} {ev : MEv} {r : Int} (h : r ≠ 0 → CallbackError ev r) : CbX w r { arg := arg, trace := ev :: w.trace } :=
  ⟨⟨[ev], rfl⟩, fun h0 => ⟨ev, [], rfl, h h0⟩⟩

variable (E : MemEnv σ)

omit [Build] in
theorem callStepSet_x (w : MWorld σ) (step : Int) : CbX w (callStepSet E w step).1 (callStepSet E w step).2 := by
  unfold callStepSet
  cases E.stepSet with
  | none => exact .quiet w
  | some f =>
    simp only
    by_cases h : (f w.arg step).1 = 0
    · simp only [h, ne_eq, not_true, if_false]
      exact .one fun h => absurd rfl h
    · simp only [h, ne_eq, not_false_iff, if_true]
      exact .one fun _ => .stepSet h

omit [Build] in
theorem isStepCompleted_x (o : Int) (w : MWorld σ) : CbX w (isStepCompleted E o w).1 (isStepCompleted E o w).2.2 ∧
    ((isStepCompleted E o w).1 ≠ 0 → CbErr w (isStepCompleted E o w).2.2 IO_FAILED) := by
  unfold isStepCompleted
  cases E.stepGet with
  | none => exact ⟨.quiet w, fun h => absurd rfl h⟩
  | some f =>
    simp only
    by_cases h : (f w.arg).1 = 0
    · simp only [h, ne_eq, not_true, if_false]
      exact ⟨.one fun h => absurd rfl h, fun h => h.elim⟩
    · simp only [h, ne_eq, not_false_iff, if_true]
      exact ⟨.one fun _ => .stepGet h, fun _ => ⟨_, [], rfl, .dataStep h⟩⟩

omit [Build] in
theorem nextStep_x (s : InPlace) (w : MWorld σ) {res s' w'} (he : nextStep E s w = (res, s', w')) : CbX w res w' := by
  unfold nextStep at he
  cases hs : E.stepSet with
  | none => rw [hs] at he; cases he; exact .quiet w
  | some f =>
    rw [hs] at he
    simp only at he
    have h1 := (isStepCompleted_x E s.ongoingStep w).1
    by_cases h : (isStepCompleted E s.ongoingStep w).1 = 0
    · simp only [h, ne_eq, not_true, if_false] at he
      split at he
      · cases he
        rw [h] at h1; exact h1
      · cases he
        exact h1.seq (callStepSet_x E _ _)
    · simp only [h, ne_eq, not_false_iff, if_true] at he
      cases he
      exact h1

omit [Build] in
theorem ipRead_x {o : Int} {w : MWorld σ} {addr n : Nat} {res d w'} (he : ipRead E o w addr n = .ok (res, d, w')) :
    CbX w res w' ∧ (res ≠ 0 → CbErr w w' IO_FAILED) := by
  obtain ⟨h1, h2⟩ := isStepCompleted_x E o w
  unfold ipRead at he
  generalize isStepCompleted E o w = y at h1 h2 he
  obtain ⟨r, b, w1⟩ := y
  simp only at h1 h2
  by_cases h : r = 0
  · subst h
    cases b with
    | true =>
      simp only [ne_eq, not_true, if_false, if_true] at he
      cases he
      exact ⟨h1, fun h => absurd rfl h⟩
    | false =>
      rcases hx : E.memRead w1.arg addr n with ⟨r2, d2, arg⟩
      simp only [hx, ne_eq, not_true, if_false, Bool.false_eq_true] at he
      by_cases h2 : r2 = 0
      · subst h2
        simp only [not_true, if_false] at he
        split at he
        · cases he
        · cases he
          exact ⟨h1.seq (.one fun h => absurd rfl h), fun h => absurd rfl h⟩
      · simp only [h2, not_false_iff, if_true] at he
        cases he
        exact ⟨h1.seq (.one fun h => .read h), fun h => .pre h1.1 ⟨_, [], rfl, .dataRead h⟩⟩
  · simp only [h, ne_eq, not_false_iff, if_true] at he
    cases he
    exact ⟨h1, fun h => h2 h⟩

omit [Build] in
theorem ipWrite_x (o : Int) (w : MWorld σ) (addr : Nat) (d : Bytes) : CbX w (ipWrite E o w addr d).1 (ipWrite E o w addr d).2 ∧
    ((ipWrite E o w addr d).1 ≠ 0 → CbErr w (ipWrite E o w addr d).2 IO_FAILED) := by
  unfold ipWrite
  simp only
  obtain ⟨h1, h2⟩ := isStepCompleted_x E o w
  by_cases h : (isStepCompleted E o w).1 = 0
  · simp only [h, ne_eq, not_true, if_false]
    split
    · rw [h] at h1; exact ⟨h1, fun h => absurd rfl h⟩
    · exact ⟨h1.seq (.one fun h => .write h), fun h => .pre h1.1 ⟨_, [], rfl, .dataWrite h⟩⟩
  · simp only [h, ne_eq, not_false_iff, if_true]
    exact ⟨h1, fun _ => h2 h⟩

omit [Build] in
theorem ipErase_x (o : Int) (w : MWorld σ) (addr n : Nat) : CbX w (ipErase E o w addr n).1 (ipErase E o w addr n).2 := by
  unfold ipErase
  simp only
  have h1 := (isStepCompleted_x E o w).1
  by_cases h : (isStepCompleted E o w).1 = 0
  · simp only [h, ne_eq, not_true, if_false]
    split
    · rw [h] at h1; exact h1
    · exact h1.seq (.one fun h => .erase h)
  · simp only [h, ne_eq, not_false_iff, if_true]
    exact h1

omit [Build] in
theorem copyLoop_x (o : Int) (seg ra wa : Nat) : ∀ (fuel off : Nat) (w : MWorld σ) {res w'},
    copyLoop E o seg ra wa fuel off w = .ok (res, w') → CbX w res w' := by
  intro fuel
  induction fuel with
  | zero => intro off w res w' h; cases h
  | succ fuel ih =>
    intro off w res w' h
    unfold copyLoop at h
    by_cases ho : off < seg
    · simp only [ho, if_true] at h
      cases hr : ipRead E o w (sz (ra + off)) (min shiftCap (seg - off)) with
      | error u => rw [hr] at h; cases h
      | ok v =>
        obtain ⟨r1, d, w1⟩ := v
        obtain ⟨k1, -⟩ := ipRead_x E hr
        rw [hr] at h
        simp only [Bind.bind, Except.bind] at h
        split at h
        · cases h; exact k1
        · have k2 := (ipWrite_x E o w1 (sz (wa + off)) d).1
          split at h
          · cases h; exact k1.seq k2
          · exact (k1.seq k2).seq (ih _ _ h)
    · simp only [ho, if_false] at h
      cases h
      exact .quiet w

omit [Build] in
theorem shiftOne_x (s : InPlace) (w : MWorld σ) (ra wa : Nat) {res s' w'} (h : shiftOne E s w ra wa = .ok (res, s', w')) : CbX w res w' := by
  unfold shiftOne at h
  have h1 := ipErase_x E s.ongoingStep w wa s.segmentSize
  simp only at h
  split at h
  · cases h; exact h1
  · simp only [Bind.bind, Except.bind] at h
    split at h
    · cases h
    · rename_i v hv
      have h2 := copyLoop_x E _ _ _ _ _ _ _ hv
      split at h
      · cases h; exact h1.seq h2
      · injection h with h
        exact (h1.seq h2).seq (nextStep_x E _ _ h)

omit [Build] in
theorem shiftLoop_x : ∀ (n : Nat) (s : InPlace) (w : MWorld σ) (ra wa : Nat) {res s' w'}, shiftLoop E n s w ra wa = .ok (res, s', w') → CbX w res w' := by
  intro n
  induction n with
  | zero => intro s w ra wa res s' w' h; cases h; exact .quiet w
  | succ n ih =>
    intro s w ra wa res s' w' h
    unfold shiftLoop at h
    simp only [Bind.bind, Except.bind] at h
    split at h
    · cases h
    · rename_i v hv
      have h1 := shiftOne_x E _ _ _ _ hv
      split at h
      · cases h; exact h1
      · exact h1.seq (ih _ _ _ _ h)

omit [Build] in
theorem shiftMemory_x (s : InPlace) (w : MWorld σ) (m f : Nat) {res s' w'} (h : inPlaceShiftMemory E s w m f = .ok (res, s', w')) : CbX w res w' := by
  unfold inPlaceShiftMemory at h
  split at h
  · cases h
  · exact shiftLoop_x E _ _ _ _ _ h

/-! Steps in the body. -/

variable {E}

def InPlace.errs (s : InPlace) (e : Int) (x : Bytes) : Prop := ∃ r, s.reader = some r ∧ r.errs e (s.chunk.rest ++ x)

/-- The errors of a step in the body of the patch. -/
def IPBodyCode (s : InPlace) (e : Int) : Prop :=
  e = NOT_IMPLEMENTED ∨ e = CORRUPT_PATCH ∨ e = CORRUPT_PATCH_OVERFLOW ∨ ∀ x, s.errs e x

/-- What a step in the body of the patch says. -/
def IPStepErrs (s : InPlace) (w : MWorld σ) (res : Int) (s' : InPlace) (w' : MWorld σ) : Prop :=
  s'.toSize = s.toSize ∧ Ext w w' ∧
    ((res < 0 ∧ IPBodyCode s res) ∨ (res ≠ 0 ∧ CbErr w w' res) ∨ (0 ≤ res ∧ ∀ e x, s'.errs e x → s.errs e x))

theorem IPStepErrs.cb {s s' : InPlace} {w w' : MWorld σ} {res : Int} (h1 : s'.toSize = s.toSize) (h2 : CbX w res w')
    (h3 : ∀ e x, s'.errs e x → s.errs e x) : IPStepErrs s w res s' w' := by
  refine ⟨h1, h2.1, ?_⟩
  by_cases h0 : res = 0
  · exact .inr (.inr ⟨by omega, h3⟩)
  · exact .inr (.inl ⟨h0, h2.2 h0⟩)

theorem ipUnpack_errs {s : InPlace} (h : IPInv s) (h2 : s.state ≠ .init) {v s'} (he : s.unpackSize = .ok (v, s')) :
    s'.toSize = s.toSize ∧ ((∃ e, v = .fail e ∧ e < 0 ∧ IPBodyCode s e) ∨ ((∀ e, v ≠ .fail e) ∧ ∀ e x, s'.errs e x → s.errs e x)) := by
  have hsafe := h.unpackSize h2
  obtain ⟨r, hr1, hr2⟩ := h.reader h2
  have hneg : ∀ e, v = .fail e → e < 0 := by
    intro e hv
    subst hv
    rcases hsafe with k | ⟨v, r, c, a, k, ho⟩
    · rw [k] at he; cases he
    · rw [k] at he
      cases he
      exact ho.1
  unfold InPlace.unpackSize at he
  rw [hr1] at he
  simp only [patchReaderUnpackSize] at he
  cases hu : unpackSizeC 6 r s.chunk s.readerSize with
  | error u => rw [hu] at he; cases he
  | ok o =>
    obtain ⟨v1, r', c', a'⟩ := o
    rw [hu] at he
    obtain ⟨k0, k⟩ := unpackSizeC_errs 6 r s.chunk s.readerSize hr2 h.chunk hu
    cases he
    refine ⟨rfl, ?_⟩
    rcases k with ⟨e, rfl, k⟩ | ⟨k1, k2⟩
    · refine .inl ⟨e, rfl, hneg e rfl, ?_⟩
      rcases k with k | k | k
      · exact .inr (.inl k)
      · exact .inr (.inr (.inl k))
      · exact .inr (.inr (.inr fun x => ⟨r, hr1, k x⟩))
    · refine .inr ⟨k1, fun e x hx => ?_⟩
      obtain ⟨r2, g1, g2⟩ := hx
      cases g1
      exact ⟨r, hr1, k2 e x g2⟩

theorem ipDataWrite_errs {s0 s : InPlace} {w0 w : MWorld σ} {to : Bytes} {res s' w'} (h1 : s.toSize = s0.toSize) (h2 : Ext w0 w)
    (h3 : ∀ e x, s.errs e x → s0.errs e x) (he : ipDataWrite E s w to = .ok (res, s', w')) : IPStepErrs s0 w0 res s' w' := by
  unfold ipDataWrite at he
  obtain ⟨k1, k2⟩ := ipWrite_x E s.ongoingStep w (sz (s.segment.toPos + s.segment.toOffset)) to
  simp only at he
  split at he
  · rename_i hne
    cases he
    exact ⟨h1, h2.trans k1.1, .inr (.inl ⟨by decide, .pre h2 (k2 hne)⟩)⟩
  · cases he
    exact ⟨h1, h2.trans k1.1, .inr (.inr ⟨by decide, h3⟩)⟩

theorem ipData_errs {s : InPlace} {w : MWorld σ} (h : IPInv s) (h2 : s.state ≠ .init) (next : SeqPhase) (diff : Bool)
    {res s' w'} (he : ipData E s w next diff = .ok (res, s', w')) : IPStepErrs s w res s' w' := by
  obtain ⟨r, hr1, hr2⟩ := h.reader h2
  have hc := h.chunk
  unfold ipData at he
  by_cases hz : min dataCap s.chunkSize = 0
  · simp only [hz, if_true] at he
    cases he
    exact ⟨rfl, .refl w, .inr (.inr ⟨by decide, fun e x hx => hx⟩)⟩
  · simp only [hz, if_false, hr1] at he
    obtain ⟨⟨d, r', c'⟩, e1, e2⟩ := dec_safe hr2 hc (cap := dataCap) (size := min dataCap s.chunkSize) (by omega)
      (Nat.min_le_left ..) (by decide)
    obtain ⟨hk, hb⟩ := dec_errs hr2 hc (by omega) (Nat.min_le_left ..) e1
    rw [e1] at he
    simp only [Bind.bind, Except.bind] at he
    have lift : (∀ e x, r'.errs e (c'.rest ++ x) → r.errs e (s.chunk.rest ++ x)) → ∀ {s1 : InPlace}, s1.reader = some r' → s1.chunk = c' →
        ∀ e x, s1.errs e x → s.errs e x := by
      intro hk s1 q1 q2 e x hx
      obtain ⟨r2, g1, g2⟩ := hx
      rw [q1] at g1
      cases g1
      rw [q2] at g2
      exact ⟨r, hr1, hk e x g2⟩
    match d, e2, hb with
    | .fail e, e2, .inl ⟨e', he', hb⟩ =>
      cases he'
      cases he
      refine ⟨rfl, .refl w, .inl ⟨e2.1.neg.1, ?_⟩⟩
      rcases hb with k | k | k
      · exact .inr (.inl k)
      · exact .inr (.inr (.inl k))
      · exact .inr (.inr (.inr fun x => ⟨r, hr1, k x⟩))
    | .fail e, _, .inr hb => exact absurd rfl (hb.1 e)
    | .more, _, .inl ⟨e, he, _⟩ => cases he
    | .ok to, _, .inl ⟨e, he, _⟩ => cases he
    | .more, _, .inr hb => cases he; exact ⟨rfl, .refl w, .inr (.inr ⟨by decide, lift hb.2 rfl rfl⟩)⟩
    | .ok to, _, .inr hb =>
      cases diff with
      | false =>
        simp only [Bool.false_eq_true, if_false] at he
        exact ipDataWrite_errs (s := { s with reader := some r', chunk := c' }) rfl (.refl w) (lift hb.2 rfl rfl) he
      | true =>
        simp only [if_true] at he
        split at he
        · cases he
        · rename_i v hv
          obtain ⟨k1, k2⟩ := ipRead_x E hv
          split at he
          · rename_i hne
            cases he
            exact ⟨rfl, k1.1, .inr (.inl ⟨by decide, k2 hne⟩)⟩
          · split at he
            · cases he
            · exact ipDataWrite_errs (s := { s with reader := some r', chunk := c', segment := _ }) rfl k1.1 (lift hb.2 rfl rfl) he

theorem ipSwitch_errs {s : InPlace} {w : MWorld σ} (h : IPInv s) (h1 : s.state ≠ .init) (h2 : s.state ≠ .failed) (h3 : s.state ≠ .done)
    {res s' w'} (he : ipSwitch E s w = .ok (res, s', w')) : IPStepErrs s w res s' w' := by
  have start : ∀ {k : SizeRes × InPlace → C (IPRes σ)}, (s.unpackSize >>= k) = .ok (res, s', w') → (∀ e s1, k (.fail e, s1) = .ok (e, s1, w)) →
      (∀ s1, k (.more, s1) = .ok (1, s1, w)) →
      (∀ v s1, s1.toSize = s.toSize → (∀ e x, s1.errs e x → s.errs e x) → k (.value v, s1) = .ok (res, s', w') → IPStepErrs s w res s' w') →
      IPStepErrs s w res s' w' := by
    intro k he k1 k2 k3
    cases hu : s.unpackSize with
    | error u => rw [hu] at he; cases he
    | ok o =>
      obtain ⟨v, s1⟩ := o
      obtain ⟨q1, q⟩ := ipUnpack_errs h h1 hu
      rw [hu] at he
      simp only [Bind.bind, Except.bind] at he
      rcases q with ⟨e, rfl, q2, q3⟩ | ⟨q2, q3⟩
      · rw [k1] at he
        cases he; exact ⟨q1, .refl w, .inl ⟨q2, q3⟩⟩
      · cases v with
        | fail e => exact absurd rfl (q2 e)
        | more => rw [k2] at he; cases he; exact ⟨q1, .refl w, .inr (.inr ⟨by decide, q3⟩)⟩
        | value v => exact k3 v s1 q1 q3 he
  have size : ∀ {next}, ipSize s w next = .ok (res, s', w') → IPStepErrs s w res s' w' := by
    intro next he
    unfold ipSize at he
    refine start he (fun _ _ => rfl) (fun _ => rfl) fun v s1 q1 q3 he => ?_
    simp only at he
    split at he
    · cases he; exact ⟨q1, .refl w, .inl ⟨by decide, .inr (.inl rfl)⟩⟩
    · cases he; exact ⟨q1, .refl w, .inr (.inr ⟨by decide, q3⟩)⟩
  unfold ipSwitch at he
  rcases SeqPhase.body_cases h1 h2 h3 with hs | hs | hs | hs | hs | hs <;> rw [hs] at he <;> simp only at he
  · unfold ipDfpatchSize at he
    refine start he (fun _ _ => rfl) (fun _ => rfl) fun v s1 q1 q3 he => ?_
    simp only at he
    split at he
    · cases he; exact ⟨q1, .refl w, .inl ⟨by decide, .inl rfl⟩⟩
    · cases he
      exact .cb q1 (ipErase_x E _ _ _ _) q3
  · exact size he
  · exact ipData_errs h h1 _ _ he
  · exact size he
  · exact ipData_errs h h1 _ _ he
  · unfold ipAdjustment at he
    refine start he (fun _ _ => rfl) (fun _ => rfl) fun v s1 q1 q3 he => ?_
    simp only at he
    split at he
    · cases he
      exact .cb q1 (callStepSet_x E _ _) q3
    · split at he
      · cases he
        obtain ⟨_, k, _, e, -⟩ := nextStep_ok E s1 w
        rw [e]
        exact .cb q1 (nextStep_x E _ _ e) q3
      · split at he
        · cases he
        · cases he
          exact ⟨q1, .refl w, .inr (.inr ⟨by decide, q3⟩)⟩

/-! The header. -/

omit [Build] in
theorem typeIP_iff (b : UInt8) : (b.toNat >>> 4) &&& 0x7 = 1 ↔ TypeInPlace b := by
  unfold TypeInPlace
  rw [show (0x7 : Nat) = 2 ^ 3 - 1 from rfl, Nat.and_two_pow_sub_one_eq_mod, Nat.shiftRight_eq_div_pow]

omit [Build] in
theorem hdr_first_inv {a0 : SizeAcc} (h : a0.state = .first) : a0.Inv := by intro h'; rw [h] at h'; cases h'

omit [Build] in
theorem hdr_unfinished_at {a0 : SizeAcc} (h0 : a0.state = .first) {x : Bytes} {a : SizeAcc} (h : hdrRun a0 x = .more a) : SizeUnfinished x := by
  obtain ⟨k1, k2⟩ := hdr_more x a0 0 (hdr_first_inv h0) (fun h => by rw [h0] at h; cases h) (fun _ => rfl) h
  rw [if_pos h0] at k1
  exact ⟨k1, k2⟩

omit [Build] in
theorem hdr_tooLong_at {a0 : SizeAcc} (h0 : a0.state = .first) {x : Bytes} (h : hdrRun a0 x = .fail) : SizeTooLong x := by
  obtain ⟨n, k0, k1, k2⟩ := hdr_fail x a0 0 (hdr_first_inv h0) (fun h => by rw [h0] at h; cases h) (fun _ => rfl) h
  rw [if_pos h0] at k0
  subst k0
  exact ⟨k1, k2⟩

omit [Build] in
theorem hdrRun_value_at {acc : SizeAcc} (hf : acc.state = .first) {x : Bytes} {v : Nat} {a : SizeAcc} {t : Bytes} (h : hdrRun acc x = .value v a t) :
    ∃ w k, unpackSizeWithLength x = .ok (w, k, t) ∧ k ≤ 4 ∧ v = w.natAbs := by
  have hr := run_first headerSizeByte_sizes (fun v => rfl) x acc hf
  rw [hdrRun_size x acc (hdr_first_inv hf)] at h
  cases hu : unpackSizeWithLength x with
  | error e =>
    rw [hu] at hr
    simp only at hr
    split at hr
    · obtain ⟨a', ha⟩ := hr
      rw [ha] at h; cases h
    · rw [hr] at h; cases h
  | ok p =>
    obtain ⟨w, k, t'⟩ := p
    rw [hu] at hr
    simp only at hr
    split at hr
    · obtain ⟨a', sn, h1, h2⟩ := hr
      rw [h2] at h
      cases h
      exact ⟨w, k, rfl, ‹_›, rfl⟩
    · rw [hr] at h; cases h

omit [Build] in
theorem ShortSizes.snoc {v : Int} {n : Nat} {x y : Bytes} (h : unpackSizeWithLength y = .ok (v, n, x)) (hn : n ≤ 4) : ∀ {ns : List Nat} {t : Bytes},
    ShortSizes ns t y → ShortSizes (ns ++ [v.natAbs]) t x
  | [], t, h1 => by cases h1; exact ⟨v, n, x, h, hn, rfl, rfl⟩
  | _ :: _, _, ⟨v1, n1, t1, h1, h2, h3, h4⟩ => ⟨v1, n1, t1, h1, h2, h3, ShortSizes.snoc h hn h4⟩

omit [Build] in
theorem ShortSizes.append (x : Bytes) : ∀ {ns : List Nat} {t rest : Bytes}, ShortSizes ns t rest → ShortSizes ns (t ++ x) (rest ++ x)
  | [], t, rest, h => by cases h; rfl
  | _ :: _, _, _, ⟨v1, n1, t1, h1, h2, h3, h4⟩ => ⟨v1, n1, _, unpackSizeWithLength_append h1 x, h2, h3, h4.append x⟩

omit [Build] in
theorem FullIPHead.append {f : Bytes} {c n : Nat} {body : Bytes} (h : FullIPHead f c n body) (x : Bytes) : FullIPHead (f ++ x) c n (body ++ x) := by
  obtain ⟨b, t, m, sg, sh, fr, rfl, h1, h2, h3⟩ := h
  exact ⟨b, t ++ x, m, sg, sh, fr, rfl, h1, h2, h3.append x⟩

omit [Build] in
theorem FullIPHead.of {b : UInt8} {t body : Bytes} {n : Nat} (hb : TypeInPlace b) : ∀ {ns : List Nat}, ns.length = 4 → ShortSizes (ns ++ [n]) t body →
    FullIPHead (b :: t) (b.toNat % 16) n body
  | [m, sg, sh, fr], _, h => ⟨b, t, m, sg, sh, fr, rfl, hb, rfl, h⟩

/-- In the header, with `f` fed so far. -/
def EHT (f : Bytes) (s : InPlace) : Prop :=
  if s.initState = .fixedHeader then f = s.chunk.rest
  else ∃ (b : UInt8) (t0 t : Bytes) (ns : List Nat) (a0 : SizeAcc), f = b :: (t0 ++ (t ++ s.chunk.rest)) ∧ s.compression = b.toNat % 16 ∧
    TypeInPlace b ∧ (∀ x, ShortSizes ns (t0 ++ x) x) ∧ ns.length + 1 = s.initState.rank ∧ a0.state = .first ∧ hdrRun a0 t = .more s.size

omit [Build] in
theorem EHT.chunk {f : Bytes} {s : InPlace} (h : EHT f s) (hr : s.chunk.rest = []) (p : Bytes) :
    EHT (f ++ p) { s with chunk := { buf := p, offset := 0 } } := by
  unfold EHT at h ⊢
  by_cases hi : s.initState = .fixedHeader
  · rw [if_pos hi] at h ⊢
    rw [h, hr]
    rfl
  · rw [if_neg hi] at h ⊢
    obtain ⟨b, t0, t, ns, a0, h1, h2⟩ := h
    refine ⟨b, t0, t, ns, a0, ?_, h2⟩
    rw [h1, hr]
    simp [Chunk.rest]

omit [Build] in
theorem rank_le (i : IPInit) : i.rank ≤ 5 := by cases i <;> decide

omit [Build] in
theorem EHT.unfinished {f : Bytes} {s : InPlace} (h : EHT f s) (hi : s.initState ≠ .fixedHeader) (hr : s.chunk.rest = []) :
    ∃ rest, PartIPHead f rest ∧ SizeUnfinished rest := by
  unfold EHT at h
  rw [if_neg hi] at h
  obtain ⟨b, t0, t, ns, a0, h1, h2, h3, h4, h5, h6, h7⟩ := h
  have := rank_le s.initState
  rw [hr, List.append_nil] at h1
  exact ⟨t, ⟨b, _, ns, h1, h3, by omega, h4 t⟩, hdr_unfinished_at h6 h7⟩

/-- What the header decoder finds. -/
theorem EHT.size {f : Bytes} {s : InPlace} (hc : s.chunk.Inv) (hz : s.size.Inv) (h : EHT f s) (hi : s.initState ≠ .fixedHeader) :
    (∃ s', s.headerSize = .ok (.fail CORRUPT_PATCH_OVERFLOW, s') ∧ IPRefused f CORRUPT_PATCH_OVERFLOW) ∨
    (∃ c a, s.headerSize = .ok (.more, { s with chunk := c, size := a }) ∧ c.rest = [] ∧ EHT f { s with chunk := c, size := a }) ∨
    ∃ (v : Nat) (c : Chunk) (a : SizeAcc) (b : UInt8) (t1 : Bytes) (ns : List Nat),
      s.headerSize = .ok (.value v, { s with chunk := c, size := a }) ∧ f = b :: (t1 ++ c.rest) ∧ s.compression = b.toNat % 16 ∧
      TypeInPlace b ∧ (∀ x, ShortSizes (ns ++ [v]) (t1 ++ x) x) ∧ v < 2 ^ 27 ∧ ns.length + 1 = s.initState.rank := by
  unfold EHT at h
  rw [if_neg hi] at h
  obtain ⟨b, t0, t, ns, a0, h1, h2, h3, h4, h5, h7, h8⟩ := h
  have hrk := rank_le s.initState
  obtain ⟨out, ho, hm⟩ := headerSize_run (s.chunk.left + 1) s.chunk s.size hc hz (by rw [s.chunk.left_eq hc]; omega)
  have hinv := hdrRun_inv s.chunk.rest s.size hz
  unfold InPlace.headerSize
  rw [ho]
  simp only [Bind.bind, Except.bind]
  cases hrun : hdrRun s.size s.chunk.rest with
  | fail =>
    rw [hrun] at hm
    obtain ⟨c', a, rfl⟩ := hm
    refine .inl ⟨_, rfl, .headerSize (rest := t ++ s.chunk.rest) ⟨b, _, ns, h1, h3, by omega, h4 _⟩ ?_⟩
    refine hdr_tooLong_at h7 ?_
    rw [hdrRun_append, h8]; exact hrun
  | more a =>
    rw [hrun] at hm
    obtain ⟨c', rfl, _, hr⟩ := hm
    refine .inr (.inl ⟨c', a, rfl, hr, ?_⟩)
    unfold EHT
    rw [if_neg hi]
    refine ⟨b, t0, t ++ s.chunk.rest, ns, a0, ?_, h2, h3, h4, h5, h7, ?_⟩
    · simp only [hr, List.append_nil]; exact h1
    · rw [hdrRun_append, h8]; exact hrun
  | value v a t1 =>
    rw [hrun] at hm hinv
    obtain ⟨c', rfl, hci, hrest, _⟩ := hm
    obtain ⟨u, e1, e2⟩ := hdrRun_prefix _ hrun
    have htot : hdrRun a0 (t ++ u) = .value v a [] := by
      rw [hdrRun_append, h8]; exact e2
    obtain ⟨wv, k, q1, q3, q2⟩ := hdrRun_value_at h7 htot
    refine .inr (.inr ⟨v, c', a, b, t0 ++ (t ++ u), ns, rfl, ?_, h2, h3, fun x => ?_, hinv.2.1, h5⟩)
    · rw [h1, hrest, e1]; simp
    · have := unpackSizeWithLength_append q1 x
      rw [List.nil_append] at this
      have h4' := h4 ((t ++ u) ++ x)
      rw [← List.append_assoc] at h4'
      rw [q2]
      exact ShortSizes.snoc this q3 h4'

/-- The header is complete and in order, and there is to-data. -/
def FullOk (f : Bytes) : Prop := ∃ c n body, FullIPHead f c n body ∧ BuiltIn c ∧ 0 < n

theorem FullOk.append {f : Bytes} (h : FullOk f) (x : Bytes) : FullOk (f ++ x) := by
  obtain ⟨c, n, body, h1, h2, h3⟩ := h
  exact ⟨c, n, _, h1.append x, h2, h3⟩

/-- After the header, with `f` fed so far. -/
def EBody (f : Bytes) (s : InPlace) : Prop :=
  ∃ c body, FullIPHead f c s.toSize body ∧ BuiltIn c ∧
    (s.state ≠ .done → 0 < s.toSize ∧ ∀ e x, s.errs e x → DecoderError c (body ++ x) e)

/-- A negative return value of a step. -/
def StepFault (f : Bytes) (s : InPlace) (w : MWorld σ) (res : Int) (w' : MWorld σ) : Prop :=
  IPRefused f res ∨ (f = [] ∧ s.chunk.rest = [] ∧ res = SHORT_HEADER ∧ s.state = .init) ∨ (CbErr w w' res ∧ FullOk f)

/-- What a step in the header says. -/
def EInitOut (f : Bytes) (s : InPlace) (w : MWorld σ) (res : Int) (s' : InPlace) (w' : MWorld σ) : Prop :=
  Ext w w' ∧ (w' = w ∨ FullOk f) ∧
  ((res ≠ 0 ∧ StepFault f s w res w') ∨
    (0 ≤ res ∧ s'.state = .init ∧ EHT f s' ∧ (res = 1 → s'.initState ≠ .fixedHeader)) ∨
    (res = 0 ∧ s'.state ≠ .init ∧ EBody f s'))

theorem eInitSize {f : Bytes} {s : InPlace} (hI : IPInv s) (hs : s.state = .init) (h : EHT f s) (hi : s.initState ≠ .fixedHeader) {w : MWorld σ}
    {next : IPInit} (hn : next.rank = s.initState.rank + 1) {set : InPlace → Nat → InPlace}
    (hset : ∀ s1 v, (set s1 v).state = s1.state ∧ (set s1 v).chunk = s1.chunk ∧ (set s1 v).size = s1.size ∧ (set s1 v).compression = s1.compression)
    {res s' w'} (he : ipInitSize s w next set = .ok (res, s', w')) : EInitOut f s w res s' w' := by
  unfold ipInitSize at he
  rcases h.size hI.chunk hI.size hi with ⟨s1, e1, e2⟩ | ⟨c, a, e1, e2, e3⟩ | ⟨v, c, a, b, t1, ns, e1, hf, hc, hk, hv, hlt, hl⟩
  · rw [e1] at he; cases he; exact ⟨.refl w, .inl rfl, .inl ⟨by decide, .inl e2⟩⟩
  · rw [e1] at he; cases he; exact ⟨.refl w, .inl rfl, .inr (.inl ⟨by decide, hs, e3, fun _ => hi⟩)⟩
  · rw [e1] at he
    simp only [Bind.bind, Except.bind] at he
    have hz : szOfInt (v : Int) = v := by unfold szOfInt; omega
    rw [hz] at he
    generalize hs1 : ({ s with chunk := c, size := a } : InPlace) = s1 at he
    obtain ⟨k1, k2, k3, k4⟩ := hset s1 v
    cases he
    have hnf : next ≠ .fixedHeader := by intro h0; rw [h0] at hn; simp [IPInit.rank] at hn
    refine ⟨.refl w, .inl rfl, .inr (.inl ⟨by decide, ?_, ?_, fun _ => hnf⟩)⟩
    · show (set s1 v).state = _
      rw [k1, ← hs1]; exact hs
    · unfold EHT
      rw [if_neg hnf]
      refine ⟨b, t1, [], ns ++ [v], { (set s1 v).size with state := .first }, ?_, ?_, hk, hv, ?_, rfl, rfl⟩
      · show f = b :: (t1 ++ ([] ++ (set s1 v).chunk.rest))
        rw [k2, ← hs1]; exact hf
      · show (set s1 v).compression = _
        rw [k4, ← hs1]; exact hc
      · show (ns ++ [v]).length + 1 = next.rank
        simp only [List.length_append, List.length_cons, List.length_nil]
        omega

theorem eInitToSize {f : Bytes} {s : InPlace} (hI : IPInv s) (hs : s.state = .init) (h : EHT f s) (hi : s.initState = .toSize) {w : MWorld σ}
    {res s' w'} (he : ipInitToSize E s w = .ok (res, s', w')) : EInitOut f s w res s' w' := by
  have hi' : s.initState ≠ .fixedHeader := by rw [hi]; decide
  unfold ipInitToSize at he
  rcases h.size hI.chunk hI.size hi' with ⟨s1, e1, e2⟩ | ⟨c, a, e1, e2, e3⟩ | ⟨v, c, a, b, t1, ns, e1, hf, hc, hk, hv, hlt, hl⟩
  · rw [e1] at he; cases he; exact ⟨.refl w, .inl rfl, .inl ⟨by decide, .inl e2⟩⟩
  · rw [e1] at he; cases he; exact ⟨.refl w, .inl rfl, .inr (.inl ⟨by decide, hs, e3, fun _ => hi'⟩)⟩
  · rw [e1] at he
    have hl4 : ns.length = 4 := by rw [hi] at hl; simp only [IPInit.rank] at hl; omega
    have hfull : FullIPHead f (b.toNat % 16) v c.rest := by
      rw [hf]; exact .of hk hl4 (hv c.rest)
    have hz : szOfInt (v : Int) = v := by unfold szOfInt; omega
    simp only [Bind.bind, Except.bind] at he
    cases hin : CReader.init (szOfInt ((s.patchSize : Int) - c.offset)) s.compression with
    | none =>
      rw [hin] at he
      cases he
      exact ⟨.refl w, .inl rfl, .inl ⟨by decide, .inl (.compression hfull (by rw [← hc]; exact reader_init_none hin))⟩⟩
    | some r =>
      obtain ⟨-, r2, r3⟩ := reader_init_some hin
      rw [hc] at r2 r3
      rw [hin] at he
      simp only at he
      rw [if_neg (by omega), hz] at he
      by_cases hp : (v : Int) > 0
      · simp only [hp, if_true] at he
        generalize hs1 : ({ s with chunk := c, size := a, readerSize := { s.readerSize with state := .first }, reader := some r, toPos := 0, toSize := v, segment := { s.segment with index := 0 } } : InPlace) = s1 at he
        have hr1 : s1.reader = some r := by rw [← hs1]
        have hch : s1.chunk = c := by rw [← hs1]
        have hts : s1.toSize = v := by rw [← hs1]
        have hok : FullOk f := ⟨_, v, _, hfull, r2, by omega⟩
        rcases inPlaceShiftMemory_safe E s1 w s.memorySize s.fromSize with (e | e) | ⟨r1, k, w1, e, -⟩
        · rw [e] at he; cases he
        · rw [e] at he; cases he
        · have hx := shiftMemory_x E _ _ _ _ e
          rw [e] at he
          simp only at he
          by_cases hr : r1 = 0
          · rw [if_neg (by simp [hr])] at he
            cases he
            refine ⟨hx.1, .inr hok, .inr (.inr ⟨rfl, by simp, ?_⟩)⟩
            refine ⟨b.toNat % 16, c.rest, by show FullIPHead f _ s1.toSize _; rw [hts]; exact hfull, r2, fun _ => ⟨by show 0 < s1.toSize; omega, ?_⟩⟩
            intro e x hx
            obtain ⟨r', g1, g2⟩ := hx
            have g1 : s1.reader = some r' := g1
            have g2 : r'.errs e (s1.chunk.rest ++ x) := g2
            rw [hr1] at g1
            cases g1
            rw [hch] at g2
            exact r3 e _ g2
          · rw [if_pos hr] at he
            cases he
            exact ⟨hx.1, .inr hok, .inl ⟨hr, .inr (.inr ⟨hx.2 hr, hok⟩)⟩⟩
      · simp only [hp, if_false] at he
        cases he
        exact ⟨.refl w, .inl rfl, .inr (.inr ⟨rfl, by simp, b.toNat % 16, c.rest, hfull, r2, fun h => absurd rfl h⟩)⟩

theorem eInit {f : Bytes} {s : InPlace} (hI : IPInv s) (hs : s.state = .init) (h : EHT f s) {w : MWorld σ}
    {res s' w'} (he : ipInit E s w = .ok (res, s', w')) : EInitOut f s w res s' w' := by
  unfold ipInit at he
  cases hi : s.initState with
  | fixedHeader =>
    unfold EHT at h
    rw [if_pos hi] at h
    simp only [hi, ipInitFixedHeader] at he
    cases hr : s.chunk.rest with
    | nil =>
      rw [s.chunk.get_nil hI.chunk hr] at he
      cases he
      exact ⟨.refl w, .inl rfl, .inl ⟨by decide, .inr (.inl ⟨h.trans hr, hr, rfl, hs⟩)⟩⟩
    | cons b t =>
      obtain ⟨e1, e2, e3⟩ := s.chunk.get_cons hI.chunk hr
      rw [e1] at he
      simp only [Bind.bind, Except.bind] at he
      rw [hr] at h
      by_cases hk : (b.toNat >>> 4) &&& 0x7 = 1
      · rw [if_neg (by simp [hk])] at he
        cases he
        refine ⟨.refl w, .inl rfl, .inr (.inl ⟨by decide, hs, ?_, (fun h => by cases h)⟩)⟩
        unfold EHT
        rw [if_neg (by simp)]
        refine ⟨b, [], [], [], { s.size with state := .first }, ?_, nibble b, (typeIP_iff b).1 hk, fun x => rfl, rfl, rfl, rfl⟩
        rw [h]
        show b :: t = b :: ([] ++ ([] ++ _))
        simp only [List.nil_append]
        rw [e2]
      · rw [if_pos hk] at he
        cases he
        exact ⟨.refl w, .inl rfl, .inl ⟨by decide, .inl (.type h fun k => hk ((typeIP_iff b).2 k))⟩⟩
  | memorySize =>
    simp only [hi] at he
    refine eInitSize (next := .segmentSize) hI hs h (by rw [hi]; decide) (by rw [hi]; rfl) ?_ he
    exact fun s1 v => ⟨rfl, rfl, rfl, rfl⟩
  | segmentSize =>
    simp only [hi] at he
    refine eInitSize (next := .shiftSize) hI hs h (by rw [hi]; decide) (by rw [hi]; rfl) ?_ he
    exact fun s1 v => ⟨rfl, rfl, rfl, rfl⟩
  | shiftSize =>
    simp only [hi] at he
    refine eInitSize (next := .fromSize) hI hs h (by rw [hi]; decide) (by rw [hi]; rfl) ?_ he
    exact fun s1 v => ⟨rfl, rfl, rfl, rfl⟩
  | fromSize =>
    simp only [hi] at he
    refine eInitSize (next := .toSize) hI hs h (by rw [hi]; decide) (by rw [hi]; rfl) ?_ he
    exact fun s1 v => ⟨rfl, rfl, rfl, rfl⟩
  | toSize =>
    simp only [hi] at he
    exact eInitToSize hI hs h hi he

/-- Undefined behaviour in the header only happens once it is complete. -/
theorem eInit_error {f : Bytes} {s : InPlace} (hI : IPInv s) (hs : s.state = .init) (h : EHT f s) {w : MWorld σ} {u}
    (he : ipInit E s w = .error u) : FullOk f := by
  have noerr : ∀ (next : IPInit) (set : InPlace → Nat → InPlace), (∀ s v, ∃ a b c d, set s v = { s with memorySize := a, segmentSize := b, shiftSize := c, fromSize := d }) →
      ipInitSize s w next set ≠ .error u := by
    intro next set hset he
    obtain ⟨o, ho, _⟩ := ipInitSize_ok (E := E) hI hs w next set hset
    rw [ho] at he
    cases he
  unfold ipInit at he
  cases hi : s.initState with
  | fixedHeader =>
    exfalso
    simp only [hi, ipInitFixedHeader] at he
    cases hr : s.chunk.rest with
    | nil => rw [s.chunk.get_nil hI.chunk hr] at he; cases he
    | cons b t =>
      obtain ⟨e1, -, -⟩ := s.chunk.get_cons hI.chunk hr
      rw [e1] at he
      simp only [Bind.bind, Except.bind] at he
      split at he <;> cases he
  | memorySize => simp only [hi] at he; exact absurd he (noerr _ _ fun s v => ⟨_, _, _, _, rfl⟩)
  | segmentSize => simp only [hi] at he; exact absurd he (noerr _ _ fun s v => ⟨_, _, _, _, rfl⟩)
  | shiftSize => simp only [hi] at he; exact absurd he (noerr _ _ fun s v => ⟨_, _, _, _, rfl⟩)
  | fromSize => simp only [hi] at he; exact absurd he (noerr _ _ fun s v => ⟨_, _, _, _, rfl⟩)
  | toSize =>
    simp only [hi, ipInitToSize] at he
    rcases h.size hI.chunk hI.size (by rw [hi]; decide) with ⟨s1, e1, e2⟩ | ⟨c, a, e1, e2, e3⟩ | ⟨v, c, a, b, t1, ns, e1, hf, hc, hk, hv, hlt, hl⟩
    · rw [e1] at he; cases he
    · rw [e1] at he; cases he
    · rw [e1] at he
      have hl4 : ns.length = 4 := by rw [hi] at hl; simp only [IPInit.rank] at hl; omega
      have hfull : FullIPHead f (b.toNat % 16) v c.rest := by
        rw [hf]; exact .of hk hl4 (hv c.rest)
      simp only [Bind.bind, Except.bind] at he
      cases hin : CReader.init (szOfInt ((s.patchSize : Int) - c.offset)) s.compression with
      | none => rw [hin] at he; cases he
      | some r =>
        obtain ⟨-, r2, -⟩ := reader_init_some hin
        rw [hc] at r2
        rw [hin] at he
        simp only at he
        rw [if_neg (by omega)] at he
        by_cases hp : (v : Int) > 0
        · exact ⟨_, v, _, hfull, r2, by omega⟩
        · simp only [hp, if_false] at he
          cases he

/-! Steps. -/

omit [Build] in
theorem CbErr.moves {w : MWorld σ} {r : Int} (h : CbErr w w r) : False := by
  obtain ⟨ev, evs, h, -⟩ := h
  have := congrArg List.length h
  simp at this
  omega

theorem IPRefused.neg {f : Bytes} {r : Int} (h : IPRefused f r) : r < 0 := by
  cases h with
  | type => decide
  | headerSize => decide
  | compression => decide
  | body _ _ _ h =>
    rcases h with rfl | rfl | rfl | h
    · decide
    · decide
    · decide
    · cases h <;> decide

theorem StepFault.quiet {f : Bytes} {s : InPlace} {w : MWorld σ} {r : Int} (h : StepFault f s w r w) : r < 0 := by
  rcases h with h | ⟨_, _, rfl, _⟩ | h
  · exact h.neg
  · decide
  · exact h.1.moves.elim

/-- The callbacks return 0 or a negative value, and not the one with a meaning inside the library. -/
def PlainMem (E : MemEnv σ) : Prop := ∀ res, E.Returns res → res ≤ 0 ∧ res ≠ ALREADY_DONE

omit [Build] in
theorem PlainMem.np (h : PlainMem E) : NeverPositive E := fun r hr => (h r hr).1

omit [Build] in
theorem PlainMem.code (h : PlainMem E) {r : Int} (hr : CodeOk E r) : r ≤ 0 ∧ r ≠ ALREADY_DONE := by
  rcases hr with rfl | k | k
  · exact ⟨by decide, by decide⟩
  · exact ⟨by omega, k.2⟩
  · exact h r k

/-- `f` is everything given to process: what it says about the state. -/
structure EInv (f : Bytes) (s : InPlace) : Prop where
  inv : IPState s
  header : s.state = .init → EHT f s
  body : s.state ≠ .init → s.state ≠ .failed → EBody f s

theorem EInv.failed {f : Bytes} {s : InPlace} (h : s.state = .failed) : EInv f s :=
  ⟨.inl h, (fun h' => by rw [h] at h'; cases h'), fun _ h' => absurd h h'⟩

theorem EInv.start (n : Nat) : EInv [] (inPlaceInit n) :=
  ⟨.start n, fun _ => by unfold EHT; rw [if_pos (show (inPlaceInit n).initState = .fixedHeader from rfl)]; rfl, fun h => absurd rfl h⟩

theorem EInv.chunk {f : Bytes} {s : InPlace} (h : EInv f s) (ha : IPAtRest s) (p : Bytes) :
    EInv (f ++ p) { s with chunk := { buf := p, offset := 0 } } := by
  refine ⟨?_, fun hs => ?_, fun h1 h2 => ?_⟩
  · exact h.inv.imp id fun k => k.setChunk p
  · have hs : s.state = .init := hs
    refine EHT.chunk (h.header hs) ?_ p
    rcases ha with ha | ha | ha
    · rw [hs] at ha; cases ha
    · rw [hs] at ha; cases ha
    · exact ha
  · obtain ⟨c, body, k1, k2, k3⟩ := h.body h1 h2
    refine ⟨c, body ++ p, k1.append p, k2, fun h3 => ⟨(k3 h3).1, fun e x hx => ?_⟩⟩
    have hr : s.chunk.rest = [] := by
      rcases ha with ha | ha | ha
      · exact absurd ha h3
      · exact absurd ha h2
      · exact ha
    rw [List.append_assoc]
    refine (k3 h3).2 e (p ++ x) ?_
    obtain ⟨r, g1, g2⟩ := hx
    refine ⟨r, g1, ?_⟩
    rw [hr]
    exact g2

/-- What a step says. -/
def EOnce (f : Bytes) (s : InPlace) (w : MWorld σ) (res : Int) (s' : InPlace) (w' : MWorld σ) : Prop :=
  (res = ALREADY_DONE ∧ s.state = .done ∧ s' = s ∧ w' = w) ∨ (res = ALREADY_FAILED ∧ s.state = .failed ∧ s' = s ∧ w' = w) ∨
  (res < 0 ∧ res ≠ ALREADY_DONE ∧ s'.state = .failed ∧ StepFault f s w res w') ∨
  ((res = 0 ∨ res = 1) ∧ s'.state ≠ .failed ∧ (res = 1 → s'.state ≠ .done ∧ (s'.state = .init → s'.initState ≠ .fixedHeader)))

theorem eOnce (hE : PlainMem E) {f : Bytes} {s : InPlace} {w : MWorld σ} (h : EInv f s) {res s' w'} (he : ipOnce E s w = .ok (res, s', w')) :
    EInv f s' ∧ Ext w w' ∧ (w' = w ∨ FullOk f) ∧ EOnce f s w res s' w' := by
  have hinv := (ipOnce_rest hE.np h.inv he).1
  by_cases hf : s.state = .failed
  · rw [ipOnce_failed hf] at he
    cases he
    exact ⟨h, .refl w, .inl rfl, .inr (.inl ⟨rfl, hf, rfl, rfl⟩)⟩
  have hI : IPInv s := h.inv.resolve_left hf
  by_cases hd : s.state = .done
  · unfold ipOnce at he
    rw [if_pos hd] at he
    cases he
    exact ⟨h, .refl w, .inl rfl, .inl ⟨rfl, hd, rfl, rfl⟩⟩
  have hkind : (res < 0 ∧ res ≠ ALREADY_DONE) ∨ (res = 0 ∧ s'.state ≠ .failed) ∨ (res = 1 ∧ w' = w ∧ s'.state = s.state) := by
    rcases ipOnce_ok (E := E) hI w hf with ⟨u, e, _⟩ | ⟨out, e, ho⟩
    · rw [e] at he; cases he
    · rw [e] at he
      cases he
      cases ho with
      | ok _ g0 gc _ _ _ g1 =>
        have := (hE.code gc).1
        exact .inr (.inl ⟨by omega, g1⟩)
      | more _ g1 g2 g3 => exact .inr (.inr ⟨rfl, rfl, g3⟩)
      | done g => exact absurd g hd
      | fail g gc => exact .inl ⟨g, (hE.code gc).2⟩
  unfold ipOnce at he
  rw [if_neg hd] at he
  cases hsw : ipSwitch E s w with
  | error u => rw [hsw] at he; cases he
  | ok v =>
    obtain ⟨r1, s1, w1⟩ := v
    rw [hsw] at he
    simp only [Bind.bind, Except.bind] at he
    by_cases hi : s.state = .init
    · simp only [ipSwitch, hi] at hsw
      obtain ⟨k1, k2, k3⟩ := eInit hI hi (h.header hi) hsw
      by_cases hneg : r1 < 0
      · rw [if_pos hneg] at he
        cases he
        refine ⟨.failed rfl, k1, k2, .inr (.inr (.inl ⟨hneg, ?_, rfl, ?_⟩))⟩
        · rcases hkind with k | k | k
          · exact k.2
          · omega
          · omega
        · rcases k3 with k | k | k
          · exact k.2
          · omega
          · omega
      · rw [if_neg hneg] at he
        cases he
        rcases k3 with ⟨k3, k4⟩ | ⟨k3, k4, k5, k6⟩ | ⟨k3, k4, k5⟩
        · exfalso
          rcases hkind with k | k | k
          · omega
          · exact k3 k.1
          · rw [k.2.1] at k4
            exact hneg k4.quiet
        · refine ⟨⟨hinv, fun _ => k5, fun g => absurd k4 g⟩, k1, k2, .inr (.inr (.inr ⟨?_, ?_, fun g => ⟨?_, fun _ => k6 g⟩⟩))⟩
          · rcases hkind with k | k | k
            · omega
            · exact .inl k.1
            · exact .inr k.1
          · rw [k4]; decide
          · rw [k4]; decide
        · refine ⟨⟨hinv, fun g => absurd g k4, fun _ _ => k5⟩, k1, k2, .inr (.inr (.inr ⟨.inl k3, ?_, fun g => by rw [k3] at g; cases g⟩))⟩
          rcases hkind with k | k | k
          · omega
          · exact k.2
          · omega
    · obtain ⟨c, body, b1, b2, b3⟩ := h.body hi hf
      obtain ⟨b4, b5⟩ := b3 hd
      have hok : FullOk f := ⟨c, _, body, b1, b2, b4⟩
      obtain ⟨k0, k1, k⟩ := ipSwitch_errs hI hi hf hd hsw
      by_cases hneg : r1 < 0
      · rw [if_pos hneg] at he
        cases he
        refine ⟨.failed rfl, k1, .inr hok, .inr (.inr (.inl ⟨hneg, ?_, rfl, ?_⟩))⟩
        · rcases hkind with k | k | k
          · exact k.2
          · omega
          · omega
        · rcases k with ⟨_, k⟩ | ⟨_, k⟩ | ⟨k, _⟩
          · refine .inl (.body b1 b2 b4 ?_)
            rcases k with k | k | k | k
            · exact .inl k
            · exact .inr (.inl k)
            · exact .inr (.inr (.inl k))
            · have := b5 _ [] (k [])
              rw [List.append_nil] at this
              exact .inr (.inr (.inr this))
          · exact .inr (.inr ⟨k, hok⟩)
          · omega
      · rw [if_neg hneg] at he
        cases he
        have hni : s'.state ≠ .init := (((ipSwitch_back hI hi hf hd).2.2 hsw).resolve_left hneg).1
        rcases k with ⟨k, _⟩ | ⟨k2, k⟩ | ⟨_, k3⟩
        · omega
        · exfalso
          rcases hkind with q | q | q
          · omega
          · exact k2 q.1
          · rw [q.2.1] at k
            exact k.moves
        · refine ⟨⟨hinv, fun g => absurd g hni, fun _ _ => ⟨c, body, by rw [k0]; exact b1, b2, fun _ => ⟨by rw [k0]; exact b4, fun e x hx => b5 e x (k3 e x hx)⟩⟩⟩, k1, .inr hok, .inr (.inr (.inr ?_))⟩
          rcases hkind with q | q | q
          · omega
          · exact ⟨.inl q.1, q.2, fun g => by rw [q.1] at g; cases g⟩
          · exact ⟨.inr q.1, by rw [q.2.2]; exact hf, fun _ => ⟨by rw [q.2.2]; exact hd, fun g => absurd g hni⟩⟩

theorem eOnce_error {f : Bytes} {s : InPlace} {w : MWorld σ} (h : EInv f s) {u} (he : ipOnce E s w = .error u) : FullOk f := by
  by_cases hf : s.state = .failed
  · rw [ipOnce_failed hf] at he
    cases he
  have hI : IPInv s := h.inv.resolve_left hf
  unfold ipOnce at he
  by_cases hd : s.state = .done
  · rw [if_pos hd] at he
    cases he
  · rw [if_neg hd] at he
    by_cases hi : s.state = .init
    · cases hsw : ipSwitch E s w with
      | error u =>
        simp only [ipSwitch, hi] at hsw
        exact eInit_error hI hi (h.header hi) hsw
      | ok v =>
        rw [hsw] at he
        simp only [Bind.bind, Except.bind] at he
        split at he <;> cases he
    · obtain ⟨c, body, b1, b2, b3⟩ := h.body hi hf
      exact ⟨c, _, body, b1, b2, (b3 hd).1⟩

end Detools
