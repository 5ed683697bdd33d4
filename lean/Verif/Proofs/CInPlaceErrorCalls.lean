import Verif.Proofs.CInPlaceErrors
/-
The errors of the in-place C API: loops, calls and histories.
-/
namespace Detools

variable [Build] {E : MemEnv σ}

/-- What holds of a return value and the state in the loop of process; `s0` and `w0` are those before. -/
def ELoop (f : Bytes) (s0 : InPlace) (w0 : MWorld σ) (res : Int) (s : InPlace) (w : MWorld σ) : Prop :=
  ((res = 0 ∨ res = 1) ∧ (s.state = .failed → s0.state = .failed)) ∨ (res = ALREADY_DONE ∧ s.state = .done) ∨
  (res = ALREADY_FAILED ∧ s0.state = .failed) ∨ (res < 0 ∧ res ≠ ALREADY_DONE ∧ (IPRefused f res ∨ (CbErr w0 w res ∧ FullOk f)))

/-- What is kept in a loop. -/
structure EKeep (f : Bytes) (w0 : MWorld σ) (s : InPlace) (w : MWorld σ) : Prop where
  inv : EInv f s
  ext : Ext w0 w
  quiet : w = w0 ∨ FullOk f

theorem EKeep.once (hE : PlainMem E) {f : Bytes} {w0 : MWorld σ} {s : InPlace} {w : MWorld σ} (h : EKeep f w0 s w) {res s' w'}
    (he : ipOnce E s w = .ok (res, s', w')) : EKeep f w0 s' w' ∧ EOnce f s w res s' w' ∧ (res ≠ 0 → IPAtRest s') := by
  obtain ⟨k1, k2, k3, k4⟩ := eOnce hE h.inv he
  refine ⟨⟨k1, h.ext.trans k2, ?_⟩, k4, (ipOnce_rest hE.np h.inv.inv he).2⟩
  rcases k3 with rfl | k3
  · exact h.quiet
  · exact .inr k3

theorem eLoop (hE : PlainMem E) {f : Bytes} {s0 : InPlace} {w0 : MWorld σ} : ∀ (fuel : Nat) (res : Int) (s : InPlace) (w : MWorld σ), EKeep f w0 s w →
    ELoop f s0 w0 res s w → (res ≠ 0 → IPAtRest s) →
    (∀ {u}, ipProcessLoop E fuel res s w = .error u → u = .timeout ∨ FullOk f) ∧
    ∀ {res' s' w'}, ipProcessLoop E fuel res s w = .ok (res', s', w') → EKeep f w0 s' w' ∧ ELoop f s0 w0 res' s' w' ∧ IPAtRest s'
  | 0, _, _, _, _, _, _ => ⟨fun h => by cases h; exact .inl rfl, fun h => by cases h⟩
  | fuel + 1, res, s, w, hi, hl, hr => by
    unfold ipProcessLoop
    by_cases hc : s.chunk.available = true ∧ res ≥ 0
    · rw [if_pos hc]
      cases ho : ipOnce E s w with
      | error u => exact ⟨fun _ => .inr (eOnce_error hi.inv ho), fun h => by cases h⟩
      | ok o =>
        obtain ⟨r1, s1, w1⟩ := o
        obtain ⟨g1, g2, g3⟩ := hi.once hE ho
        refine eLoop hE fuel r1 s1 w1 g1 ?_ g3
        have hs0 : s.state = .failed → s0.state = .failed := by
          rcases hl with k | k | k | k
          · exact k.2
          · rw [k.1] at hc; exact absurd hc.2 (by decide)
          · rw [k.1] at hc; exact absurd hc.2 (by decide)
          · omega
        rcases g2 with ⟨rfl, k2, rfl, _⟩ | ⟨rfl, k2, rfl, _⟩ | ⟨k1, k2, k3, k4⟩ | ⟨k1, k2, k3⟩
        · exact .inr (.inl ⟨rfl, k2⟩)
        · exact .inr (.inr (.inl ⟨rfl, hs0 k2⟩))
        · rcases k4 with k4 | ⟨k4, k5, k6, k7⟩ | k4
          · exact .inr (.inr (.inr ⟨k1, k2, .inl k4⟩))
          · exfalso
            have hf : s.state ≠ .failed := by rw [k7]; decide
            have := hc.1
            rw [s.chunk.available_eq (hi.inv.inv.resolve_left hf).chunk, k5] at this
            simp at this
          · exact .inr (.inr (.inr ⟨k1, k2, .inr ⟨.pre hi.ext k4.1, k4.2⟩⟩))
        · exact .inl ⟨k1, fun g => absurd g k2⟩
    · rw [if_neg hc]
      refine ⟨(fun h => by cases h), fun h => ?_⟩
      cases h
      refine ⟨hi, hl, ?_⟩
      by_cases h0 : res = 0
      · by_cases hf : s.state = .failed
        · exact .inr (.inl hf)
        · right; right
          have hci := (hi.inv.inv.resolve_left hf).chunk
          have : ¬ s.chunk.available = true := fun hx => hc ⟨hx, by omega⟩
          rw [s.chunk.available_eq hci] at this
          cases hrest : s.chunk.rest with
          | nil => rfl
          | cons b t => rw [hrest] at this; simp at this
      · exact hr h0

theorem eFinLoop (hE : PlainMem E) {f : Bytes} {s0 : InPlace} {w0 : MWorld σ} : ∀ (fuel : Nat) (s : InPlace) (w : MWorld σ), EKeep f w0 s w →
    (s.state = .failed → s0.state = .failed) →
    (∀ {u}, ipFinalizeLoop E fuel s w = .error u → u = .timeout ∨ FullOk f) ∧
    ∀ {res' s' w'}, ipFinalizeLoop E fuel s w = .ok (res', s', w') → EKeep f w0 s' w' ∧ IPAtRest s' ∧ res' ≠ 0 ∧
      ∃ s1 w1, (s1.state = .failed → s0.state = .failed) ∧ Ext w0 w1 ∧ EOnce f s1 w1 res' s' w'
  | 0, _, _, _, _ => ⟨fun h => by cases h; exact .inl rfl, fun h => by cases h⟩
  | fuel + 1, s, w, hi, hl => by
    unfold ipFinalizeLoop
    cases ho : ipOnce E s w with
    | error u => exact ⟨fun _ => .inr (eOnce_error hi.inv ho), fun h => by cases h⟩
    | ok o =>
      obtain ⟨r1, s1, w1⟩ := o
      obtain ⟨g1, g2, g3⟩ := hi.once hE ho
      simp only [Bind.bind, Except.bind]
      by_cases h0 : r1 = 0
      · rw [if_pos h0]
        refine eFinLoop hE fuel s1 w1 g1 ?_
        subst h0
        rcases g2 with ⟨k, _⟩ | ⟨k, _⟩ | ⟨k, _⟩ | ⟨_, k, _⟩
        · exact absurd k (by decide)
        · exact absurd k (by decide)
        · omega
        · exact fun g => absurd g k
      · rw [if_neg h0]
        refine ⟨(fun h => by cases h), fun h => ?_⟩
        cases h
        exact ⟨g1, g3 h0, h0, s, w, hl, hi.ext, g2⟩

/-- The callbacks made in a call explain its return value. -/
def EMade (f : Bytes) (call : Call) (w : MWorld σ) (r : Int) (w' : MWorld σ) : Prop :=
  ∃ made, w'.trace = made ++ w.trace ∧ IPMeans f made call r

omit [Build] in
theorem CbErr.made {w w' : MWorld σ} {r : Int} (h : CbErr w w' r) : ∃ ev earlier, w'.trace = (ev :: earlier) ++ w.trace ∧ CallbackError ev r := by
  obtain ⟨ev, evs, h1, h2⟩ := h
  exact ⟨ev, evs, h1, h2⟩

theorem eMade_cb {f : Bytes} {call : Call} {w w' : MWorld σ} {r : Int} (h : CbErr w w' r) (hf : FullOk f) : EMade f call w r w' := by
  obtain ⟨ev, evs, h1, h2⟩ := h
  obtain ⟨c, n, body, k1, k2, k3⟩ := hf
  exact ⟨ev :: evs, h1, .callback k1 k2 k3 rfl h2⟩

theorem eMade_of {f : Bytes} {call : Call} {w w' : MWorld σ} {r : Int} (h : Ext w w') (hm : ∀ made, IPMeans f made call r) : EMade f call w r w' := by
  obtain ⟨m, hm'⟩ := h
  exact ⟨m, hm', hm m⟩

theorem eProcess (hE : PlainMem E) {f : Bytes} {s : InPlace} {w : MWorld σ} (h : EInv f s) (ha : IPAtRest s) {p : Bytes} :
    (∀ {u}, inPlaceProcess E s w p = .error u → FullOk (f ++ p)) ∧
    ∀ {r s' w'}, inPlaceProcess E s w p = .ok (r, s', w') → EKeep (f ++ p) w s' w' ∧ IPAtRest s' ∧ (s'.state = .failed → s.state = .failed ∨ r < 0) ∧
      (r = 0 ∨ (r < 0 ∧ (EMade (f ++ p) (.process p) w r w' ∨ (r = ALREADY_FAILED ∧ s.state = .failed)))) := by
  have hto : ∀ {u}, inPlaceProcess E s w p = .error u → u ≠ .timeout := by
    intro u he hu
    rcases inPlaceProcess_safe (E := E) h.inv w p with ⟨u', e, k⟩ | ⟨o, e, _⟩
    · rw [e] at he
      cases he
      rcases k with k | k | k <;> (rw [hu] at k; cases k)
    · rw [e] at he; cases he
  have h1 := h.chunk ha p
  unfold inPlaceProcess at hto ⊢
  simp only at hto ⊢
  have hst : ({ s with chunk := { buf := p, offset := 0 } } : InPlace).state = s.state := rfl
  generalize ({ s with chunk := { buf := p, offset := 0 } } : InPlace) = s0 at *
  rw [← hst]
  obtain ⟨q1, q2⟩ := eLoop hE (f := f ++ p) (s0 := s0) (w0 := w) s0.fuel 0 s0 w ⟨h1, .refl w, .inl rfl⟩ (.inl ⟨.inl rfl, id⟩) (fun h => absurd rfl h)
  cases hl : ipProcessLoop E s0.fuel 0 s0 w with
  | error u =>
    rw [hl] at hto
    refine ⟨fun _ => (q1 hl).resolve_left (hto rfl), fun h => by cases h⟩
  | ok o =>
    obtain ⟨r1, s1, w1⟩ := o
    obtain ⟨g1, g3, g2⟩ := q2 hl
    simp only [Bind.bind, Except.bind]
    refine ⟨(fun he => by split at he <;> cases he), fun {r s' w'} he => ?_⟩
    have hs1 : s1 = s' ∧ w1 = w' := by split at he <;> (cases he; exact ⟨rfl, rfl⟩)
    obtain ⟨rfl, rfl⟩ := hs1
    refine ⟨g1, g2, ?_⟩
    rcases g3 with ⟨k1 | k1, k2⟩ | ⟨k1, k2⟩ | ⟨k1, k2⟩ | ⟨k1, k2, k3⟩
    · rw [k1, if_neg (by decide)] at he
      cases he
      exact ⟨fun g => .inl (k2 g), .inl rfl⟩
    · rw [k1, if_pos (by decide)] at he
      cases he
      exact ⟨fun g => .inl (k2 g), .inl rfl⟩
    · rw [k1, if_pos (by decide)] at he
      cases he
      exact ⟨(fun g => by rw [k2] at g; cases g), .inl rfl⟩
    · rw [k1, if_neg (by decide)] at he
      cases he
      exact ⟨fun g => .inl k2, .inr ⟨by decide, .inr ⟨rfl, k2⟩⟩⟩
    · rw [if_neg (by omega)] at he
      cases he
      refine ⟨fun g => .inr k1, .inr ⟨k1, .inl ?_⟩⟩
      rcases k3 with k3 | ⟨k3, k4⟩
      · exact eMade_of g1.ext fun m => .refused k3
      · exact eMade_cb k3 k4

theorem eFinalize (hE : PlainMem E) {f : Bytes} {s : InPlace} {w : MWorld σ} (h : EInv f s) (ha : IPAtRest s) :
    (∀ {u}, inPlaceFinalize E s w = .error u → FullOk f) ∧
    ∀ {r s' w'}, inPlaceFinalize E s w = .ok (r, s', w') → EKeep f w s' w' ∧ IPAtRest s' ∧ (s'.state = .failed → s.state = .failed ∨ r < 0) ∧
      ((0 ≤ r ∧ ∃ c body, FullIPHead f c r.toNat body ∧ BuiltIn c) ∨
        (r < 0 ∧ (EMade f .finalize w r w' ∨ (r = ALREADY_FAILED ∧ s.state = .failed)))) := by
  have hto : ∀ {u}, inPlaceFinalize E s w = .error u → u ≠ .timeout := by
    intro u he hu
    rcases inPlaceFinalize_safe (E := E) h.inv w with ⟨u', e, k⟩ | ⟨o, e, _⟩
    · rw [e] at he
      cases he
      rcases k with k | k | k <;> (rw [hu] at k; cases k)
    · rw [e] at he; cases he
  have h1 := h.chunk ha []
  rw [List.append_nil] at h1
  unfold inPlaceFinalize at hto ⊢
  simp only at hto ⊢
  have hst : ({ s with chunk := { buf := [], offset := 0 } } : InPlace).state = s.state := rfl
  generalize ({ s with chunk := { buf := [], offset := 0 } } : InPlace) = s0 at *
  rw [← hst]
  obtain ⟨q1, q2⟩ := eFinLoop hE (f := f) (s0 := s0) (w0 := w) s0.fuel s0 w ⟨h1, .refl w, .inl rfl⟩ id
  cases hl : ipFinalizeLoop E s0.fuel s0 w with
  | error u =>
    rw [hl] at hto
    exact ⟨fun _ => (q1 hl).resolve_left (hto rfl), fun h => by cases h⟩
  | ok o =>
    obtain ⟨r1, s1, w1⟩ := o
    obtain ⟨g1, g2, g5, s2, w2, g3, g6, g4⟩ := q2 hl
    simp only [Bind.bind, Except.bind]
    refine ⟨(fun he => by cases he), fun {r s' w'} he => ?_⟩
    cases he
    refine ⟨g1, g2, ?_⟩
    rcases g4 with ⟨rfl, k2, rfl, rfl⟩ | ⟨rfl, k2, rfl, rfl⟩ | ⟨k1, k2, k3, k4⟩ | ⟨k1, k2, k3⟩
    · have hni : s1.state ≠ .init := by rw [k2]; decide
      have hnf : s1.state ≠ .failed := by rw [k2]; decide
      have hI : IPInv s1 := g1.inv.inv.resolve_left hnf
      obtain ⟨c, body, hh, hb, -⟩ := g1.inv.body hni hnf
      have hw : wrapInt (s1.toSize : Int) = s1.toSize := by
        have : s1.toSize < 2 ^ 27 := hI.toSz
        exact wrapInt_id (by omega) (by omega)
      refine ⟨fun g => absurd g hnf, ?_⟩
      obtain ⟨rd, hrd, -⟩ := hI.reader hni
      rw [hrd, commonFinalize_done, hw]
      rcases destroy_code rd with hd | hd
      · rw [hd]
        simp only [if_true]
        refine .inl ⟨by omega, _, body, ?_, hb⟩
        simpa using hh
      · rw [hd, if_neg (by decide)]
        exact .inr ⟨by decide, .inl (eMade_of g1.ext fun m => .leftOver hh hb)⟩
    · have hcf := commonFinalize_neg (r := ALREADY_FAILED) (by decide) (by decide) s1.reader s1.toSize
      rw [hcf]
      exact ⟨fun _ => .inl (g3 k2), .inr ⟨by decide, .inr ⟨rfl, g3 k2⟩⟩⟩
    · have hcf := commonFinalize_neg k1 k2 s1.reader s1.toSize
      rw [hcf]
      refine ⟨fun _ => .inr k1, .inr ⟨k1, .inl ?_⟩⟩
      rcases k4 with k4 | ⟨k4, _, rfl, _⟩ | k4
      · exact eMade_of g1.ext fun m => .refused k4
      · exact eMade_of g1.ext fun m => .empty k4
      · exact eMade_cb (.pre g6 k4.1) k4.2
    · have hr1 : r1 = 1 := k1.resolve_left g5
      subst hr1
      obtain ⟨k4, k5⟩ := k3 rfl
      have hcf := commonFinalize_more s1.reader s1.toSize
      rw [hcf]
      refine ⟨fun _ => .inr (by decide), .inr ⟨by decide, .inl (eMade_of g1.ext fun m => .unfinished ?_)⟩⟩
      by_cases hi : s1.state = .init
      · have hrest : s1.chunk.rest = [] := by
          rcases g2 with g | g | g
          · rw [hi] at g; cases g
          · rw [hi] at g; cases g
          · exact g
        obtain ⟨rest, q1, q2⟩ := (g1.inv.header hi).unfinished (k5 hi) hrest
        exact .header q1 q2
      · obtain ⟨c, body, hh, hb, hx⟩ := g1.inv.body hi k2
        exact .body hh hb (hx k4).1

/-- A history of calls. -/
theorem eCalls (hE : PlainMem E) : ∀ (calls : List Call) {f : Bytes} {s : InPlace} {w : MWorld σ}, EInv f s → IPAtRest s →
    (∀ {u}, runInPlaceCalls E s w calls = .error u → ∃ x y, f ++ fedBytes calls = x ++ y ∧ FullOk x) ∧
    ∀ {rs s' w'}, runInPlaceCalls E s w calls = .ok (rs, s', w') →
      EInv (f ++ fedBytes calls) s' ∧ IPAtRest s' ∧ (s'.state = .failed → s.state = .failed ∨ ∃ r ∈ rs, r < 0) ∧ (w' = w ∨ FullOk (f ++ fedBytes calls))
  | [], f, s, w, hi, ha => ⟨(fun h => by cases h), fun h => by cases h; rw [show fedBytes [] = [] from rfl, List.append_nil]; exact ⟨hi, ha, fun h => .inl h, .inl rfl⟩⟩
  | .process p :: cs, f, s, w, hi, ha => by
    obtain ⟨q1, q2⟩ := eProcess (w := w) hE hi ha (p := p)
    have hfed : f ++ fedBytes (.process p :: cs) = (f ++ p) ++ fedBytes cs := by simp [fedBytes]
    unfold runInPlaceCalls
    simp only [Bind.bind, Except.bind]
    cases hp : inPlaceProcess E s w p with
    | error u => exact ⟨fun _ => ⟨f ++ p, fedBytes cs, hfed, q1 hp⟩, fun h => by cases h⟩
    | ok o =>
      obtain ⟨r1, s1, w1⟩ := o
      obtain ⟨k1, k2, k3, -⟩ := q2 hp
      obtain ⟨n1, n2⟩ := eCalls hE cs (w := w1) k1.inv k2
      simp only
      rw [hfed]
      cases hc : runInPlaceCalls E s1 w1 cs with
      | error u => exact ⟨fun _ => n1 hc, fun h => by cases h⟩
      | ok o =>
        obtain ⟨rs2, s2, w2⟩ := o
        refine ⟨(fun h => by cases h), fun h => ?_⟩
        cases h
        obtain ⟨m1, m2, m3, m4⟩ := n2 hc
        refine ⟨m1, m2, fun hf => ?_, ?_⟩
        · rcases m3 hf with m | ⟨r, m, m'⟩
          · exact (k3 m).imp id fun k => ⟨r1, List.mem_cons_self, k⟩
          · exact .inr ⟨r, List.mem_cons_of_mem _ m, m'⟩
        · rcases m4 with rfl | m4
          · exact k1.quiet.imp id fun k => k.append _
          · exact .inr m4
  | .finalize :: cs, f, s, w, hi, ha => by
    obtain ⟨q1, q2⟩ := eFinalize (w := w) hE hi ha
    have hfed : f ++ fedBytes (.finalize :: cs) = f ++ fedBytes cs := by simp [fedBytes]
    unfold runInPlaceCalls
    simp only [Bind.bind, Except.bind]
    cases hp : inPlaceFinalize E s w with
    | error u => exact ⟨fun _ => ⟨f, fedBytes cs, hfed, q1 hp⟩, fun h => by cases h⟩
    | ok o =>
      obtain ⟨r1, s1, w1⟩ := o
      obtain ⟨k1, k2, k3, -⟩ := q2 hp
      obtain ⟨n1, n2⟩ := eCalls hE cs (w := w1) k1.inv k2
      simp only
      rw [hfed]
      cases hc : runInPlaceCalls E s1 w1 cs with
      | error u => exact ⟨fun _ => n1 hc, fun h => by cases h⟩
      | ok o =>
        obtain ⟨rs2, s2, w2⟩ := o
        refine ⟨(fun h => by cases h), fun h => ?_⟩
        cases h
        obtain ⟨m1, m2, m3, m4⟩ := n2 hc
        refine ⟨m1, m2, fun hf => ?_, ?_⟩
        · rcases m3 hf with m | ⟨r, m, m'⟩
          · exact (k3 m).imp id fun k => ⟨r1, List.mem_cons_self, k⟩
          · exact .inr ⟨r, List.mem_cons_of_mem _ m, m'⟩
        · rcases m4 with rfl | m4
          · exact k1.quiet.imp id fun k => k.append _
          · exact .inr m4

/-! Faults in the header. -/

omit [Build] in
theorem short_shape {r t1 : Bytes} {v : Int} {len : Nat} (h : unpackSizeWithLength r = .ok (v, len, t1)) (hl : len ≤ 4) : ¬ SizeTooLong r ∧ ¬ SizeUnfinished r :=
  (SeqHead.byte (b := 0) ⟨0, r, v, len, rfl, by decide, rfl, h, hl, rfl⟩).2

omit [Build] in
/-- Sizes read from the same place. -/
theorem ShortSizes.cmp : ∀ {ns ns' : List Nat} {t r r' : Bytes}, ShortSizes ns t r → ShortSizes ns' t r' →
    (ns.length = ns'.length → ns = ns' ∧ r = r') ∧ (ns.length < ns'.length → ¬ SizeTooLong r ∧ ¬ SizeUnfinished r)
  | [], [], t, r, r', h, h' => by cases h; cases h'; exact ⟨fun _ => ⟨rfl, rfl⟩, fun h => by cases h⟩
  | [], _ :: _, t, r, r', h, ⟨v, len, t1, h1, h2, h3, h4⟩ => by
    cases h
    exact ⟨(fun h => by cases h), fun _ => short_shape h1 h2⟩
  | _ :: _, [], t, r, r', h, h' => ⟨(fun h => by cases h), fun h => by cases h⟩
  | n :: ns, n' :: ns', t, r, r', ⟨v, len, t1, h1, h2, h3, h4⟩, ⟨v', len', t1', h1', h2', h3', h4'⟩ => by
    rw [h1] at h1'
    cases h1'
    obtain ⟨k1, k2⟩ := h4.cmp h4'
    refine ⟨fun h => ?_, fun h => k2 (by simpa using h)⟩
    obtain ⟨rfl, rfl⟩ := k1 (by simpa using h)
    exact ⟨by rw [h3, h3'], rfl⟩

omit [Build] in
theorem PartIPHead.append {f rest : Bytes} (h : PartIPHead f rest) (x : Bytes) : PartIPHead (f ++ x) (rest ++ x) := by
  obtain ⟨b, t, ns, rfl, h1, h2, h3⟩ := h
  exact ⟨b, t ++ x, ns, rfl, h1, h2, h3.append x⟩

omit [Build] in
theorem FullIPHead.part {f rest : Bytes} {c n : Nat} {body : Bytes} (h : FullIPHead f c n body) (hp : PartIPHead f rest) :
    ¬ SizeTooLong rest ∧ ¬ SizeUnfinished rest := by
  obtain ⟨b, t, m, sg, sh, fr, rfl, h1, h2, h3⟩ := h
  obtain ⟨b', t', ns, hb, k1, k2, k3⟩ := hp
  cases hb
  exact (k3.cmp h3).2 k2

omit [Build] in
theorem FullIPHead.unique {f : Bytes} {c n c' n' : Nat} {body body' : Bytes} (h : FullIPHead f c n body) (h' : FullIPHead f c' n' body') :
    c = c' ∧ n = n' ∧ body = body' := by
  obtain ⟨b, t, m, sg, sh, fr, rfl, h1, rfl, h3⟩ := h
  obtain ⟨b', t', m', sg', sh', fr', hb, h1', rfl, h3'⟩ := h'
  cases hb
  obtain ⟨k1, k2⟩ := (h3.cmp h3').1 rfl
  injection k1 with _ k1
  injection k1 with _ k1
  injection k1 with _ k1
  injection k1 with _ k1
  injection k1 with k1 _
  exact ⟨rfl, k1, k2⟩

omit [Build] in
theorem FullIPHead.byte {f : Bytes} {c n : Nat} {body : Bytes} (h : FullIPHead f c n body) : ∃ b t, f = b :: t ∧ TypeInPlace b := by
  obtain ⟨b, t, m, sg, sh, fr, h0, h1, h2, h3⟩ := h
  exact ⟨b, t, h0, h1⟩

omit [Build] in
theorem PartIPHead.byte {f rest : Bytes} (h : PartIPHead f rest) : ∃ b t, f = b :: t ∧ TypeInPlace b := by
  obtain ⟨b, t, ns, h0, h1, h2, h3⟩ := h
  exact ⟨b, t, h0, h1⟩

omit [Build] in
theorem PartIPHead.differ {f rest rest' : Bytes} (h : PartIPHead f rest) (h' : PartIPHead f rest') (h1 : SizeTooLong rest) (h2 : SizeUnfinished rest') : False := by
  obtain ⟨b, t, ns, rfl, k1, k2, k3⟩ := h
  obtain ⟨b', t', ns', hb, k1', k2', k3'⟩ := h'
  cases hb
  rcases Nat.lt_trichotomy ns.length ns'.length with g | g | g
  · exact ((k3.cmp k3').2 g).1 h1
  · obtain ⟨-, rfl⟩ := (k3.cmp k3').1 g
    have := h1.1
    have := h2.1
    omega
  · exact ((k3'.cmp k3).2 g).2 h2

/-- A patch with a fault in the header is none with a good header. -/
theorem IPHeaderFault.head {patch : Bytes} {e : Int} (h : IPHeaderFault patch e) {f x : Bytes} (hp : patch = f ++ x) {c n : Nat} {body : Bytes}
    (hh : FullIPHead f c n body) : e = BAD_COMPRESSION ∧ ¬ BuiltIn c := by
  have hh := hp ▸ hh.append x
  cases h with
  | empty h => subst h; obtain ⟨_, _, h, _⟩ := hh.byte; cases h
  | type h1 h2 => subst h1; obtain ⟨_, _, h, h3⟩ := hh.byte; cases h; exact absurd h3 h2
  | tooLong h1 h2 => exact absurd h2 (hh.part h1).1
  | compression h1 h2 => exact ⟨rfl, (hh.unique h1).1 ▸ h2⟩
  | unfinished h1 h2 => exact absurd h2 (hh.part h1).2

theorem IPHeaderFault.full {patch : Bytes} {e : Int} (h : IPHeaderFault patch e) {f x : Bytes} (hp : patch = f ++ x) : ¬ FullOk f := by
  rintro ⟨c, n, body, k1, k2, _⟩
  exact (h.head hp k1).2 k2

/-- The error for a part of a patch with a fault in its header. -/
theorem IPHeaderFault.refused {patch : Bytes} {e : Int} (h : IPHeaderFault patch e) {f x : Bytes} (hp : patch = f ++ x) {r : Int} (hr : IPRefused f r) : r = e := by
  cases hr with
  | @type b t h1 h2 =>
    subst h1
    cases h with
    | empty h => rw [h] at hp; cases hp
    | type h1 => rfl
    | tooLong g1 => obtain ⟨_, _, g, g2⟩ := g1.byte; rw [g] at hp; cases hp; exact absurd g2 h2
    | compression g1 => obtain ⟨_, _, g, g2⟩ := g1.byte; rw [g] at hp; cases hp; exact absurd g2 h2
    | unfinished g1 => obtain ⟨_, _, g, g2⟩ := g1.byte; rw [g] at hp; cases hp; exact absurd g2 h2
  | @headerSize rest h1 h3 =>
    have h3 := h3.append x
    have h1 := hp ▸ h1.append x
    cases h with
    | empty h => obtain ⟨_, _, g, _⟩ := h1.byte; rw [h] at g; cases g
    | type g1 g2 => obtain ⟨_, _, g, g3⟩ := h1.byte; rw [g1] at g; cases g; exact absurd g3 g2
    | tooLong => rfl
    | compression g1 => exact absurd h3 (g1.part h1).1
    | unfinished g1 g3 => exact (h1.differ g1 h3 g3).elim
  | compression h1 h2 => exact (h.head hp h1).1.symm
  | body h1 h2 => exact absurd h2 (h.head hp h1).2

theorem IPHeaderFault.means {patch : Bytes} {e : Int} (h : IPHeaderFault patch e) {f x : Bytes} (hp : patch = f ++ x) {made p r}
    (hr : IPMeans f made (.process p) r) : r = e := by
  cases hr with
  | refused k => exact h.refused hp k
  | callback k1 k2 => exact absurd k2 (h.head hp k1).2

theorem IPHeaderFault.final {patch : Bytes} {e : Int} (h : IPHeaderFault patch e) {made r} (hr : IPMeans patch made .finalize r) : r = e := by
  have hp : patch = patch ++ [] := (List.append_nil _).symm
  cases hr with
  | refused k => exact h.refused hp k
  | callback k1 k2 => exact absurd k2 (h.head hp k1).2
  | leftOver k1 k2 => exact absurd k2 (h.head hp k1).2
  | empty k =>
    subst k
    cases h with
    | empty => rfl
    | type h1 => cases h1
    | tooLong h1 => obtain ⟨_, _, g, _⟩ := h1.byte; cases g
    | compression h1 => obtain ⟨_, _, g, _⟩ := h1.byte; cases g
    | unfinished h1 => obtain ⟨_, _, g, _⟩ := h1.byte; cases g
  | unfinished k =>
    cases k with
    | body k1 k2 => exact absurd k2 (h.head hp k1).2
    | header h1 h3 =>
      cases h with
      | empty g => obtain ⟨_, _, g', _⟩ := h1.byte; rw [g] at g'; cases g'
      | type g1 g2 => obtain ⟨_, _, g, g3⟩ := h1.byte; rw [g1] at g; cases g; exact absurd g3 g2
      | tooLong g1 g3 => exact (g1.differ h1 g3 h3).elim
      | compression g1 => exact absurd h3 (g1.part h1).2
      | unfinished => rfl

/-- The return values for pieces of a patch with a fault in its header. -/
theorem ip_faulty_returns (hE : PlainMem E) {patch : Bytes} {e : Int} (hf : IPHeaderFault patch e) : ∀ (pieces : List Bytes) {f : Bytes} {s : InPlace} {w : MWorld σ},
    patch = f ++ pieces.flatten → EInv f s → IPAtRest s → s.state ≠ .failed →
    ∃ rs s', runInPlaceCalls E s w (pieces.map .process ++ [.finalize]) = .ok (rs, s', w) ∧ rs.find? (· != 0) = some e
  | [], f, s, w, hp, hi, ha, hs => by
    simp only [List.flatten_nil, List.append_nil] at hp
    subst hp
    obtain ⟨q1, q2⟩ := eFinalize (w := w) hE hi ha
    cases hc : inPlaceFinalize E s w with
    | error u => exact absurd (q1 hc) (hf.full (List.append_nil _).symm)
    | ok o =>
      obtain ⟨r, s1, w1⟩ := o
      obtain ⟨k1, k2, k3, k4⟩ := q2 hc
      have hw : w1 = w := k1.quiet.resolve_right (hf.full (List.append_nil _).symm)
      subst hw
      refine ⟨[r], s1, by simp [runInPlaceCalls, hc, Bind.bind, Except.bind], ?_⟩
      rcases k4 with ⟨_, c, body, g1, g2⟩ | ⟨h0, k4⟩
      · exact absurd g2 (hf.head (List.append_nil _).symm g1).2
      · have hr : r = e := by
          rcases k4 with ⟨made, _, k4⟩ | ⟨_, k4⟩
          · exact hf.final k4
          · exact absurd k4 hs
        have : (r != 0) = true := by simp; omega
        rw [List.find?_cons, this, hr]
  | p :: ps, f, s, w, hp, hi, ha, hs => by
    have hp' : patch = (f ++ p) ++ ps.flatten := by rw [hp]; simp
    obtain ⟨q1, q2⟩ := eProcess (w := w) hE hi ha (p := p)
    cases hc : inPlaceProcess E s w p with
    | error u => exact absurd (q1 hc) (hf.full hp')
    | ok o =>
      obtain ⟨r, s1, w1⟩ := o
      obtain ⟨k1, k2, k3, k4⟩ := q2 hc
      have hw : w1 = w := k1.quiet.resolve_right (hf.full hp')
      subst hw
      rcases k4 with rfl | ⟨h0, k4⟩
      · have hs1 : s1.state ≠ .failed := fun g => (k3 g).elim hs fun g => by omega
        obtain ⟨rs, s2, g1, g2⟩ := ip_faulty_returns hE hf ps (w := w1) hp' k1.inv k2 hs1
        refine ⟨0 :: rs, s2, ?_, by simpa using g2⟩
        simp only [List.map_cons, List.cons_append, runInPlaceCalls, hc, g1, Bind.bind, Except.bind]
      · have hr : r = e := by
          rcases k4 with ⟨made, _, k4⟩ | ⟨_, k4⟩
          · exact hf.means hp' k4
          · exact absurd k4 hs
        have : (r != 0) = true := by simp; omega
        obtain ⟨n1, n2⟩ := eCalls hE (ps.map .process ++ [.finalize]) (w := w1) k1.inv k2
        have hfed : ∀ ps : List Bytes, fedBytes (ps.map .process ++ [.finalize]) = ps.flatten := by
          intro ps
          induction ps with
          | nil => rfl
          | cons p ps ih => simpa [fedBytes] using ih
        rw [hfed, ← hp'] at n1 n2
        cases hd : runInPlaceCalls E s1 w1 (ps.map .process ++ [.finalize]) with
        | error u =>
          obtain ⟨x, y, g1, g2⟩ := n1 hd
          exact absurd g2 (hf.full g1)
        | ok o =>
          obtain ⟨rs, s2, w2⟩ := o
          obtain ⟨-, -, -, g⟩ := n2 hd
          have hw : w2 = w1 := g.resolve_right (hf.full (List.append_nil _).symm)
          subst hw
          refine ⟨r :: rs, s2, ?_, ?_⟩
          · simp only [List.map_cons, List.cons_append, runInPlaceCalls, hc, hd, Bind.bind, Except.bind]
          · rw [List.find?_cons, this, hr]

end Detools
