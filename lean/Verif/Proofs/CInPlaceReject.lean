import Verif.Proofs.CInPlaceCalls
/-
Patches the in-place C API must reject because of their first byte.
-/
namespace Detools

variable [Build]

variable {E : MemEnv σ}

/-- The first byte of no in-place patch the C library can apply. -/
def BadFirst (b : UInt8) : Prop :=
  (b.toNat >>> 4) &&& 0x7 ≠ 1 ∨ ¬ BuiltIn (b.toNat &&& 0xf)

theorem init_unknown {n c : Nat} (h : ¬ BuiltIn c) : CReader.init n c = none := by
  unfold BuiltIn at h
  unfold CReader.init
  rw [if_neg (fun h' => h (.inl h')), if_neg (fun h' => h (.inr (.inl h'))), if_neg (fun h' => h (.inr (.inr (.inl h'))))]
  by_cases hc : c = 1
  · cases hl : (Build.lzma : Option LzmaLib) with
    | none => simp [hc]
    | some L => exact absurd (.inr (.inr (.inr ⟨hc, by rw [hl]; simp⟩))) h
  · rw [if_neg hc]

/-- The first byte was read and the object can only fail. -/
def Doomed (s : InPlace) : Prop :=
  s.state = .failed ∨ (IPInv s ∧ s.state = .init ∧ s.initState ≠ .fixedHeader ∧ ¬ BuiltIn s.compression)

theorem Doomed.state {s : InPlace} (h : Doomed s) : IPState s := h.imp id (·.1)

theorem once_neg {s : InPlace} {w : MWorld σ} {e : Int} {s' : InPlace} (hs : s.state = .init)
    (h : ipInit E s w = .ok (e, s', w)) (he : e < 0) :
    ipOnce E s w = .ok (e, { s' with state := .failed }, w) := by
  unfold ipOnce
  rw [if_neg (by rw [hs]; decide)]
  simp only [ipSwitch, hs, h, Bind.bind, Except.bind]
  rw [if_pos he]

theorem once_pos {s : InPlace} {w : MWorld σ} {e : Int} {s' : InPlace} (hs : s.state = .init)
    (h : ipInit E s w = .ok (e, s', w)) (he : 0 ≤ e) :
    ipOnce E s w = .ok (e, s', w) := by
  unfold ipOnce
  rw [if_neg (by rw [hs]; decide)]
  simp only [ipSwitch, hs, h, Bind.bind, Except.bind]
  rw [if_neg (by omega)]

theorem doomed_size {s : InPlace} (h : IPInv s) (hs : s.state = .init) (hk : ¬ BuiltIn s.compression)
    (hi : s.initState ≠ .fixedHeader) (w : MWorld σ) (next : IPInit) (set : InPlace → Nat → InPlace) (hn : next ≠ .fixedHeader)
    (hset : ∀ s v, ∃ a b c d, set s v = { s with memorySize := a, segmentSize := b, shiftSize := c, fromSize := d })
    (he : ipInit E s w = ipInitSize s w next set) :
    ∃ res s', ipOnce E s w = .ok (res, s', w) ∧ Doomed s' ∧ res ≤ 1 ∧ res ≠ ALREADY_DONE := by
  obtain ⟨v, c, acc, e, g⟩ := h.headerSize hs
  unfold ipInitSize at he
  rw [e] at he
  match v, g with
  | .more, ⟨g1, g2⟩ => exact ⟨1, _, once_pos hs he (by decide), .inr ⟨g1, hs, hi, hk⟩, by decide, by decide⟩
  | .fail e, ⟨g1, g2⟩ => exact ⟨e, _, once_neg hs he g1, .inl rfl, by omega, g2⟩
  | .value v, ⟨g1, _, _, g4⟩ =>
    obtain ⟨k1, k2, k3, k4, ek⟩ := hset { s with chunk := c, size := acc } (szOfInt v)
    refine ⟨0, _, once_pos hs he (Int.le_refl 0), .inr ?_, by decide, by decide⟩
    rw [ek]
    exact ⟨⟨(fun h => by cases h), g1.chunk, g1.rsize, g1.toSz, g1.done, g1.reader⟩, hs, hn, hk⟩

theorem doomed_once {s : InPlace} (h : Doomed s) (w : MWorld σ) :
    ∃ res s', ipOnce E s w = .ok (res, s', w) ∧ Doomed s' ∧ res ≤ 1 ∧ res ≠ ALREADY_DONE := by
  rcases h with h | ⟨hI, hs, hi, hk⟩
  · exact ⟨_, _, ipOnce_failed h w, .inl h, by decide, by decide⟩
  · cases hx : s.initState with
    | fixedHeader => exact absurd hx hi
    | memorySize => exact doomed_size hI hs hk hi w .segmentSize (fun s v => { s with memorySize := v }) (by decide) (fun s v => ⟨_, _, _, _, rfl⟩) (by simp only [ipInit, hx])
    | segmentSize => exact doomed_size hI hs hk hi w .shiftSize (fun s v => { s with segmentSize := v }) (by decide) (fun s v => ⟨_, _, _, _, rfl⟩) (by simp only [ipInit, hx])
    | shiftSize => exact doomed_size hI hs hk hi w .fromSize (fun s v => { s with shiftSize := v }) (by decide) (fun s v => ⟨_, _, _, _, rfl⟩) (by simp only [ipInit, hx])
    | fromSize => exact doomed_size hI hs hk hi w .toSize (fun s v => { s with fromSize := v }) (by decide) (fun s v => ⟨_, _, _, _, rfl⟩) (by simp only [ipInit, hx])
    | toSize =>
      have he : ipInit E s w = ipInitToSize E s w := by simp only [ipInit, hx]
      obtain ⟨v, c, acc, e, g⟩ := hI.headerSize hs
      unfold ipInitToSize at he
      rw [e] at he
      match v, g with
      | .more, ⟨g1, g2⟩ => exact ⟨1, _, once_pos hs he (by decide), .inr ⟨g1, hs, hi, hk⟩, by decide, by decide⟩
      | .fail e, ⟨g1, g2⟩ => exact ⟨e, _, once_neg hs he g1, .inl rfl, by omega, g2⟩
      | .value v, _ =>
        simp only [Bind.bind, Except.bind, init_unknown hk] at he
        exact ⟨_, _, once_neg hs he (by decide), .inl rfl, by decide, by decide⟩

theorem first_once {s : InPlace} (hI : IPInv s) (hs : s.state = .init) (hi : s.initState = .fixedHeader) (w : MWorld σ)
    {b : UInt8} (hb : BadFirst b) (hr : s.chunk.rest = [] ∨ ∃ t, s.chunk.rest = b :: t) :
    ∃ res s', ipOnce E s w = .ok (res, s', w) ∧ Doomed s' ∧ res ≤ 1 ∧ res ≠ ALREADY_DONE := by
  have he : ipInit E s w = ipInitFixedHeader s w := by simp only [ipInit, hi]
  unfold ipInitFixedHeader at he
  rcases hr with hr | ⟨t, hr⟩
  · rw [s.chunk.get_nil hI.chunk hr] at he
    exact ⟨_, _, once_neg hs he (by decide), .inl rfl, by decide, by decide⟩
  · obtain ⟨e1, e2, e3⟩ := s.chunk.get_cons hI.chunk hr
    rw [e1] at he
    simp only [Bind.bind, Except.bind] at he
    by_cases ht : (b.toNat >>> 4) &&& 0x7 = 1
    · simp only [ht, ne_eq, not_true, if_false] at he
      refine ⟨_, _, once_pos hs he (Int.le_refl 0), .inr ⟨?_, hs, by simp, ?_⟩, by decide, by decide⟩
      · exact ⟨(fun h => by cases h), e3, hI.rsize, hI.toSz, hI.done, fun hn => absurd hs hn⟩
      · exact hb.resolve_left (fun h => h ht)
    · simp only [ht, ne_eq, not_false_iff, if_true] at he
      exact ⟨_, _, once_neg hs he (by decide), .inl rfl, by decide, by decide⟩

theorem doomed_loop : ∀ (fuel : Nat) (res : Int) {s : InPlace} (w : MWorld σ), Doomed s → res ≤ 1 ∧ res ≠ ALREADY_DONE →
    ∀ {r s' w'}, ipProcessLoop E fuel res s w = .ok (r, s', w') → w' = w ∧ Doomed s' ∧ r ≤ 1 ∧ r ≠ ALREADY_DONE := by
  intro fuel
  induction fuel with
  | zero => intro res s w _ _ r s' w' h; cases h
  | succ fuel ih =>
    intro res s w hd hr r s' w' h
    rw [ipProcessLoop] at h
    split at h
    · obtain ⟨r1, s1, e1, h1, h2⟩ := doomed_once (E := E) hd w
      rw [e1] at h
      exact ih r1 w h1 h2 h
    · cases h; exact ⟨rfl, hd, hr⟩

theorem doomed_fin : ∀ (fuel : Nat) {s : InPlace} (w : MWorld σ), Doomed s →
    ∀ {r s' w'}, ipFinalizeLoop E fuel s w = .ok (r, s', w') → w' = w ∧ Doomed s' ∧ r ≤ 1 ∧ r ≠ ALREADY_DONE ∧ r ≠ 0 := by
  intro fuel
  induction fuel with
  | zero => intro s w _ r s' w' h; cases h
  | succ fuel ih =>
    intro s w hd r s' w' h
    rw [ipFinalizeLoop] at h
    obtain ⟨r1, s1, e1, h1, h2, h3⟩ := doomed_once (E := E) hd w
    rw [e1] at h
    simp only [Bind.bind, Except.bind] at h
    split at h
    · exact ih w h1 h
    · rename_i hne
      cases h; exact ⟨rfl, h1, h2, h3, hne⟩

theorem Doomed.setChunk {s : InPlace} (h : Doomed s) (p : Bytes) : Doomed { s with chunk := { buf := p, offset := 0 } } :=
  h.imp id fun ⟨a, b, c, d⟩ => ⟨a.setChunk p, b, c, d⟩

/-- Either the first byte was read, or nothing was. -/
def Unread (s : InPlace) : Prop := IPInv s ∧ s.state = .init ∧ s.initState = .fixedHeader

omit [Build] in
theorem cf_neg {r : Int} (h1 : r ≤ 1) (h2 : r ≠ ALREADY_DONE) (h3 : r ≠ 0) (x : Option CReader) (n : Nat) : commonFinalize r x n < 0 := by
  by_cases h : r = 1
  · subst h; rw [cf_one]; decide
  · rw [cf_other h h2 h3]; omega

theorem doomed_process {s : InPlace} (h : Doomed s) {w : MWorld σ} {p : Bytes} {r s' w'}
    (he : inPlaceProcess E s w p = .ok (r, s', w')) : w' = w ∧ Doomed s' ∧ r ≤ 0 := by
  unfold inPlaceProcess at he
  simp only at he
  cases hl : ipProcessLoop E _ 0 { s with chunk := { buf := p, offset := 0 } } w with
  | error u => rw [hl] at he; cases he
  | ok x =>
    obtain ⟨r1, s1, w1⟩ := x
    rw [hl] at he
    obtain ⟨a, b, c, d⟩ := doomed_loop _ _ w (h.setChunk p) ⟨by decide, by decide⟩ hl
    simp only [Bind.bind, Except.bind] at he
    split at he
    · cases he; exact ⟨a, b, by decide⟩
    · cases he; exact ⟨a, b, by omega⟩

theorem doomed_finalize {s : InPlace} (h : Doomed s) {w : MWorld σ} {r s' w'}
    (he : inPlaceFinalize E s w = .ok (r, s', w')) : w' = w ∧ Doomed s' ∧ r < 0 := by
  unfold inPlaceFinalize at he
  simp only at he
  cases hl : ipFinalizeLoop E _ { s with chunk := { buf := [], offset := 0 } } w with
  | error u => rw [hl] at he; cases he
  | ok x =>
    obtain ⟨r1, s1, w1⟩ := x
    rw [hl] at he
    obtain ⟨a, b, c, d, e⟩ := doomed_fin _ w (h.setChunk []) hl
    simp only [Bind.bind, Except.bind] at he
    cases he
    exact ⟨a, b, cf_neg c d e _ _⟩

theorem unread_process {b : UInt8} (hb : BadFirst b) {s : InPlace} (h : Unread s) {w : MWorld σ} {p : Bytes} {r s' w'}
    (hp : p = [] ∨ ∃ t, p = b :: t)
    (he : inPlaceProcess E s w p = .ok (r, s', w')) : w' = w ∧ r ≤ 0 ∧ (Doomed s' ∨ p = [] ∧ Unread s') := by
  unfold inPlaceProcess at he
  simp only at he
  obtain ⟨f, hf⟩ := fuel_succ { s with chunk := { buf := p, offset := 0 } }
  rw [hf] at he
  rcases hp with rfl | ⟨t, rfl⟩
  · rw [ipLoop_stop E (.inl rfl)] at he
    simp only [Bind.bind, Except.bind] at he
    rw [if_neg (by decide)] at he
    cases he
    exact ⟨rfl, by decide, .inr ⟨rfl, h.1.setChunk [], h.2⟩⟩
  · rw [ipProcessLoop, if_pos ⟨by simp [Chunk.available, Chunk.left], by decide⟩] at he
    obtain ⟨r1, s1, e1, h1, h2⟩ := first_once (E := E) (h.1.setChunk (b :: t)) h.2.1 h.2.2 w hb (.inr ⟨t, rfl⟩)
    rw [e1] at he
    simp only [Bind.bind, Except.bind] at he
    cases hl : ipProcessLoop E f r1 s1 w with
    | error u => rw [hl] at he; cases he
    | ok x =>
      obtain ⟨r2, s2, w2⟩ := x
      rw [hl] at he
      obtain ⟨a, b, c, d⟩ := doomed_loop _ _ w h1 h2 hl
      simp only at he
      split at he
      · cases he; exact ⟨a, by decide, .inl b⟩
      · cases he; exact ⟨a, by omega, .inl b⟩

theorem unread_finalize {s : InPlace} (h : Unread s) {w : MWorld σ} {r s' w'}
    (he : inPlaceFinalize E s w = .ok (r, s', w')) : w' = w ∧ r < 0 ∧ Doomed s' := by
  unfold inPlaceFinalize at he
  simp only at he
  obtain ⟨f, hf⟩ := fuel_succ { s with chunk := { buf := [], offset := 0 } }
  rw [hf] at he
  obtain ⟨r1, s1, e1, h1, h2, h3⟩ := first_once (E := E) (h.1.setChunk []) h.2.1 h.2.2 w (b := 0) (.inl (by decide)) (.inl rfl)
  rw [ipFinalizeLoop, e1] at he
  simp only [Bind.bind, Except.bind] at he
  by_cases h0 : r1 = 0
  · rw [if_pos h0] at he
    cases hl : ipFinalizeLoop E f s1 w with
    | error u => rw [hl] at he; cases he
    | ok x =>
      obtain ⟨r2, s2, w2⟩ := x
      rw [hl] at he
      obtain ⟨a, b, c, d, e⟩ := doomed_fin _ w h1 hl
      cases he
      exact ⟨a, cf_neg c d e _ _, b⟩
  · rw [if_neg h0] at he
    cases he
    exact ⟨rfl, cf_neg h2 h3 h0 _ _, h1⟩

theorem bad_runs {b : UInt8} (hb : BadFirst b) : ∀ (calls : List Call) {s : InPlace} (w : MWorld σ),
    (Doomed s ∨ Unread s ∧ (fedBytes calls = [] ∨ ∃ t, fedBytes calls = b :: t)) →
    ∀ {rs s' w'}, runInPlaceCalls E s w calls = .ok (rs, s', w') → w' = w ∧ Rejecting calls rs := by
  intro calls
  induction calls with
  | nil => intro s w _ rs s' w' h; cases h; exact ⟨rfl, trivial⟩
  | cons c cs ih =>
    intro s w hs rs s' w' h
    cases c with
    | process p =>
      rw [runInPlaceCalls] at h
      cases hp : inPlaceProcess E s w p with
      | error u => rw [hp] at h; cases h
      | ok x =>
        obtain ⟨r1, s1, w1⟩ := x
        rw [hp] at h
        simp only [Bind.bind, Except.bind] at h
        have key : w1 = w ∧ r1 ≤ 0 ∧ (Doomed s1 ∨ Unread s1 ∧ (fedBytes cs = [] ∨ ∃ t, fedBytes cs = b :: t)) := by
          rcases hs with hs | ⟨hs, hfed⟩
          · obtain ⟨a, b, c⟩ := doomed_process hs hp
            exact ⟨a, c, .inl b⟩
          · have hpp : p = [] ∨ ∃ t, p = b :: t := by
              cases p with
              | nil => exact .inl rfl
              | cons x t =>
                rcases hfed with h | ⟨t', h⟩
                · simp [fedBytes] at h
                · simp only [fedBytes, List.cons_append, List.cons.injEq] at h
                  exact .inr ⟨t, by rw [h.1]⟩
            obtain ⟨a, k, c⟩ := unread_process hb hs hpp hp
            refine ⟨a, k, c.imp id fun ⟨e, k⟩ => ⟨k, ?_⟩⟩
            subst e
            simpa [fedBytes] using hfed
        obtain ⟨rfl, k1, k2⟩ := key
        cases hq : runInPlaceCalls E s1 w1 cs with
        | error u => rw [hq] at h; cases h
        | ok y =>
          obtain ⟨rs2, s2, w2⟩ := y
          rw [hq] at h
          cases h
          obtain ⟨a, b⟩ := ih w1 k2 hq
          exact ⟨a, k1, b⟩
    | finalize =>
      rw [runInPlaceCalls] at h
      cases hp : inPlaceFinalize E s w with
      | error u => rw [hp] at h; cases h
      | ok x =>
        obtain ⟨r1, s1, w1⟩ := x
        rw [hp] at h
        simp only [Bind.bind, Except.bind] at h
        have key : w1 = w ∧ r1 < 0 ∧ Doomed s1 := by
          rcases hs with hs | ⟨hs, hfed⟩
          · obtain ⟨a, b, c⟩ := doomed_finalize hs hp
            exact ⟨a, c, b⟩
          · exact unread_finalize hs hp
        obtain ⟨rfl, k1, k2⟩ := key
        cases hq : runInPlaceCalls E s1 w1 cs with
        | error u => rw [hq] at h; cases h
        | ok y =>
          obtain ⟨rs2, s2, w2⟩ := y
          rw [hq] at h
          cases h
          obtain ⟨a, b⟩ := ih w1 (.inl k2) hq
          exact ⟨a, k1, b⟩

end Detools
