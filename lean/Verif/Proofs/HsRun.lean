import Verif.Proofs.HsBits
/-
The heatshrink decoder as a machine that emits one byte at a time, and polling as a
run of it.
-/
namespace Detools

/-- Invariant of the decoder. -/
structure HInv (cfg : HsCfg) (h : Hsd) : Prop extends HIn cfg h where
  win : h.window.length = 2 ^ cfg.window
  head : h.headIndex < 2 ^ 16
  im : h.state = .indexMsb → 8 < cfg.window
  cm : h.state = .countMsb → 8 < cfg.lookahead
  cl : h.state = .countLsb → h.outputCount < 2 ^ 15
  br : h.state = .yieldBackref → 1 ≤ h.outputCount ∧ h.outputCount ≤ 2 ^ 15

/-- Number of bits of the field a state reads. -/
def fieldLen (cfg : HsCfg) : HsState → Nat
  | .tagBit => 1
  | .yieldLiteral => 8
  | .indexMsb => cfg.window - 8
  | .indexLsb => if cfg.window < 8 then cfg.window else 8
  | .countMsb => cfg.lookahead - 8
  | .countLsb => if cfg.lookahead < 8 then cfg.lookahead else 8
  | .yieldBackref => 0

/-- The transition of a state that only reads a field. -/
def fieldNext (cfg : HsCfg) (v : Nat) (h : Hsd) : Hsd :=
  match h.state with
  | .tagBit =>
    if v ≠ 0 then { h with state := .yieldLiteral }
    else if cfg.window > 8 then { h with state := .indexMsb }
    else { h with state := .indexLsb, outputIndex := 0 }
  | .indexMsb => { h with state := .indexLsb, outputIndex := u16 (v <<< 8) }
  | .indexLsb =>
    { h with
      state := if cfg.lookahead > 8 then .countMsb else .countLsb
      outputIndex := u16 ((h.outputIndex ||| v) + 1), outputCount := 0 }
  | .countMsb => { h with state := .countLsb, outputCount := u16 (v <<< 8) }
  | .countLsb => { h with state := .yieldBackref, outputCount := u16 ((h.outputCount ||| v) + 1) }
  | _ => h

def isField : HsState → Bool
  | .yieldLiteral => false
  | .yieldBackref => false
  | _ => true

theorem hsStep_field {cfg : HsCfg} {h : Hsd} (hf : isField h.state = true) (n : Nat) (out : Bytes) :
    hsStep cfg n h out = (do
      match ← hsGetBits h (fieldLen cfg h.state) with
      | (none, h') => .ok (h.state, h', out)
      | (some v, h') => .ok ((fieldNext cfg v { h' with state := h.state }).state,
          { fieldNext cfg v { h' with state := h.state } with state := h'.state }, out)) := by
  cases hs : h.state
  case yieldLiteral => rw [hs] at hf; cases hf
  case yieldBackref => rw [hs] at hf; cases hf
  all_goals
    simp only [hsStep, hs, fieldLen, hsTagBit, hsIndexMsb, hsIndexLsb, hsCountMsb, hsCountLsb, fieldNext]
    generalize hsGetBits h _ = g
    cases g with
    | error e => rfl
    | ok p =>
      obtain ⟨v, h'⟩ := p
      cases v with
      | none => rfl
      | some v =>
        by_cases hv : v = 0 <;> by_cases hw : cfg.window > 8 <;>
          simp [Bind.bind, Except.bind, Except.map, hv, hw]

/-- Copy one byte of a back-reference. -/
def hsCopy1 (cfg : HsCfg) (h : Hsd) : UInt8 × Hsd :=
  let c := h.window.getD (((h.headIndex : Int) - h.outputIndex) % (2 ^ cfg.window : Nat)).toNat 0
  (c, { h with
    window := h.window.set (h.headIndex &&& (2 ^ cfg.window - 1)) c
    headIndex := u16 (h.headIndex + 1) })

theorem writeAt_one {buf : Bytes} {i : Nat} (h : i < buf.length) (c : UInt8) :
    writeAt buf i [c] = .ok (buf.set i c) := by
  unfold writeAt
  rw [if_pos (by simp; omega), List.set_eq_take_append_cons_drop, if_pos h]
  simp

theorem head_mask_lt (n w : Nat) : n &&& (2 ^ w - 1) < 2 ^ w := by
  have := Nat.two_pow_pos w
  have : n &&& (2 ^ w - 1) ≤ 2 ^ w - 1 := Nat.and_le_right
  omega

theorem emod_toNat_lt (x : Int) (w : Nat) : (x % (2 ^ w : Nat)).toNat < 2 ^ w := by
  have hp : (0 : Int) < (2 ^ w : Nat) := by exact_mod_cast Nat.two_pow_pos w
  have h1 := Int.emod_nonneg x (by omega : ((2 ^ w : Nat) : Int) ≠ 0)
  have h2 := Int.emod_lt_of_pos x hp
  omega

theorem hsCopyLoop_succ {cfg : HsCfg} {h : Hsd} (hw : h.window.length = 2 ^ cfg.window) {n k : Nat} {out : Bytes}
    (ho : out.length < n) :
    hsCopyLoop cfg n (k + 1) h out = hsCopyLoop cfg n k (hsCopy1 cfg h).2 (out ++ [(hsCopy1 cfg h).1]) := by
  have hlt : (((h.headIndex : Int) - h.outputIndex) % (2 ^ cfg.window : Nat)).toNat < h.window.length := by
    rw [hw]; exact emod_toNat_lt _ _
  have hi : h.headIndex &&& (2 ^ cfg.window - 1) < h.window.length := by
    rw [hw]; exact head_mask_lt _ _
  rw [hsCopyLoop]
  simp only [List.getElem?_eq_getElem hlt, hsPush, ho, if_true, Bind.bind, Except.bind, hsSetWindow,
    writeAt_one hi, Pure.pure, Except.pure]
  simp only [hsCopy1, List.getD_eq_getElem?_getD, List.getElem?_eq_getElem hlt, Option.getD_some]

/-- One step of the machine: `none` if it needs input, else the byte it emits (if
any) and the next state. -/
def hsMicro (cfg : HsCfg) (h : Hsd) : Option (Option UInt8 × Hsd) :=
  match h.state with
  | .yieldLiteral =>
    match hsGetBits h 8 with
    | .ok (some v, h') =>
      let c := UInt8.ofNat (v &&& 0xff)
      some (some c, { h' with
        headIndex := u16 (h'.headIndex + 1)
        window := h'.window.set (h'.headIndex &&& (2 ^ cfg.window - 1)) c
        state := .tagBit })
    | _ => none
  | .yieldBackref =>
    let (c, h') := hsCopy1 cfg h
    some (some c, { h' with
      outputCount := h.outputCount - 1, state := if h.outputCount - 1 = 0 then .tagBit else .yieldBackref })
  | _ =>
    match hsGetBits h (fieldLen cfg h.state) with
    | .ok (some v, h') => some (none, fieldNext cfg v h')
    | _ => none

/-- A run that emits at most `n` bytes and goes as far as it can. -/
inductive Run (cfg : HsCfg) : Nat → Hsd → Bytes → Hsd → Prop
  | stuck {n h} : hsMicro cfg h = none → Run cfg n h [] h
  | full {h b h1} : hsMicro cfg h = some (some b, h1) → Run cfg 0 h [] h
  | silent {n h h1 d h'} : hsMicro cfg h = some (none, h1) → Run cfg n h1 d h' → Run cfg n h d h'
  | emit {n h b h1 d h'} : hsMicro cfg h = some (some b, h1) → Run cfg n h1 d h' → Run cfg (n + 1) h (b :: d) h'

theorem fieldLen_range {cfg : HsCfg} (hcfg : cfg.Ok) {h : Hsd} (hi : HInv cfg h) (hb : h.state ≠ .yieldBackref) :
    1 ≤ fieldLen cfg h.state ∧ fieldLen cfg h.state ≤ 8 := by
  obtain ⟨a1, a2, a3, a4, _, _⟩ := hcfg
  cases hs : h.state <;> simp only [fieldLen]
  case yieldBackref => exact absurd hs hb
  case indexMsb => have := hi.im hs; omega
  case countMsb => have := hi.cm hs; omega
  all_goals first | omega | (split <;> omega)

/-- Effect of reading a field: the machine's state is determined by the bits. -/
theorem fieldNext_inv {cfg : HsCfg} (hcfg : cfg.Ok) {h h' : Hsd} (hi : HInv cfg h) (hf : isField h.state = true)
    {v : Nat} (hv : v < 2 ^ fieldLen cfg h.state) (hin : HIn cfg h') (hc : sameCore h h') :
    HInv cfg (fieldNext cfg v h') ∧ (fieldNext cfg v h').state ≠ h.state ∧
      hsBits (fieldNext cfg v h') = hsBits h' ∧
      (fieldNext cfg v h').inputSize = h'.inputSize := by
  obtain ⟨c1, c2, c3, c4, c5⟩ := hc
  obtain ⟨w4, w15, l3, lw, i1, i16⟩ := hcfg
  have hwin := hi.win
  have hhead := hi.head
  rw [← c5] at hwin
  rw [← c3] at hhead
  cases hs : h.state
  case yieldLiteral => rw [hs] at hf; cases hf
  case yieldBackref => rw [hs] at hf; cases hf
  case tagBit =>
    rw [hs] at c4
    simp only [fieldNext, c4]
    split
    · exact ⟨{ hin with win := hwin, head := hhead, im := nofun, cm := nofun, cl := nofun, br := nofun }, nofun, rfl, by first | rfl | trivial⟩
    · split
      · exact ⟨{ hin with win := hwin, head := hhead, im := fun _ => by omega, cm := nofun, cl := nofun, br := nofun }, nofun, rfl, by first | rfl | trivial⟩
      · exact ⟨{ hin with win := hwin, head := hhead, im := nofun, cm := nofun, cl := nofun, br := nofun }, nofun, rfl, by first | rfl | trivial⟩
  case indexMsb =>
    rw [hs] at c4
    simp only [fieldNext, c4]
    exact ⟨{ hin with win := hwin, head := hhead, im := nofun, cm := nofun, cl := nofun, br := nofun }, nofun, rfl, by first | rfl | trivial⟩
  case indexLsb =>
    rw [hs] at c4
    simp only [fieldNext, c4]
    by_cases hl : cfg.lookahead > 8
    · simp only [hl, if_true]
      exact ⟨{ hin with win := hwin, head := hhead, im := nofun, cm := fun _ => hl, cl := nofun, br := nofun }, nofun, rfl, by first | rfl | trivial⟩
    · simp only [hl, if_false]
      exact ⟨{ hin with win := hwin, head := hhead, im := nofun, cm := nofun, cl := fun _ => by show 0 < 2 ^ 15; decide, br := nofun }, nofun, rfl, by first | rfl | trivial⟩
  case countMsb =>
    rw [hs] at c4
    simp only [fieldNext, c4]
    refine ⟨{ hin with win := hwin, head := hhead, im := nofun, cm := nofun, cl := fun _ => ?_, br := nofun }, nofun, rfl, by first | rfl | trivial⟩
    show u16 (v <<< 8) < 2 ^ 15
    have hv' : v < 2 ^ (cfg.lookahead - 8) := by rw [hs] at hv; exact hv
    have : 2 ^ (cfg.lookahead - 8) ≤ 2 ^ 7 := Nat.pow_le_pow_right (by omega) (by omega)
    rw [u16, Nat.shiftLeft_eq, Nat.mod_eq_of_lt (by omega)]
    omega
  case countLsb =>
    rw [hs] at c4
    have hcl := hi.cl hs
    rw [← c1] at hcl
    simp only [fieldNext, c4]
    refine ⟨{ hin with win := hwin, head := hhead, im := nofun, cm := nofun, cl := nofun, br := fun _ => ?_ }, nofun, rfl, by first | rfl | trivial⟩
    show 1 ≤ u16 ((h'.outputCount ||| v) + 1) ∧ u16 ((h'.outputCount ||| v) + 1) ≤ 2 ^ 15
    have hv' : v < 2 ^ 15 := by
      refine Nat.lt_of_lt_of_le hv (Nat.pow_le_pow_right (by omega) ?_)
      rw [hs]; simp only [fieldLen]; split <;> omega
    have : h'.outputCount ||| v < 2 ^ 15 := Nat.or_lt_two_pow hcl hv'
    rw [u16, Nat.mod_eq_of_lt (by omega)]
    omega

/-- Work left in the decoder. -/
def hsWork (h : Hsd) : Nat :=
  2 ^ 16 * (hsBits h).length + (if h.state = .yieldBackref then h.outputCount else 0)

/-- Passes left in the polling loop. -/
def hsIter (h : Hsd) : Nat := 2 * (hsBits h).length + (if h.state = .yieldBackref then 1 else 0)

theorem hsMicro_field {cfg : HsCfg} (hcfg : cfg.Ok) {h : Hsd} (hi : HInv cfg h) (hf : isField h.state = true) :
    ((hsBits h).length < fieldLen cfg h.state ∧ hsGetBits h (fieldLen cfg h.state) = .ok (none, h) ∧
      hsMicro cfg h = none ∧ h.inputSize = 0) ∨
    (∃ h', fieldLen cfg h.state ≤ (hsBits h).length ∧
      hsGetBits h (fieldLen cfg h.state) = .ok (some (bitsVal ((hsBits h).take (fieldLen cfg h.state))), h') ∧
      HIn cfg h' ∧ sameCore h h' ∧ hsBits h' = (hsBits h).drop (fieldLen cfg h.state) ∧
      hsMicro cfg h = some (none, fieldNext cfg (bitsVal ((hsBits h).take (fieldLen cfg h.state))) h')) := by
  have hb : h.state ≠ .yieldBackref := by intro h; rw [h] at hf; cases hf
  obtain ⟨r1, r2⟩ := fieldLen_range hcfg hi hb
  have hm : hsMicro cfg h = match hsGetBits h (fieldLen cfg h.state) with
      | .ok (some v, h') => some (none, fieldNext cfg v h')
      | _ => none := by
    unfold hsMicro
    cases hs : h.state <;> first | rfl | (rw [hs] at hf; cases hf)
  by_cases hn : fieldLen cfg h.state ≤ (hsBits h).length
  · right
    obtain ⟨h', g1, g2, g3, g4⟩ := hsGetBits_ok hcfg hi.toHIn r1 r2 hn
    refine ⟨h', hn, g1, g2, g3, g4, ?_⟩
    rw [hm, g1]
  · left
    obtain ⟨g1, g2⟩ := hsGetBits_none hi.toHIn r1 r2 (by omega)
    refine ⟨by omega, g1, ?_, g2⟩
    rw [hm, g1]

/-- The machine keeps the invariant, gets smaller, and needs input only when it has
none. -/
theorem hsMicro_spec {cfg : HsCfg} (hcfg : cfg.Ok) {h : Hsd} (hi : HInv cfg h) :
    (hsMicro cfg h = none → h.inputSize = 0 ∧ h.state ≠ .yieldBackref) ∧
    (∀ o h', hsMicro cfg h = some (o, h') → HInv cfg h' ∧ hsWork h' < hsWork h ∧
      (hsBits h').length ≤ (hsBits h).length) := by
  have hwin := hi.win
  have hhead := hi.head
  suffices (hsMicro cfg h = none ∧ h.inputSize = 0 ∧ h.state ≠ .yieldBackref) ∨
      ∃ o h', hsMicro cfg h = some (o, h') ∧ HInv cfg h' ∧ hsWork h' < hsWork h ∧
        (hsBits h').length ≤ (hsBits h).length by
    rcases this with ⟨e1, e2⟩ | ⟨o, h', e1, e2⟩
    · exact ⟨fun _ => e2, fun o h' he => by rw [e1] at he; cases he⟩
    · refine ⟨fun he => by (rw [e1] at he; cases he), fun o2 h2 he => ?_⟩
      rw [e1] at he
      cases he
      exact e2
  by_cases hf : isField h.state = true
  · have hb : h.state ≠ .yieldBackref := by intro h; rw [h] at hf; cases hf
    obtain ⟨r1, r2⟩ := fieldLen_range hcfg hi hb
    rcases hsMicro_field hcfg hi hf with ⟨g1, g2, g3, g4⟩ | ⟨g, g1, g2, g3, g4, g5, g6⟩
    · exact .inl ⟨g3, g4, hb⟩
    · right
      refine ⟨_, _, g6, ?_⟩
      have hv2 : bitsVal ((hsBits h).take (fieldLen cfg h.state)) < 2 ^ fieldLen cfg h.state :=
        Nat.lt_of_lt_of_le (bitsVal_lt _) (Nat.pow_le_pow_right (by omega) (List.length_take_le _ _))
      obtain ⟨e1, e2, e3, e4⟩ := fieldNext_inv hcfg hi hf hv2 g3 g4
      generalize fieldNext cfg (bitsVal ((hsBits h).take (fieldLen cfg h.state))) g = f at *
      have hlen : (hsBits f).length + fieldLen cfg h.state = (hsBits h).length := by
        rw [e3, g5, List.length_drop]; omega
      refine ⟨e1, ?_, by omega⟩
      unfold hsWork
      rw [if_neg hb]
      have : (if f.state = .yieldBackref then f.outputCount else 0) ≤ 2 ^ 15 := by
        split
        · exact (e1.br ‹_›).2
        · omega
      omega
  · have hlit_or : h.state = .yieldLiteral ∨ h.state = .yieldBackref := by
      revert hf
      cases h.state <;> simp [isField]
    rcases hlit_or with hs | hs
    · by_cases hn : 8 ≤ (hsBits h).length
      · obtain ⟨g, g1, g2, g3, g4⟩ := hsGetBits_ok hcfg hi.toHIn (by omega) (by omega) hn
        have hm : hsMicro cfg h = some (some (UInt8.ofNat (bitsVal ((hsBits h).take 8) &&& 0xff)), { g with
            headIndex := u16 (g.headIndex + 1)
            window := g.window.set (g.headIndex &&& (2 ^ cfg.window - 1)) (UInt8.ofNat (bitsVal ((hsBits h).take 8) &&& 0xff))
            state := .tagBit }) := by
          unfold hsMicro
          rw [hs, g1]
        refine .inr ⟨_, _, hm, ?_⟩
        obtain ⟨c1, c2, c3, c4, c5⟩ := g3
        have hlen : (hsBits g).length + 8 = (hsBits h).length := by rw [g4, List.length_drop]; omega
        refine ⟨{ g2 with
          win := by simpa [c5] using hwin
          head := Nat.mod_lt _ (by decide)
          im := nofun, cm := nofun, cl := nofun, br := nofun }, ?_, ?_⟩
        · unfold hsWork
          rw [hs]
          simp only [reduceCtorEq, if_false]
          show 2 ^ 16 * (hsBits g).length + 0 < _
          omega
        · show (hsBits g).length ≤ _
          omega
      · obtain ⟨g1, g2⟩ := hsGetBits_none hi.toHIn (n := 8) (by omega) (by omega) (by omega)
        have hm : hsMicro cfg h = none := by unfold hsMicro; rw [hs, g1]
        exact .inl ⟨hm, g2, by rw [hs]; nofun⟩
    · have hm : hsMicro cfg h = some (some (hsCopy1 cfg h).1, { (hsCopy1 cfg h).2 with
          outputCount := h.outputCount - 1, state := if h.outputCount - 1 = 0 then .tagBit else .yieldBackref }) := by
        unfold hsMicro
        rw [hs]
      obtain ⟨b1, b2⟩ := hi.br hs
      refine .inr ⟨_, _, hm, ?_, ?_, Nat.le_refl _⟩
      · refine { inp := hi.inp, isz := hi.isz, idx := hi.idx, bit := hi.bit, win := ?_, head := Nat.mod_lt _ (by decide), im := ?_, cm := ?_, cl := ?_, br := ?_ }
        · simpa [hsCopy1] using hwin
        all_goals
          show (if _ then HsState.tagBit else HsState.yieldBackref) = _ → _
          split
          · nofun
          · first
            | (intro h'; exact absurd h' (by decide))
            | (intro _; exact ⟨by show 1 ≤ h.outputCount - 1; omega, by show h.outputCount - 1 ≤ 2 ^ 15; omega⟩)
      · unfold hsWork
        rw [hs]
        show 2 ^ 16 * (hsBits h).length + (if (if h.outputCount - 1 = 0 then HsState.tagBit else HsState.yieldBackref) = .yieldBackref then h.outputCount - 1 else 0) < _
        have hle : (if (if h.outputCount - 1 = 0 then HsState.tagBit else HsState.yieldBackref) = .yieldBackref then h.outputCount - 1 else 0) ≤ h.outputCount - 1 := by
          split <;> simp
        simp only [if_true]
        omega

theorem Run.inv {cfg : HsCfg} (hcfg : cfg.Ok) {n h d h'} (hr : Run cfg n h d h') (hi : HInv cfg h) :
    HInv cfg h' ∧ d.length ≤ n ∧ hsWork h' + d.length ≤ hsWork h ∧
      (d.length < n → hsMicro cfg h' = none) ∧ (∀ h1, hsMicro cfg h' ≠ some (none, h1)) := by
  induction hr with
  | stuck h => exact ⟨hi, by simp, by simp, fun _ => h, fun h1 => by rw [h]; nofun⟩
  | full h => exact ⟨hi, by simp, by simp, by simp, fun h1 => by rw [h]; nofun⟩
  | silent h _ ih =>
    obtain ⟨g1, g2, _⟩ := (hsMicro_spec hcfg hi).2 _ _ h
    obtain ⟨f1, f2, f3, f4, f5⟩ := ih g1
    exact ⟨f1, f2, by omega, f4, f5⟩
  | emit h _ ih =>
    obtain ⟨g1, g2, _⟩ := (hsMicro_spec hcfg hi).2 _ _ h
    obtain ⟨f1, f2, f3, f4, f5⟩ := ih g1
    refine ⟨f1, by simp; omega, by simp; omega, fun h => f4 (by simp at h; omega), f5⟩

theorem Run.det {cfg : HsCfg} {n h d h'} (hr : Run cfg n h d h') :
    ∀ {d2 h2}, Run cfg n h d2 h2 → d2 = d ∧ h2 = h' := by
  induction hr with
  | stuck h =>
    intro d2 h2 hr2
    cases hr2 with
    | stuck => exact ⟨rfl, rfl⟩
    | full => exact ⟨rfl, rfl⟩
    | silent g => rw [h] at g; cases g
    | emit g => rw [h] at g; cases g
  | full h =>
    intro d2 h2 hr2
    cases hr2 with
    | stuck => exact ⟨rfl, rfl⟩
    | full => exact ⟨rfl, rfl⟩
    | silent g => rw [h] at g; cases g
  | silent h _ ih =>
    intro d2 h2 hr2
    cases hr2 with
    | stuck g => rw [h] at g; cases g
    | full g => rw [h] at g; cases g
    | silent g g2 => rw [h] at g; cases g; exact ih g2
    | emit g => rw [h] at g; cases g
  | emit h _ ih =>
    intro d2 h2 hr2
    cases hr2 with
    | stuck g => rw [h] at g; cases g
    | silent g => rw [h] at g; cases g
    | emit g g2 =>
      rw [h] at g
      cases g
      obtain ⟨rfl, rfl⟩ := ih g2
      exact ⟨rfl, rfl⟩

/-- Running on after a run that was limited to nothing. -/
theorem Run.settle {cfg : HsCfg} {h h1 n d h'} (h0 : Run cfg 0 h [] h1) (hr : Run cfg n h1 d h') : Run cfg n h d h' := by
  generalize hn : (0 : Nat) = m at h0
  generalize hd : ([] : Bytes) = e at h0
  induction h0 with
  | stuck => exact hr
  | full => exact hr
  | silent g _ ih => exact .silent g (ih hr hn hd)
  | emit => cases hn

theorem Run.settle_emit {cfg : HsCfg} {h b h1 n d h'} (h0 : Run cfg 1 h [b] h1) (hr : Run cfg n h1 d h') :
    Run cfg (n + 1) h (b :: d) h' := by
  generalize hn : (1 : Nat) = m at h0
  generalize hd : [b] = e at h0
  induction h0 with
  | stuck => cases hd
  | full => cases hn
  | silent g _ ih => exact .silent g (ih hr hn hd)
  | emit g g2 =>
    cases hd
    have : (0 : Nat) = _ := Nat.succ.inj hn
    subst this
    exact .emit g (g2.settle hr)

/-- A run stops in a state from which a run limited to nothing does nothing. -/
theorem Run.stop {cfg : HsCfg} {n h d h'} (hr : Run cfg n h d h') : Run cfg 0 h' [] h' := by
  induction hr with
  | stuck h => exact .stuck h
  | full h => exact .full h
  | silent _ _ ih => exact ih
  | emit _ _ ih => exact ih

/-- The first byte of a run. -/
theorem Run.split {cfg : HsCfg} {n h d h'} (hr : Run cfg n h d h') :
    ∀ b t, d = b :: t → ∃ h1 m, n = m + 1 ∧ Run cfg 1 h [b] h1 ∧ Run cfg m h1 t h' := by
  induction hr with
  | stuck => intro b t h; cases h
  | full => intro b t h; cases h
  | silent g _ ih =>
    intro b t hd
    obtain ⟨h1, m, e1, e2, e3⟩ := ih b t hd
    exact ⟨h1, m, e1, .silent g e2, e3⟩
  | @emit n h b' h1 d h' g g2 _ =>
    intro b t hd
    cases hd
    suffices ∀ {n h d h'}, Run cfg n h d h' → ∃ h1, Run cfg 0 h [] h1 ∧ Run cfg n h1 d h' by
      obtain ⟨h2, e1, e2⟩ := this g2
      exact ⟨h2, n, rfl, .emit g e1, e2⟩
    intro n h d h' hr
    induction hr with
    | stuck h => exact ⟨_, .stuck h, .stuck h⟩
    | full h => exact ⟨_, .full h, .full h⟩
    | silent g _ ih =>
      obtain ⟨h1, e1, e2⟩ := ih
      exact ⟨h1, .silent g e1, e2⟩
    | emit g g2 _ => exact ⟨_, .full g, .emit g g2⟩

/-- Copying several bytes is several emitting steps. -/
theorem hsCopyLoop_run {cfg : HsCfg} (hcfg : cfg.Ok) {bufSize : Nat} :
    ∀ (k : Nat) (h : Hsd) (out : Bytes), HInv cfg h → h.state = .yieldBackref → 1 ≤ k → k ≤ h.outputCount →
      out.length + k ≤ bufSize →
      ∃ h2 d, hsCopyLoop cfg bufSize k h out = .ok (h2, out ++ d) ∧ d.length = k ∧ h2.outputCount = h.outputCount ∧
        h2.state = .yieldBackref ∧
        ∀ n d' h', Run cfg n { h2 with
            outputCount := h2.outputCount - k, state := if h2.outputCount - k = 0 then .tagBit else .yieldBackref } d' h' →
          Run cfg (n + k) h (d ++ d') h' := by
  intro k
  induction k with
  | zero => intro h out _ _ h; omega
  | succ k ih =>
    intro h out hi hs _ hk ho
    have hm : hsMicro cfg h = some (some (hsCopy1 cfg h).1, { (hsCopy1 cfg h).2 with
        outputCount := h.outputCount - 1, state := if h.outputCount - 1 = 0 then .tagBit else .yieldBackref }) := by
      unfold hsMicro
      rw [hs]
    rw [hsCopyLoop_succ hi.win (by omega)]
    by_cases hk0 : k = 0
    · subst hk0
      refine ⟨(hsCopy1 cfg h).2, [(hsCopy1 cfg h).1], rfl, rfl, rfl, hs, ?_⟩
      intro n d' h' hr
      exact .emit hm hr
    · have hi1 := ((hsMicro_spec hcfg hi).2 _ _ hm).1
      have hcne : ¬ (h.outputCount - 1 = 0) := by omega
      rw [if_neg hcne] at hm hi1
      obtain ⟨h2, d, e1, e2, e3, e4, e5⟩ := ih _ (out ++ [(hsCopy1 cfg h).1]) hi1 rfl (by omega)
        (by show k ≤ h.outputCount - 1; omega) (by simp; omega)
      -- the copy loop ignores outputCount and state
      have hcong : ∀ (k : Nat) (g : Hsd) (o : Bytes) (c : Nat) (s : HsState) g2 o2,
          g.window.length = 2 ^ cfg.window → o.length + k ≤ bufSize →
          hsCopyLoop cfg bufSize k { g with outputCount := c, state := s } o = .ok (g2, o2) →
          hsCopyLoop cfg bufSize k g o = .ok ({ g2 with outputCount := g.outputCount, state := g.state }, o2) := by
        intro k
        induction k with
        | zero =>
          intro g o c s g2 o2 _ _ h
          simp only [hsCopyLoop, Except.ok.injEq, Prod.mk.injEq] at h ⊢
          obtain ⟨rfl, rfl⟩ := h
          exact ⟨rfl, rfl⟩
        | succ k ihk =>
          intro g o c s g2 o2 hw ho h
          rw [hsCopyLoop_succ (by exact hw) (by omega)] at h ⊢
          exact ihk (hsCopy1 cfg g).2 _ c s g2 o2 (by simpa [hsCopy1] using hw) (by simp; omega) h
      have := hcong k (hsCopy1 cfg h).2 _ _ _ _ _ (by simpa [hsCopy1] using hi.win) (by simp; omega) e1
      refine ⟨{ h2 with outputCount := h.outputCount, state := h.state }, (hsCopy1 cfg h).1 :: d,
        by rw [this]; simp [hsCopy1], by simp [e2], rfl, hs, ?_⟩
      intro n d' h' hr
      refine .emit (n := n + k) hm (e5 n d' h' ?_)
      have hc2 : h2.outputCount = h.outputCount - 1 := e3
      rw [hc2]
      have hsub : h.outputCount - 1 - k = h.outputCount - (k + 1) := by omega
      rw [hsub]
      exact hr

/-- Polling is a run of the machine. -/
theorem hsPollLoop_run {cfg : HsCfg} (hcfg : cfg.Ok) {bufSize : Nat} :
    ∀ (fuel : Nat) (h : Hsd) (out : Bytes), HInv cfg h → out.length ≤ bufSize → hsIter h < fuel →
      ∃ h' d, hsPollLoop cfg bufSize fuel h out = .ok (h', out ++ d) ∧ Run cfg (bufSize - out.length) h d h' := by
  intro fuel
  induction fuel with
  | zero => intro h out _ _ h; omega
  | succ fuel ih =>
    intro h out hi ho hf
    unfold hsPollLoop
    have hstop : ∀ g, g = h → ({ g with state := h.state } : Hsd) = h := by rintro g rfl; rfl
    by_cases hfld : isField h.state = true
    · have hb : h.state ≠ .yieldBackref := by intro h; rw [h] at hfld; cases hfld
      obtain ⟨r1, r2⟩ := fieldLen_range hcfg hi hb
      rw [hsStep_field hfld]
      rcases hsMicro_field hcfg hi hfld with ⟨g1, g2, g3, g4⟩ | ⟨g, g1, g2, g3, g4, g5, g6⟩
      · rw [g2]
        refine ⟨h, [], ?_, .stuck g3⟩
        simp [Bind.bind, Except.bind]
      · have hv2 : bitsVal ((hsBits h).take (fieldLen cfg h.state)) < 2 ^ fieldLen cfg h.state :=
          Nat.lt_of_lt_of_le (bitsVal_lt _) (Nat.pow_le_pow_right (by omega) (List.length_take_le _ _))
        obtain ⟨e1, e2, e3, e4⟩ := fieldNext_inv hcfg hi hfld hv2 g3 g4
        have hgs : ({ g with state := h.state } : Hsd) = g := by rw [← g4.2.2.2.1]
        rw [g2]
        simp only [Bind.bind, Except.bind, hgs]
        rw [if_neg e2]
        have heta : ({ ({ fieldNext cfg (bitsVal ((hsBits h).take (fieldLen cfg h.state))) g with state := g.state } : Hsd) with
            state := (fieldNext cfg (bitsVal ((hsBits h).take (fieldLen cfg h.state))) g).state } : Hsd) =
            fieldNext cfg (bitsVal ((hsBits h).take (fieldLen cfg h.state))) g := rfl
        rw [heta]
        obtain ⟨h', d, f1, f2⟩ := ih _ out e1 ho (by
          unfold hsIter at hf ⊢
          rw [if_neg hb] at hf
          have : (hsBits (fieldNext cfg (bitsVal ((hsBits h).take (fieldLen cfg h.state))) g)).length + fieldLen cfg h.state =
              (hsBits h).length := by
            rw [e3, g5, List.length_drop]; omega
          split <;> omega)
        exact ⟨h', d, f1, .silent g6 f2⟩
    · have hlit_or : h.state = .yieldLiteral ∨ h.state = .yieldBackref := by
        revert hfld
        cases h.state <;> simp [isField]
      rcases hlit_or with hs | hs
      · simp only [hsStep, hs, hsYieldLiteral]
        by_cases hroom : out.length < bufSize
        · simp only [hroom, if_true]
          by_cases hn : 8 ≤ (hsBits h).length
          · obtain ⟨g, g1, g2, g3, g4⟩ := hsGetBits_ok hcfg hi.toHIn (by omega) (by omega) hn
            have hm : hsMicro cfg h = some (some (UInt8.ofNat (bitsVal ((hsBits h).take 8) &&& 0xff)), { g with
                headIndex := u16 (g.headIndex + 1)
                window := g.window.set (g.headIndex &&& (2 ^ cfg.window - 1)) (UInt8.ofNat (bitsVal ((hsBits h).take 8) &&& 0xff))
                state := .tagBit }) := by
              unfold hsMicro
              rw [hs, g1]
            have hgw : g.window.length = 2 ^ cfg.window := by rw [g3.2.2.2.2]; exact hi.win
            have hwr := fun c => writeAt_one (buf := g.window) (i := g.headIndex &&& (2 ^ cfg.window - 1))
              (by rw [hgw]; exact head_mask_lt _ _) c
            rw [g1]
            simp only [Bind.bind, Except.bind, hsSetWindow, hwr, Pure.pure, Except.pure, hsPush, hroom, if_true,
              reduceCtorEq, if_false]
            obtain ⟨h', d, f1, f2⟩ := ih _ (out ++ [UInt8.ofNat (bitsVal ((hsBits h).take 8) &&& 0xff)])
              ((hsMicro_spec hcfg hi).2 _ _ hm).1 (by simp; omega) (by
                unfold hsIter at hf ⊢
                rw [hs] at hf
                simp only [reduceCtorEq, if_false] at hf ⊢
                show 2 * (hsBits g).length + 0 < fuel
                rw [g4, List.length_drop]; omega)
            refine ⟨h', UInt8.ofNat (bitsVal ((hsBits h).take 8) &&& 0xff) :: d, by rw [f1]; simp, ?_⟩
            have hsub : bufSize - out.length = (bufSize - (out ++ [UInt8.ofNat (bitsVal ((hsBits h).take 8) &&& 0xff)]).length) + 1 := by
              simp; omega
            rw [hsub]
            exact .emit hm f2
          · obtain ⟨g1, g2⟩ := hsGetBits_none hi.toHIn (n := 8) (by omega) (by omega) (by omega)
            have hm : hsMicro cfg h = none := by unfold hsMicro; rw [hs, g1]
            rw [g1]
            refine ⟨h, [], ?_, .stuck hm⟩
            simp only [Bind.bind, Except.bind, if_true, List.append_nil, Except.ok.injEq, Prod.mk.injEq, and_true]
            rw [← hs]
        · simp only [hroom, if_false]
          have h0 : bufSize - out.length = 0 := by omega
          rw [h0]
          refine ⟨h, [], ?_, ?_⟩
          · simp only [Bind.bind, Except.bind, if_true, List.append_nil, Except.ok.injEq, Prod.mk.injEq, and_true]
            rw [← hs]
          · cases hm : hsMicro cfg h with
            | none => exact .stuck hm
            | some p =>
              obtain ⟨o, h1⟩ := p
              cases o with
              | some b => exact .full hm
              | none =>
                unfold hsMicro at hm
                rw [hs] at hm
                simp only at hm
                split at hm <;> simp at hm
      · obtain ⟨b1, b2⟩ := hi.br hs
        simp only [hsStep, hs, hsYieldBackref]
        by_cases hroom : bufSize - out.length > 0
        · simp only [hroom, if_true]
          have hcnt : ∀ c, c = (if h.outputCount < bufSize - out.length then h.outputCount else bufSize - out.length) →
              1 ≤ c ∧ c ≤ h.outputCount ∧ out.length + c ≤ bufSize ∧ (c < h.outputCount → c = bufSize - out.length) := by
            rintro c rfl
            split <;> omega
          generalize (if h.outputCount < bufSize - out.length then h.outputCount else bufSize - out.length) = c at hcnt ⊢
          obtain ⟨c1, c2, c3, c4⟩ := hcnt c rfl
          obtain ⟨h2, d, e1, e2, e3, e4, e5⟩ := hsCopyLoop_run hcfg (bufSize := bufSize) c h out hi hs c1 c2 c3
          rw [e1]
          simp only [Bind.bind, Except.bind]
          by_cases hz : h2.outputCount - c = 0
          · simp only [hz, if_true, reduceCtorEq, if_false] at e5 ⊢
            -- the machine is in this state after `c` steps
            have hcons : HInv cfg { h2 with outputCount := 0, state := .tagBit } ∧
                hsBits { h2 with outputCount := 0, state := .tagBit } = hsBits h := by
              have : ∀ (k : Nat) (g : Hsd) (o : Bytes) g2 o2, hsCopyLoop cfg bufSize k g o = .ok (g2, o2) → HInv cfg g →
                  HInv cfg g2 ∧ hsBits g2 = hsBits g := by
                intro k
                induction k with
                | zero =>
                  intro g o g2 o2 h hi
                  simp only [hsCopyLoop, Except.ok.injEq, Prod.mk.injEq] at h
                  obtain ⟨rfl, rfl⟩ := h
                  exact ⟨hi, rfl⟩
                | succ k ihk =>
                  intro g o g2 o2 h hi
                  by_cases hol : o.length < bufSize
                  · rw [hsCopyLoop_succ hi.win hol] at h
                    have := ihk _ _ _ _ h { inp := hi.inp, isz := hi.isz, idx := hi.idx, bit := hi.bit, win := by simpa [hsCopy1] using hi.win, head := Nat.mod_lt _ (by decide), im := hi.im, cm := hi.cm, cl := hi.cl, br := hi.br }
                    exact this
                  · rw [hsCopyLoop] at h
                    simp only [hsPush, hol, if_false, Bind.bind, Except.bind] at h
                    split at h <;> cases h
              obtain ⟨i1, i2⟩ := this _ _ _ _ _ e1 hi
              exact ⟨{ inp := i1.inp, isz := i1.isz, idx := i1.idx, bit := i1.bit, win := i1.win, head := i1.head, im := nofun, cm := nofun, cl := nofun, br := nofun }, i2⟩
            obtain ⟨h', d', f1, f2⟩ := ih _ (out ++ d) hcons.1 (by simp [e2]; omega) (by
              unfold hsIter at hf ⊢
              rw [hs] at hf
              rw [hcons.2]
              simp only [reduceCtorEq, if_false, if_true] at hf ⊢
              omega)
            refine ⟨h', d ++ d', by rw [f1]; simp, ?_⟩
            have := e5 _ _ _ f2
            have hsub : bufSize - (out ++ d).length + c = bufSize - out.length := by simp [e2]; omega
            rw [hsub] at this
            exact this
          · simp only [hz, if_false, if_true] at e5 ⊢
            refine ⟨{ h2 with outputCount := h2.outputCount - c, state := .yieldBackref }, d, by simp, ?_⟩
            have := e5 0 [] _ (.full (b := (hsCopy1 cfg { h2 with outputCount := h2.outputCount - c, state := .yieldBackref }).1)
              (by unfold hsMicro; rfl))
            have hsub : 0 + c = bufSize - out.length := by rw [← e3] at c4; omega
            rw [hsub, List.append_nil] at this
            exact this
        · simp only [hroom, if_false]
          have h0 : bufSize - out.length = 0 := by omega
          rw [h0]
          refine ⟨h, [], ?_, ?_⟩
          · simp only [Bind.bind, Except.bind, if_true, List.append_nil, Except.ok.injEq, Prod.mk.injEq, and_true]
            rw [← hs]
          · have hm : hsMicro cfg h = some (some (hsCopy1 cfg h).1, { (hsCopy1 cfg h).2 with
                outputCount := h.outputCount - 1, state := if h.outputCount - 1 = 0 then .tagBit else .yieldBackref }) := by
              unfold hsMicro
              rw [hs]
            exact .full hm

/-- `heatshrink_decoder_poll` is a run of the machine. -/
theorem hsPoll_run {cfg : HsCfg} (hcfg : cfg.Ok) {h : Hsd} (hi : HInv cfg h) (n : Nat) :
    ∃ h' d, hsPoll cfg h n = .ok (h', d) ∧ Run cfg n h d h' := by
  obtain ⟨h', d, e1, e2⟩ := hsPollLoop_run hcfg (bufSize := n) (16 * h.inputSize + 32) h [] hi (by simp) (by
    unfold hsIter
    rw [hsBits_length hi.toHIn]
    obtain ⟨k, hk, hb⟩ := hi.bit
    rw [hb, bitsLeft_pow]
    split <;> omega)
  exact ⟨h', d, by simpa [hsPoll] using e1, by simpa using e2⟩

end Detools
