import Verif.Proofs.HsRun
/-
What the heatshrink decoder outputs: the meaning of its machine in terms of the symbols
of the format.
-/
namespace Detools

/-! ### Bits -/

theorem byteBits_eq (b : UInt8) : byteBits b = numBits 8 b.toNat := rfl

theorem bytesBits_eq (x : Bytes) : bytesBits x = x.flatMap byteBits := rfl

theorem bytesBits_append (x y : Bytes) : bytesBits (x ++ y) = bytesBits x ++ bytesBits y := by simp [bytesBits]

theorem numBits_length : ∀ k v, (numBits k v).length = k := by
  intro k
  induction k with
  | zero => intro v; rfl
  | succ k ih => intro v; simp [numBits, ih]

theorem bytesBits_length (x : Bytes) : (bytesBits x).length = 8 * x.length := by
  induction x with
  | nil => rfl
  | cons b x ih => simp only [bytesBits, List.flatMap_cons, List.length_append, numBits_length, List.length_cons] at ih ⊢; omega

theorem bitFold_eq (bs : List Bool) : ∀ acc, bs.foldl (fun acc b => 2 * acc + b.toNat) acc = acc * 2 ^ bs.length + bitsVal bs := by
  induction bs with
  | nil => intro acc; simp [bitsVal]
  | cons b bs ih =>
    intro acc
    simp only [bitsVal, List.foldl_cons, List.length_cons]
    rw [ih, ih (2 * 0 + b.toNat), Nat.pow_succ]
    have : (2 * acc + b.toNat) * 2 ^ bs.length = acc * (2 ^ bs.length * 2) + b.toNat * 2 ^ bs.length := by
      rw [Nat.add_mul, Nat.mul_comm 2 acc, Nat.mul_assoc, Nat.mul_comm 2]
    rw [this, Nat.mul_zero, Nat.zero_add]
    omega

theorem bitsVal_concat (a b : List Bool) : bitsVal (a ++ b) = bitsVal a * 2 ^ b.length + bitsVal b := by
  rw [bitsVal_append, bitFold_eq]

theorem bitsVal_cons (b : Bool) (bs : List Bool) : bitsVal (b :: bs) = b.toNat * 2 ^ bs.length + bitsVal bs := by
  have := bitsVal_concat [b] bs
  simpa [bitsVal] using this

theorem numBits_congr {k v w : Nat} (h : ∀ i, i < k → v.testBit i = w.testBit i) : numBits k v = numBits k w := by
  induction k with
  | zero => rfl
  | succ k ih => rw [numBits, numBits, h k (by omega), ih fun i hi => h i (by omega)]

theorem numBits_bitsVal : ∀ bs : List Bool, numBits bs.length (bitsVal bs) = bs := by
  intro bs
  induction bs with
  | nil => rfl
  | cons b bs ih =>
    rw [List.length_cons, numBits]
    have hlt := bitsVal_lt bs
    have hv := bitsVal_cons b bs
    congr 1
    · rw [hv, Nat.mul_comm, Nat.testBit_two_pow_mul_add _ hlt]
      simp
      cases b <;> rfl
    · rw [numBits_congr (w := bitsVal bs) ?_, ih]
      intro i hi
      rw [hv, Nat.mul_comm, Nat.testBit_two_pow_mul_add _ hlt, if_pos hi]

theorem bitsVal_numBits : ∀ k v, v < 2 ^ k → bitsVal (numBits k v) = v := by
  intro k
  induction k with
  | zero => intro v h; have : v = 0 := by simpa using h
            rw [this]; rfl
  | succ k ih =>
    intro v hv
    rw [numBits, bitsVal_cons, numBits_length]
    have hm : numBits k v = numBits k (v % 2 ^ k) := numBits_congr fun i hi => by
      rw [Nat.testBit_mod_two_pow]; simp [hi]
    rw [hm, ih _ (Nat.mod_lt _ (Nat.two_pow_pos k))]
    have h2 : (v.testBit k).toNat = v / 2 ^ k := by
      rw [Nat.toNat_testBit]
      exact Nat.mod_eq_of_lt (Nat.div_lt_of_lt_mul (by rw [Nat.pow_succ] at hv; omega))
    rw [h2, Nat.mul_comm]
    exact Nat.div_add_mod v (2 ^ k)

theorem numBits_inj {k v w : Nat} (hv : v < 2 ^ k) (hw : w < 2 ^ k) (h : numBits k v = numBits k w) : v = w := by
  rw [← bitsVal_numBits k v hv, h, bitsVal_numBits k w hw]

/-! ### Symbols -/

/-- Symbols are a prefix code. -/
theorem HsSym.bits_inj {w l : Nat} {s t : HsSym} {x y : List Bool} (hs : s.Fits w l) (ht : t.Fits w l)
    (h : s.bits w l ++ x = t.bits w l ++ y) : s = t ∧ x = y := by
  cases s with
  | literal b =>
    cases t with
    | literal c =>
      simp only [HsSym.bits, List.cons_append, List.cons.injEq, true_and] at h
      obtain ⟨h1, h2⟩ := List.append_inj h (by simp only [numBits_length])
      have := numBits_inj (UInt8.toNat_lt b) (UInt8.toNat_lt c) h1
      exact ⟨by rw [UInt8.toNat_inj.1 this], h2⟩
    | backref d n => simp [HsSym.bits] at h
  | backref d n =>
    cases t with
    | literal c => simp [HsSym.bits] at h
    | backref d' n' =>
      obtain ⟨a1, a2, a3, a4⟩ := hs
      obtain ⟨b1, b2, b3, b4⟩ := ht
      simp only [HsSym.bits, List.cons_append, List.cons.injEq, true_and, List.append_assoc] at h
      obtain ⟨h1, h2⟩ := List.append_inj h (by simp only [numBits_length])
      obtain ⟨h3, h4⟩ := List.append_inj h2 (by simp only [numBits_length])
      have e1 := numBits_inj (by omega) (by omega) h1
      have e2 := numBits_inj (by omega) (by omega) h3
      exact ⟨by congr 1 <;> omega, h4⟩

theorem hsParse_prefix {w l : Nat} : ∀ {syms S : List HsSym} {t T : List Bool}, (∀ s ∈ syms, s.Fits w l) → (∀ s ∈ S, s.Fits w l) →
    HsIncomplete w l T → syms.flatMap (·.bits w l) ++ t = S.flatMap (·.bits w l) ++ T →
    ∃ S', S = syms ++ S' ∧ t = S'.flatMap (·.bits w l) ++ T := by
  intro syms
  induction syms with
  | nil => intro S t T _ _ _ h; exact ⟨S, rfl, by simpa using h⟩
  | cons s syms ih =>
    intro S t T h1 h2 h3 h
    cases S with
    | nil =>
      refine absurd ?_ (h3 s (syms.flatMap (·.bits w l) ++ t) (h1 s List.mem_cons_self))
      simpa using h.symm
    | cons s' S =>
      simp only [List.flatMap_cons, List.append_assoc] at h
      obtain ⟨rfl, h'⟩ := HsSym.bits_inj (h1 s List.mem_cons_self) (h2 s' List.mem_cons_self) h
      obtain ⟨S', rfl, e⟩ := ih (fun x hx => h1 x (List.mem_cons_of_mem _ hx)) (fun x hx => h2 x (List.mem_cons_of_mem _ hx)) h3 h'
      exact ⟨S', rfl, e⟩

theorem HsSym.bits_length_le {w l : Nat} (s : HsSym) : s.bits w l ≠ [] := by
  cases s <;> simp [HsSym.bits]

/-- The symbols of a bit string are determined. -/
theorem HsParses.unique {w l bits syms syms'} (h : HsParses w l bits syms) (h' : HsParses w l bits syms') : syms = syms' := by
  obtain ⟨h1, t, h2, h3⟩ := h
  obtain ⟨g1, t', g2, g3⟩ := h'
  obtain ⟨S, rfl, e⟩ := hsParse_prefix h1 g1 g3 (h2.symm.trans g2)
  cases S with
  | nil => simp
  | cons s S => exact absurd (by simpa using e) (h3 s (S.flatMap (·.bits w l) ++ t') (g1 s (by simp)))

theorem hsExpand_append (a b : List HsSym) : ∀ hist, hsExpand hist (a ++ b) = hsExpand hist a ++ hsExpand (hist ++ hsExpand hist a) b := by
  induction a with
  | nil => intro hist; simp [hsExpand]
  | cons s a ih => intro hist; simp [hsExpand, ih]

theorem hsExpand_concat (syms : List HsSym) (s : HsSym) : hsExpand [] (syms ++ [s]) = hsExpand [] syms ++ s.expand (hsExpand [] syms) := by
  rw [hsExpand_append]; simp [hsExpand]

theorem copyBack_length : ∀ n hist d, (copyBack hist d n).length = n := by
  intro n
  induction n with
  | zero => intro _ _; rfl
  | succ n ih => intro hist d; simp [copyBack, ih]

/-! ### The window -/

/-- The window holds the last bytes output. -/
structure Win (cfg : HsCfg) (hist : Bytes) (window : Bytes) (head : Nat) : Prop where
  len : window.length = 2 ^ cfg.window
  head : head = hist.length % 2 ^ 16
  at_ : ∀ d, 1 ≤ d → d ≤ 2 ^ cfg.window → window.getD ((hist.length + 2 ^ cfg.window - d) % 2 ^ cfg.window) 0 = lookback hist d

theorem lookback_one (hist : Bytes) (c : UInt8) : lookback (hist ++ [c]) 1 = c := by
  simp [lookback]

theorem lookback_push (hist : Bytes) (c : UInt8) {d : Nat} (hd : 2 ≤ d) : lookback (hist ++ [c]) d = lookback hist (d - 1) := by
  unfold lookback
  simp only [List.length_append, List.length_cons, List.length_nil]
  by_cases h : d ≤ hist.length + 1
  · rw [if_pos (by omega), if_pos (by omega)]
    have : hist.length + (0 + 1) - d = hist.length - (d - 1) := by omega
    rw [this]
    simp only [List.getD_eq_getElem?_getD]
    rw [List.getElem?_append_left (by omega)]
  · rw [if_neg (by omega), if_neg (by omega)]

theorem mod16_mod {w : Nat} (hw : w ≤ 15) (n : Nat) : n % 2 ^ 16 % 2 ^ w = n % 2 ^ w :=
  Nat.mod_mod_of_dvd n (Nat.pow_dvd_pow 2 (by omega))

theorem head_mask {w : Nat} (hw : w ≤ 15) (n : Nat) : (n % 2 ^ 16) &&& (2 ^ w - 1) = n % 2 ^ w := by
  rw [Nat.and_two_pow_sub_one_eq_mod, mod16_mod hw]

theorem Win.push {cfg : HsCfg} (hcfg : cfg.Ok) {hist win head} (h : Win cfg hist win head) (c : UInt8) :
    Win cfg (hist ++ [c]) (win.set (head &&& (2 ^ cfg.window - 1)) c) (u16 (head + 1)) := by
  have hp := Nat.two_pow_pos cfg.window
  rw [h.head, head_mask hcfg.w15]
  refine ⟨by rw [List.length_set]; exact h.len, ?_, ?_⟩
  · simp only [u16, List.length_append, List.length_cons, List.length_nil]
    omega
  · intro d h1 h2
    have hlt := Nat.mod_lt hist.length hp
    simp only [List.length_append, List.length_cons, List.length_nil, List.getD_eq_getElem?_getD]
    by_cases hd : d = 1
    · subst hd
      rw [show hist.length + (0 + 1) + 2 ^ cfg.window - 1 = hist.length + 2 ^ cfg.window by omega, Nat.add_mod_right, lookback_one,
        List.getElem?_set_self (by rw [h.len]; exact hlt)]
      rfl
    · rw [lookback_push _ _ (by omega), ← h.at_ (d - 1) (by omega) (by omega)]
      rw [show hist.length + (0 + 1) + 2 ^ cfg.window - d = hist.length + 2 ^ cfg.window - (d - 1) by omega]
      rw [List.getElem?_set_ne, List.getD_eq_getElem?_getD]
      intro he
      -- two positions less than a window apart
      have e : (hist.length + (2 ^ cfg.window - (d - 1))) % 2 ^ cfg.window = hist.length % 2 ^ cfg.window := by
        rw [← Nat.add_sub_assoc (by omega)]; exact he.symm
      have hd0 := Nat.sub_mod_eq_zero_of_mod_eq e
      rw [Nat.add_sub_cancel_left] at hd0
      rw [Nat.mod_eq_of_lt (by omega)] at hd0
      omega

theorem src_index {w : Nat} (hw : w ≤ 15) (n d : Nat) (hd : d ≤ 2 ^ w) :
    ((((n % 2 ^ 16 : Nat) : Int) - d) % (2 ^ w : Nat)).toNat = (n + 2 ^ w - d) % 2 ^ w := by
  have e : (((n % 2 ^ 16 : Nat) : Int) - d) % (2 ^ w : Nat) = (((n % 2 ^ 16 + (2 ^ w - d) : Nat) : Int)) % (2 ^ w : Nat) := by
    have : ((n % 2 ^ 16 + (2 ^ w - d) : Nat) : Int) = ((n % 2 ^ 16 : Nat) : Int) - d + (2 ^ w : Nat) := by omega
    rw [this, Int.add_emod_right]
  rw [e, ← Int.natCast_emod, Int.toNat_natCast, Nat.add_sub_assoc hd, Nat.add_mod, mod16_mod hw, ← Nat.add_mod]

theorem Win.copy {cfg : HsCfg} (hcfg : cfg.Ok) {hist} {h : Hsd} (hw : Win cfg hist h.window h.headIndex)
    (h1 : 1 ≤ h.outputIndex) (h2 : h.outputIndex ≤ 2 ^ cfg.window) :
    (hsCopy1 cfg h).1 = lookback hist h.outputIndex ∧
      Win cfg (hist ++ [lookback hist h.outputIndex]) (hsCopy1 cfg h).2.window (hsCopy1 cfg h).2.headIndex := by
  have e : (hsCopy1 cfg h).1 = lookback hist h.outputIndex := by
    simp only [hsCopy1]
    rw [hw.head, src_index hcfg.w15 _ _ h2]
    exact hw.at_ _ h1 h2
  refine ⟨e, ?_⟩
  have := hw.push hcfg (hsCopy1 cfg h).1
  rw [e] at this
  simp only [hsCopy1] at e ⊢
  rw [e]
  exact this

/-! ### The machine -/

/-- The bits of the symbol in progress that were read. -/
def Mid (cfg : HsCfg) (h : Hsd) (cons : List Bool) : Prop :=
  match h.state with
  | .tagBit => cons = []
  | .yieldLiteral => cons = [true]
  | .indexMsb => cons = [false]
  | .indexLsb => ∃ m, cons = false :: m ∧ m.length = cfg.window - 8 ∧ h.outputIndex = bitsVal m * 256
  | .countMsb => ∃ i, cons = false :: i ∧ i.length = cfg.window ∧ h.outputIndex = bitsVal i + 1
  | .countLsb => ∃ i m, cons = false :: (i ++ m) ∧ i.length = cfg.window ∧ h.outputIndex = bitsVal i + 1 ∧
      m.length = cfg.lookahead - 8 ∧ h.outputCount = bitsVal m * 256
  | .yieldBackref => cons = []

/-- The bits fed so far are symbols, the read part of a symbol, and the unread bits; what
was output is what the symbols mean, up to the back-reference in progress. -/
def HsMean (cfg : HsCfg) (bits : List Bool) (hist : Bytes) (h : Hsd) : Prop :=
  ∃ syms cons, (∀ s ∈ syms, s.Fits cfg.window cfg.lookahead) ∧
    bits = syms.flatMap (·.bits cfg.window cfg.lookahead) ++ (cons ++ hsBits h) ∧
    Win cfg hist h.window h.headIndex ∧ Mid cfg h cons ∧
    if h.state = .yieldBackref then 1 ≤ h.outputIndex ∧ h.outputIndex ≤ 2 ^ cfg.window ∧
      hist ++ copyBack hist h.outputIndex h.outputCount = hsExpand [] syms
    else hist = hsExpand [] syms

theorem or_shift8 {a b : Nat} (hb : b < 256) : a * 256 ||| b = a * 256 + b := by
  have := Nat.shiftLeft_add_eq_or_of_lt (i := 8) (b := b) (by omega) a
  rw [Nat.shiftLeft_eq] at this
  exact this.symm

theorem HsMean.reset (cfg : HsCfg) : HsMean cfg [] [] (hsReset cfg) := by
  refine ⟨[], [], by simp, by simp [hsReset, hsBits, bitsLeft, byteBits], ⟨by simp [hsReset], rfl, ?_⟩, rfl, ?_⟩
  · intro d h1 h2
    simp only [lookback, List.length_nil]
    rw [if_neg (by omega), List.getD_eq_getElem?_getD]
    have : (hsReset cfg).window[(0 + 2 ^ cfg.window - d) % 2 ^ cfg.window]? = some 0 := by
      simp only [hsReset]
      rw [List.getElem?_replicate_of_lt (Nat.mod_lt _ (Nat.two_pow_pos _))]
    rw [this]; rfl
  · simp [hsReset, hsExpand]

theorem HsMean.sunk {cfg bits hist h h'} (hm : HsMean cfg bits hist h) (new : List Bool) (hb : hsBits h' = hsBits h ++ new)
    (hc : sameCore h h') : HsMean cfg (bits ++ new) hist h' := by
  obtain ⟨syms, cons, h1, rfl, h3, h4, h5⟩ := hm
  obtain ⟨c1, c2, c3, c4, c5⟩ := hc
  refine ⟨syms, cons, h1, by rw [hb]; simp, by rw [c3, c5]; exact h3, ?_, ?_⟩
  · unfold Mid at h4 ⊢
    rw [c4, c1, c2]
    exact h4
  · rw [c4, c1, c2]
    exact h5

theorem HsMean.step {cfg : HsCfg} (hcfg : cfg.Ok) {bits hist} {h h' : Hsd} {o : Option UInt8} (hi : HInv cfg h)
    (hm : HsMean cfg bits hist h) (hs : hsMicro cfg h = some (o, h')) : HsMean cfg bits (hist ++ o.toList) h' := by
  obtain ⟨syms, cons, h1, rfl, h3, h4, h5⟩ := hm
  by_cases hf : isField h.state = true
  · have hb : h.state ≠ .yieldBackref := by intro h; rw [h] at hf; cases hf
    rw [if_neg hb] at h5
    rcases hsMicro_field hcfg hi hf with ⟨_, _, g3, _⟩ | ⟨g, g1, g2, g3, g4, g5, g6⟩
    · rw [g3] at hs; cases hs
    rw [g6] at hs
    cases hs
    simp only [Option.toList_none, List.append_nil]
    obtain ⟨v, hv⟩ : ∃ v, v = (hsBits h).take (fieldLen cfg h.state) := ⟨_, rfl⟩
    have hvl : v.length = fieldLen cfg h.state := by rw [hv, List.length_take]; omega
    have hsplit : hsBits h = v ++ hsBits g := by rw [hv, g5, List.take_append_drop]
    rw [← hv]
    obtain ⟨c1, c2, c3, c4, c5⟩ := g4
    have hwin : Win cfg hist g.window g.headIndex := by rw [c5, c3]; exact h3
    have hlt := bitsVal_lt v
    rw [hvl] at hlt
    obtain ⟨w4, w15, l3, lw, i1, i16⟩ := hcfg
    cases hst : h.state
    case yieldLiteral => rw [hst] at hf; cases hf
    case yieldBackref => exact absurd hst hb
    case tagBit =>
      simp only [Mid, hst] at h4
      subst h4
      rw [hst] at c4 hvl
      simp only [fieldNext, c4]
      obtain ⟨b, rfl⟩ : ∃ b, v = [b] := by
        match v, hvl with
        | [b], _ => exact ⟨b, rfl⟩
      cases b with
      | true =>
        rw [if_pos (by decide)]
        exact ⟨syms, [true], h1, by rw [hsplit]; rfl, hwin, rfl, h5⟩
      | false =>
        rw [if_neg (by decide)]
        by_cases hw : cfg.window > 8
        · rw [if_pos hw]
          exact ⟨syms, [false], h1, by rw [hsplit]; rfl, hwin, rfl, h5⟩
        · rw [if_neg hw]
          refine ⟨syms, [false], h1, by rw [hsplit]; rfl, hwin, ⟨[], rfl, ?_, rfl⟩, h5⟩
          simp only [List.length_nil]; omega
    case indexMsb =>
      simp only [Mid, hst] at h4
      subst h4
      rw [hst] at c4 hvl hlt
      simp only [fieldLen] at hvl hlt
      simp only [fieldNext, c4]
      refine ⟨syms, false :: v, h1, by rw [hsplit]; rfl, hwin, ⟨v, rfl, hvl, ?_⟩, h5⟩
      show u16 (bitsVal v <<< 8) = _
      have : 2 ^ (cfg.window - 8) ≤ 2 ^ 7 := Nat.pow_le_pow_right (by omega) (by omega)
      rw [u16, Nat.shiftLeft_eq, Nat.mod_eq_of_lt (by omega)]
    case indexLsb =>
      simp only [Mid, hst] at h4
      obtain ⟨m, rfl, hml, hidx⟩ := h4
      rw [hst] at c4 hvl hlt
      simp only [fieldLen] at hvl hlt
      have hwl : (m ++ v).length = cfg.window := by
        rw [List.length_append, hml, hvl]
        split <;> omega
      have hlv := bitsVal_lt (m ++ v)
      rw [hwl] at hlv
      have h15 : 2 ^ cfg.window ≤ 2 ^ 15 := Nat.pow_le_pow_right (by omega) (by omega)
      have hval : u16 ((h.outputIndex ||| bitsVal v) + 1) = bitsVal (m ++ v) + 1 := by
        have hor : h.outputIndex ||| bitsVal v = bitsVal (m ++ v) := by
          rw [bitsVal_concat, hvl]
          by_cases hw : cfg.window < 8
          · have : m = [] := List.length_eq_zero_iff.1 (by omega)
            subst this
            rw [hidx]
            simp [bitsVal]
          · rw [if_neg hw] at hlt ⊢
            rw [hidx, or_shift8 hlt]
        rw [hor, u16, Nat.mod_eq_of_lt (by omega)]
      simp only [fieldNext, c4, c2]
      rw [hval]
      by_cases hl : cfg.lookahead > 8
      · simp only [hl, if_true]
        exact ⟨syms, false :: (m ++ v), h1, by rw [hsplit]; simp; rfl, hwin, ⟨m ++ v, rfl, hwl, rfl⟩, h5⟩
      · simp only [hl, if_false]
        refine ⟨syms, false :: (m ++ v), h1, by rw [hsplit]; simp; rfl, hwin, ⟨m ++ v, [], by simp, hwl, rfl, ?_, rfl⟩, h5⟩
        simp only [List.length_nil]; omega
    case countMsb =>
      simp only [Mid, hst] at h4
      obtain ⟨i, rfl, hil, hidx⟩ := h4
      rw [hst] at c4 hvl hlt
      simp only [fieldLen] at hvl hlt
      simp only [fieldNext, c4]
      refine ⟨syms, false :: (i ++ v), h1, by rw [hsplit]; simp; rfl, hwin, ⟨i, v, rfl, hil, by show g.outputIndex = _; rw [c2, hidx], hvl, ?_⟩, h5⟩
      show u16 (bitsVal v <<< 8) = _
      have : 2 ^ (cfg.lookahead - 8) ≤ 2 ^ 7 := Nat.pow_le_pow_right (by omega) (by omega)
      rw [u16, Nat.shiftLeft_eq, Nat.mod_eq_of_lt (by omega)]
    case countLsb =>
      simp only [Mid, hst] at h4
      obtain ⟨i, m, rfl, hil, hidx, hml, hcnt⟩ := h4
      rw [hst] at c4 hvl hlt
      simp only [fieldLen] at hvl hlt
      have hwl : (m ++ v).length = cfg.lookahead := by
        rw [List.length_append, hml, hvl]
        split <;> omega
      have hlv := bitsVal_lt (m ++ v)
      rw [hwl] at hlv
      have h15 : 2 ^ cfg.lookahead ≤ 2 ^ 15 := Nat.pow_le_pow_right (by omega) (by omega)
      have hval : u16 ((h.outputCount ||| bitsVal v) + 1) = bitsVal (m ++ v) + 1 := by
        have hor : h.outputCount ||| bitsVal v = bitsVal (m ++ v) := by
          rw [bitsVal_concat, hvl]
          by_cases hw : cfg.lookahead < 8
          · have : m = [] := List.length_eq_zero_iff.1 (by omega)
            subst this
            rw [hcnt]
            simp [bitsVal]
          · rw [if_neg hw] at hlt ⊢
            rw [hcnt, or_shift8 hlt]
        rw [hor, u16, Nat.mod_eq_of_lt (by omega)]
      simp only [fieldNext, c4, c1]
      rw [hval]
      have hli := bitsVal_lt i
      rw [hil] at hli
      refine ⟨syms ++ [.backref (bitsVal i + 1) (bitsVal (m ++ v) + 1)], [], ?_, ?_, hwin, rfl, ?_⟩
      · intro s hs
        rcases List.mem_append.1 hs with hs | hs
        · exact h1 s hs
        · rw [List.mem_singleton.1 hs]
          exact ⟨by omega, by omega, by omega, by omega⟩
      · have e1 : numBits cfg.window (bitsVal i) = i := by rw [← hil]; exact numBits_bitsVal i
        have e2 : numBits cfg.lookahead (bitsVal (m ++ v)) = m ++ v := by rw [← hwl]; exact numBits_bitsVal (m ++ v)
        rw [hsplit]
        simp only [List.flatMap_append, List.flatMap_cons, List.flatMap_nil, HsSym.bits, Nat.add_sub_cancel, e1, e2]
        simp
        rfl
      · rw [if_pos rfl]
        refine ⟨?_, ?_, ?_⟩
        · show 1 ≤ g.outputIndex; rw [c2, hidx]; omega
        · show g.outputIndex ≤ _; rw [c2, hidx]; omega
        · show hist ++ copyBack hist g.outputIndex _ = _
          rw [c2, hidx, hsExpand_concat, h5]
          rfl
  · have hlit_or : h.state = .yieldLiteral ∨ h.state = .yieldBackref := by
      revert hf
      cases h.state <;> simp [isField]
    rcases hlit_or with hst | hst
    · rw [if_neg (by rw [hst]; nofun)] at h5
      simp only [Mid, hst] at h4
      subst h4
      by_cases hn : 8 ≤ (hsBits h).length
      · obtain ⟨g, g1, g2, g3, g4⟩ := hsGetBits_ok hcfg hi.toHIn (by omega) (by omega) hn
        unfold hsMicro at hs
        rw [hst, g1] at hs
        cases hs
        obtain ⟨c1, c2, c3, c4, c5⟩ := g3
        obtain ⟨v, hv⟩ : ∃ v, v = (hsBits h).take 8 := ⟨_, rfl⟩
        have hvl : v.length = 8 := by rw [hv, List.length_take]; omega
        have hsplit : hsBits h = v ++ hsBits g := by rw [hv, g4, List.take_append_drop]
        rw [← hv]
        have hlt := bitsVal_lt v
        rw [hvl] at hlt
        have hb : (UInt8.ofNat (bitsVal v &&& 0xff)).toNat = bitsVal v := by
          rw [show (0xff : Nat) = 2 ^ 8 - 1 from rfl, Nat.and_two_pow_sub_one_eq_mod, Nat.mod_eq_of_lt hlt, UInt8.toNat_ofNat']
          exact Nat.mod_eq_of_lt hlt
        generalize UInt8.ofNat (bitsVal v &&& 0xff) = c at hb
        refine ⟨syms ++ [.literal c], [], ?_, ?_, ?_, rfl, ?_⟩
        · intro s hs
          rcases List.mem_append.1 hs with hs | hs
          · exact h1 s hs
          · rw [List.mem_singleton.1 hs]; trivial
        · have e1 : numBits 8 (bitsVal v) = v := by rw [← hvl]; exact numBits_bitsVal v
          rw [hsplit]
          simp only [List.flatMap_append, List.flatMap_cons, List.flatMap_nil, HsSym.bits, hb, e1]
          simp
          rfl
        · have hwin : Win cfg hist g.window g.headIndex := by rw [c5, c3]; exact h3
          exact hwin.push hcfg c
        · rw [if_neg (by nofun), hsExpand_concat, h5]
          rfl
      · obtain ⟨g1, g2⟩ := hsGetBits_none hi.toHIn (n := 8) (by omega) (by omega) (by omega)
        unfold hsMicro at hs
        rw [hst, g1] at hs
        cases hs
    · rw [if_pos hst] at h5
      simp only [Mid, hst] at h4
      subst h4
      obtain ⟨k1, k2, k3⟩ := h5
      have hmic : hsMicro cfg h = some (some (hsCopy1 cfg h).1, { (hsCopy1 cfg h).2 with
          outputCount := h.outputCount - 1, state := if h.outputCount - 1 = 0 then .tagBit else .yieldBackref }) := by
        unfold hsMicro
        rw [hst]
      rw [hmic] at hs
      obtain ⟨rfl, rfl⟩ := Prod.mk.inj (Option.some.inj hs)
      obtain ⟨b1, b2⟩ := hi.br hst
      obtain ⟨e, hw⟩ := h3.copy hcfg k1 k2
      rw [e]
      obtain ⟨n, hn⟩ : ∃ n, h.outputCount = n + 1 := ⟨h.outputCount - 1, by omega⟩
      rw [hn, copyBack] at k3
      rw [hn]
      simp only [Nat.add_sub_cancel, Option.toList_some]
      refine ⟨syms, [], h1, rfl, hw, ?_, ?_⟩
      · unfold Mid
        by_cases h0 : n = 0 <;> simp [h0]
      · by_cases h0 : n = 0
        · subst h0
          rw [if_pos rfl, if_neg (by nofun)]
          simpa [copyBack] using k3
        · rw [if_neg h0, if_pos rfl]
          refine ⟨k1, k2, ?_⟩
          show hist ++ [lookback hist h.outputIndex] ++ copyBack _ h.outputIndex n = _
          simpa using k3

theorem HsMean.run {cfg : HsCfg} (hcfg : cfg.Ok) {n h d h'} (hr : Run cfg n h d h') : ∀ {bits hist}, HInv cfg h →
    HsMean cfg bits hist h → HsMean cfg bits (hist ++ d) h' := by
  induction hr with
  | stuck h => intro bits hist _ hm; simpa using hm
  | full h => intro bits hist _ hm; simpa using hm
  | silent g _ ih =>
    intro bits hist hi hm
    have := hm.step hcfg hi g
    simp only [Option.toList_none, List.append_nil] at this
    exact ih ((hsMicro_spec hcfg hi).2 _ _ g).1 this
  | emit g _ ih =>
    intro bits hist hi hm
    have := ih ((hsMicro_spec hcfg hi).2 _ _ g).1 (hm.step hcfg hi g)
    simpa using this

/-- The output is the beginning of what the bits mean. -/
theorem HsMean.prefix {cfg : HsCfg} {bits hist} {h : Hsd} (hm : HsMean cfg bits hist h) {S : List HsSym}
    (hp : HsParses cfg.window cfg.lookahead bits S) : hist <+: hsExpand [] S := by
  obtain ⟨syms, cons, h1, rfl, h3, h4, h5⟩ := hm
  obtain ⟨g1, t, g2, g3⟩ := hp
  obtain ⟨S', rfl, e⟩ := hsParse_prefix h1 g1 g3 g2
  rw [hsExpand_append]
  split at h5
  · rw [← h5.2.2, List.append_assoc]
    exact List.prefix_append _ _
  · rw [← h5]
    exact List.prefix_append _ _

/-- A decoder that can do nothing without input has output all that the bits mean. -/
theorem HsMean.stuck {cfg : HsCfg} (hcfg : cfg.Ok) {bits hist} {h : Hsd} (hi : HInv cfg h) (hm : HsMean cfg bits hist h)
    (hs : hsMicro cfg h = none) : ∃ S, HsParses cfg.window cfg.lookahead bits S ∧ hist = hsExpand [] S := by
  obtain ⟨syms, cons, h1, rfl, h3, h4, h5⟩ := hm
  have hb := ((hsMicro_spec hcfg hi).1 hs).2
  rw [if_neg hb] at h5
  refine ⟨syms, ⟨h1, _, rfl, ?_⟩, h5⟩
  intro s rest hfit he
  -- the field the decoder waits for is inside the symbol
  have hlen : (cons ++ hsBits h).length = (s.bits cfg.window cfg.lookahead).length + rest.length := by rw [he]; simp
  rw [List.length_append] at hlen
  have ⟨w4, w15, l3, lw, i1, i16⟩ := hcfg
  have hshort : (hsBits h).length < fieldLen cfg h.state := by
    by_cases hf : isField h.state = true
    · rcases hsMicro_field hcfg hi hf with ⟨g, _⟩ | ⟨_, _, _, _, _, _, g⟩
      · exact g
      · rw [hs] at g; cases g
    · have hlit : h.state = .yieldLiteral := by
        revert hf hb
        cases h.state <;> simp [isField]
      rw [hlit]
      by_cases hn : 8 ≤ (hsBits h).length
      · obtain ⟨g, g1, _⟩ := hsGetBits_ok hcfg hi.toHIn (by omega) (by omega) hn
        unfold hsMicro at hs
        rw [hlit, g1] at hs
        cases hs
      · show _ < 8; omega
  have hhead : ∀ b t, cons = b :: t → s.bits cfg.window cfg.lookahead ++ rest = b :: (t ++ hsBits h) := by
    rintro b t rfl
    exact he.symm
  have hlit : ∀ t, cons = true :: t → (s.bits cfg.window cfg.lookahead).length = 9 := by
    intro t ht
    have := hhead _ _ ht
    cases s with
    | literal b => simp [HsSym.bits, numBits_length]
    | backref d n => simp [HsSym.bits] at this
  have href : ∀ t, cons = false :: t → (s.bits cfg.window cfg.lookahead).length = 1 + cfg.window + cfg.lookahead := by
    intro t ht
    have := hhead _ _ ht
    cases s with
    | literal b => simp [HsSym.bits] at this
    | backref d n => simp [HsSym.bits, numBits_length]; omega
  have hpos : 1 ≤ (s.bits cfg.window cfg.lookahead).length := by
    cases s <;> simp [HsSym.bits]
  cases hst : h.state <;> simp only [Mid, hst] at h4 <;> rw [hst] at hshort <;> simp only [fieldLen] at hshort
  case tagBit => subst h4; simp only [List.length_nil] at hlen; omega
  case yieldLiteral => have := hlit _ h4; subst h4; simp only [List.length_cons, List.length_nil] at hlen; omega
  case indexMsb => have := href _ h4; subst h4; simp only [List.length_cons, List.length_nil] at hlen; omega
  case indexLsb =>
    obtain ⟨m, hc, hml, _⟩ := h4
    have := href _ hc
    subst hc
    simp only [List.length_cons] at hlen
    split at hshort <;> omega
  case countMsb =>
    obtain ⟨i, hc, hil, _⟩ := h4
    have := href _ hc
    subst hc
    simp only [List.length_cons] at hlen
    omega
  case countLsb =>
    obtain ⟨i, m, hc, hil, _, hml, _⟩ := h4
    have := href _ hc
    subst hc
    simp only [List.length_cons, List.length_append] at hlen
    split at hshort <;> omega
  case yieldBackref => exact absurd hst hb

/-! ### Calls -/

theorem hsReset_inv' {cfg : HsCfg} (_ : cfg.Ok) : HInv cfg (hsReset cfg) := by
  constructor
  · constructor
    · exact List.length_replicate
    · exact Nat.zero_le _
    · right; exact ⟨rfl, rfl⟩
    · exact ⟨0, by omega, rfl⟩
  · exact List.length_replicate
  · exact Nat.two_pow_pos 16
  all_goals exact nofun

/-- Sinking bytes: as many as there is room for. -/
theorem hsSink_ok {cfg : HsCfg} (hcfg : cfg.Ok) {h : Hsd} (hi : HInv cfg h) (data : Bytes) :
    ∃ h', hsSink cfg h data = .ok (min (cfg.inputSize - h.inputSize) data.length, h') ∧ HInv cfg h' ∧
      hsBits h' = hsBits h ++ bytesBits (data.take (min (cfg.inputSize - h.inputSize) data.length)) ∧ sameCore h h' := by
  have hlen := hi.inp
  have hisz := hi.isz
  have h16 := hcfg.i16
  unfold hsSink
  by_cases hr : cfg.inputSize - h.inputSize = 0
  · simp only [hr, if_true]
    refine ⟨h, by simp, hi, by simp [bytesBits], sameCore.refl h⟩
  · simp only [hr, if_false]
    generalize hn : min (cfg.inputSize - h.inputSize) data.length = n
    have hn1 : n ≤ cfg.inputSize - h.inputSize := by omega
    have hn2 : n ≤ data.length := by omega
    have htl : (data.take n).length = n := by rw [List.length_take]; omega
    have hwr : writeAt h.input h.inputSize (data.take n) =
        .ok (h.input.take h.inputSize ++ data.take n ++ h.input.drop (h.inputSize + n)) := by
      unfold writeAt
      rw [htl, if_pos (by omega)]
    have hu : u16 (h.inputSize + n) = h.inputSize + n := Nat.mod_eq_of_lt (by omega)
    simp only [hwr, hu, Bind.bind, Except.bind, Pure.pure, Except.pure]
    refine ⟨_, rfl, ?_, ?_, ⟨rfl, rfl, rfl, rfl, rfl⟩⟩
    · refine { inp := ?_, isz := ?_, idx := ?_, bit := hi.bit, win := hi.win, head := hi.head, im := hi.im, cm := hi.cm, cl := hi.cl, br := hi.br }
      · simp only [List.length_append, List.length_take, List.length_drop]; omega
      · show h.inputSize + n ≤ _; omega
      · show h.inputIndex < h.inputSize + n ∨ (h.inputIndex = 0 ∧ h.inputSize + n = 0)
        rcases hi.idx with h | h <;> omega
    · unfold hsBits
      have htake : (h.input.take h.inputSize ++ data.take n ++ h.input.drop (h.inputSize + n)).take (h.inputSize + n) =
          h.input.take h.inputSize ++ data.take n := by
        rw [List.take_left' (by simp only [List.length_append, List.length_take]; omega)]
      have hdrop : (h.input.take h.inputSize ++ data.take n).drop h.inputIndex =
          (h.input.take h.inputSize).drop h.inputIndex ++ data.take n := by
        rw [List.drop_append_of_le_length (by
          rw [List.length_take]
          rcases hi.idx with h | h <;> omega)]
      simp only [htake]
      rw [hdrop, List.flatMap_append, bytesBits_eq, List.append_assoc]

/-- Calls never do anything undefined, and what they output is what was fed means. -/
theorem hsRun_ok {cfg : HsCfg} (hcfg : cfg.Ok) : ∀ (ops : List HsOp) {h : Hsd} {bits : List Bool} {hist : Bytes}, HInv cfg h →
    HsMean cfg bits hist h → ∃ h' fed out, hsRun cfg h ops = .ok (h', fed, out) ∧ HInv cfg h' ∧
      HsMean cfg (bits ++ bytesBits fed) (hist ++ out) h' := by
  intro ops
  induction ops with
  | nil => intro h bits hist hi hm; exact ⟨h, [], [], rfl, hi, by simpa [bytesBits] using hm⟩
  | cons op ops ih =>
    intro h bits hist hi hm
    cases op with
    | sink data =>
      obtain ⟨h1, e1, e2, e3, e4⟩ := hsSink_ok hcfg hi data
      obtain ⟨h2, fed, out, f1, f2, f3⟩ := ih e2 (hm.sunk _ e3 e4)
      refine ⟨h2, data.take (min (cfg.inputSize - h.inputSize) data.length) ++ fed, out, ?_, f2, ?_⟩
      · simp only [hsRun, e1, f1, Bind.bind, Except.bind]; rfl
      · rw [bytesBits_append, ← List.append_assoc]; exact f3
    | poll n =>
      obtain ⟨h1, d, e1, e2⟩ := hsPoll_run hcfg hi n
      obtain ⟨h2, fed, out, f1, f2, f3⟩ := ih (e2.inv hcfg hi).1 (hm.run hcfg e2 hi)
      refine ⟨h2, fed, d ++ out, ?_, f2, ?_⟩
      · simp only [hsRun, e1, f1, Bind.bind, Except.bind]; rfl
      · rw [← List.append_assoc]; exact f3

end Detools
