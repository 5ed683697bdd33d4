import Verif.Proofs.CReader
import Verif.Spec.Heatshrink
/-
The bit reader of the heatshrink decoder.
-/
namespace Detools


/-- The bits of a byte, most significant first. -/
def byteBits (b : UInt8) : List Bool :=
  [7, 6, 5, 4, 3, 2, 1, 0].map (fun i => b.toNat.testBit i)

/-- Value of bits, most significant first. -/
def bitsVal (bs : List Bool) : Nat := bs.foldl (fun acc b => 2 * acc + b.toNat) 0

/-- Number of unread bits of the current byte. -/
def bitsLeft (bitIndex : Nat) : Nat := if bitIndex = 0 then 0 else bitIndex.log2 + 1

/-- The unread bits of a decoder. -/
def hsBits (h : Hsd) : List Bool :=
  (byteBits h.currentByte).drop (8 - bitsLeft h.bitIndex) ++
    ((h.input.take h.inputSize).drop h.inputIndex).flatMap byteBits

theorem hsStatic_ok : hsStatic.Ok := by constructor <;> decide

/-- The part of the invariant about the input. -/
structure HIn (cfg : HsCfg) (h : Hsd) : Prop where
  inp : h.input.length = cfg.inputSize
  isz : h.inputSize ≤ cfg.inputSize
  idx : h.inputIndex < h.inputSize ∨ (h.inputIndex = 0 ∧ h.inputSize = 0)
  bit : ∃ k, k ≤ 8 ∧ h.bitIndex = 2 ^ k / 2

/-- The fields the bit reader leaves alone. -/
def sameCore (h h' : Hsd) : Prop :=
  h'.outputCount = h.outputCount ∧ h'.outputIndex = h.outputIndex ∧ h'.headIndex = h.headIndex ∧
    h'.state = h.state ∧ h'.window = h.window

theorem sameCore.refl (h : Hsd) : sameCore h h := ⟨rfl, rfl, rfl, rfl, rfl⟩
theorem sameCore.trans {a b c : Hsd} (h1 : sameCore a b) (h2 : sameCore b c) : sameCore a c := by
  obtain ⟨p1, p2, p3, p4, p5⟩ := h1
  obtain ⟨q1, q2, q3, q4, q5⟩ := h2
  exact ⟨q1.trans p1, q2.trans p2, q3.trans p3, q4.trans p4, q5.trans p5⟩

theorem bitsLeft_pow (k : Nat) : bitsLeft (2 ^ k / 2) = k := by
  cases k with
  | zero => rfl
  | succ k =>
    have : 2 ^ (k + 1) / 2 = 2 ^ k := by rw [Nat.pow_succ, Nat.mul_div_cancel _ (by omega)]
    rw [this, bitsLeft, if_neg (by have := Nat.two_pow_pos k; omega), Nat.log2_two_pow]

theorem byteBits_length (b : UInt8) : (byteBits b).length = 8 := rfl

theorem hsBits_length {cfg h} (hi : HIn cfg h) :
    (hsBits h).length = bitsLeft h.bitIndex + 8 * (h.inputSize - h.inputIndex) := by
  obtain ⟨k, hk, hb⟩ := hi.bit
  have : ∀ l : Bytes, (l.flatMap byteBits).length = 8 * l.length := by
    intro l
    induction l with
    | nil => rfl
    | cons b l ih => simp [List.flatMap_cons, byteBits_length, ih]; omega
  have := hi.inp
  have := hi.isz
  simp [hsBits, byteBits_length, *, bitsLeft_pow]
  omega

theorem and_two_pow_ne (n k : Nat) : n &&& 2 ^ k ≠ 0 ↔ n.testBit k = true := by
  constructor
  · intro h
    cases ht : n.testBit k with
    | true => rfl
    | false =>
      refine absurd (Nat.eq_of_testBit_eq fun i => ?_) h
      rw [Nat.testBit_and, Nat.testBit_two_pow, Nat.zero_testBit]
      by_cases hi : k = i
      · subst hi; simp [ht]
      · simp [hi]
  · intro ht h
    have : (n &&& 2 ^ k).testBit k = true := by simp [Nat.testBit_and, Nat.testBit_two_pow, ht]
    rw [h] at this
    simp at this

/-- With a current bit, one pass takes it. -/
theorem hsBits_cur {h : Hsd} {k : Nat} (hk : k < 8) (hb : h.bitIndex = 2 ^ (k + 1) / 2) :
    hsBits h = h.currentByte.toNat.testBit k :: hsBits { h with bitIndex := h.bitIndex >>> 1 } ∧
      (h.currentByte.toNat &&& h.bitIndex ≠ 0 ↔ h.currentByte.toNat.testBit k = true) ∧
      h.bitIndex >>> 1 = 2 ^ k / 2 := by
  have hb' : h.bitIndex = 2 ^ k := by rw [hb, Nat.pow_succ, Nat.mul_div_cancel _ (by omega)]
  have hsh : h.bitIndex >>> 1 = 2 ^ k / 2 := by rw [hb', Nat.shiftRight_eq_div_pow]
  refine ⟨?_, ?_, hsh⟩
  · unfold hsBits
    simp only [hsh, bitsLeft_pow]
    rw [hb, bitsLeft_pow]
    have : (byteBits h.currentByte).drop (8 - (k + 1)) =
        h.currentByte.toNat.testBit k :: (byteBits h.currentByte).drop (8 - k) := by
      match k, hk with
      | 0, _ => rfl
      | 1, _ => rfl
      | 2, _ => rfl
      | 3, _ => rfl
      | 4, _ => rfl
      | 5, _ => rfl
      | 6, _ => rfl
      | 7, _ => rfl
    rw [this]
    rfl
  · rw [hb']
    exact and_two_pow_ne _ _

/-- Fetching a byte. -/
theorem hsPull_spec {cfg : HsCfg} (hcfg : cfg.Ok) {h : Hsd} (hi : HIn cfg h) (h0 : h.bitIndex = 0)
    (hs : h.inputSize ≠ 0) :
    ∃ h', hsPull h = .ok h' ∧ HIn cfg h' ∧ sameCore h h' ∧ hsBits h' = hsBits h ∧ h'.bitIndex = 128 := by
  have hidx : h.inputIndex < h.inputSize := by
    rcases hi.idx with h | h
    · exact h
    · exact absurd h.2 hs
  have h1 := hi.inp
  have h2 := hi.isz
  have h3 := hcfg.i16
  have hlt : h.inputIndex < h.input.length := by omega
  have hget : h.input[h.inputIndex]? = some h.input[h.inputIndex] := by simp [hlt]
  have hu : u16 (h.inputIndex + 1) = h.inputIndex + 1 := Nat.mod_eq_of_lt (by omega)
  unfold hsPull
  simp only [hget, hu]
  refine ⟨_, rfl, ?_, ⟨rfl, rfl, rfl, rfl, rfl⟩, ?_, rfl⟩
  · constructor
    · exact h1
    · show (if _ then _ else _) ≤ _
      split <;> omega
    · show (if _ then _ else _) < (if _ then _ else _) ∨ _
      by_cases he : h.inputIndex + 1 = h.inputSize
      · right; simp [he]
      · left; simp [he]; omega
    · exact ⟨8, by omega, rfl⟩
  · have hdrop : (h.input.take h.inputSize).drop h.inputIndex =
        h.input[h.inputIndex] :: (h.input.take h.inputSize).drop (h.inputIndex + 1) := by
      rw [List.drop_eq_getElem_cons (by simp; omega)]
      simp
    have hb128 : bitsLeft 128 = 8 := by decide
    have hb0 : bitsLeft 0 = 0 := rfl
    unfold hsBits
    simp only [h0, hb0, hb128]
    rw [hdrop, List.flatMap_cons]
    have hcur : (byteBits h.currentByte).drop (8 - 0) = [] := rfl
    rw [hcur]
    show byteBits _ ++ _ = [] ++ (byteBits _ ++ _)
    rw [List.nil_append]
    congr 1
    by_cases he : h.inputIndex + 1 = h.inputSize
    · simp only [he, if_true]
      rw [show (h.input.take h.inputSize).drop h.inputSize = [] by simp]
      simp
    · simp only [he, if_false]

theorem bitsVal_append (bs cs : List Bool) :
    bitsVal (bs ++ cs) = cs.foldl (fun acc b => 2 * acc + b.toNat) (bitsVal bs) := by
  simp [bitsVal]

theorem bitFold_lt (bs : List Bool) : ∀ acc, bs.foldl (fun acc b => 2 * acc + b.toNat) acc < (acc + 1) * 2 ^ bs.length := by
  induction bs with
  | nil => intro acc; simp
  | cons b bs ih =>
    intro acc
    refine Nat.lt_of_lt_of_le (ih (2 * acc + b.toNat)) ?_
    rw [List.length_cons, Nat.pow_succ, Nat.mul_comm (2 ^ bs.length) 2, ← Nat.mul_assoc]
    apply Nat.mul_le_mul_right
    have : b.toNat ≤ 1 := Bool.toNat_le b
    omega

theorem bitsVal_lt (bs : List Bool) : bitsVal bs < 2 ^ bs.length := by
  have := bitFold_lt bs 0
  simpa [bitsVal] using this

theorem hsBitLoop_spec {cfg : HsCfg} (hcfg : cfg.Ok) :
    ∀ (n : Nat) (h : Hsd) (acc : Nat), HIn cfg h → n ≤ (hsBits h).length → (acc + 1) * 2 ^ n ≤ 2 ^ 15 →
      ∃ h', hsBitLoop n h acc = .ok (some ((hsBits h).take n |>.foldl (fun acc b => 2 * acc + b.toNat) acc), h') ∧
        HIn cfg h' ∧ sameCore h h' ∧ hsBits h' = (hsBits h).drop n := by
  intro n
  induction n with
  | zero => intro h acc hi _ _; exact ⟨h, by simp [hsBitLoop], hi, sameCore.refl h, by simp⟩
  | succ n ih =>
    intro h acc hi hn hacc
    -- one bit from the current byte
    have cur : ∀ (g : Hsd), HIn cfg g → g.bitIndex ≠ 0 → hsBits g = hsBits h → sameCore h g →
        ∃ h', hsBitLoop n { g with bitIndex := g.bitIndex >>> 1 }
            (u16 (acc <<< 1) ||| if g.currentByte.toNat &&& g.bitIndex ≠ 0 then 1 else 0) =
            .ok (some ((hsBits h).take (n + 1) |>.foldl (fun acc b => 2 * acc + b.toNat) acc), h') ∧
          HIn cfg h' ∧ sameCore h h' ∧ hsBits h' = (hsBits h).drop (n + 1) := by
      intro g hg h0 hbits hcore
      obtain ⟨k, hk, hb⟩ := hg.bit
      obtain ⟨j, rfl⟩ : ∃ j, k = j + 1 := by
        cases k with
        | zero => exact absurd hb h0
        | succ j => exact ⟨j, rfl⟩
      obtain ⟨e1, e2, e3⟩ := hsBits_cur (h := g) (k := j) (by omega) hb
      rw [← hbits] at hn ⊢
      rw [e1] at hn ⊢
      simp only [List.length_cons] at hn
      simp only [List.take_succ_cons, List.drop_succ_cons, List.foldl_cons]
      have hv : (u16 (acc <<< 1) ||| if g.currentByte.toNat &&& g.bitIndex ≠ 0 then 1 else 0) =
          2 * acc + (g.currentByte.toNat.testBit j).toNat := by
        have hp : 1 ≤ 2 ^ n := Nat.two_pow_pos n
        have hacc2 : (acc + 1) * 2 ≤ 2 ^ 15 := by
          rw [Nat.pow_succ, Nat.mul_comm (2 ^ n) 2, ← Nat.mul_assoc] at hacc
          exact Nat.le_trans (Nat.le_mul_of_pos_right _ hp) hacc
        have hsh : u16 (acc <<< 1) = acc <<< 1 := by
          rw [Nat.shiftLeft_eq]
          exact Nat.mod_eq_of_lt (by omega)
        rw [hsh]
        cases ht : g.currentByte.toNat.testBit j with
        | false =>
          have : ¬ (g.currentByte.toNat &&& g.bitIndex ≠ 0) := by rw [e2, ht]; decide
          rw [if_neg this, Nat.shiftLeft_eq]
          simp
          omega
        | true =>
          have : g.currentByte.toNat &&& g.bitIndex ≠ 0 := by rw [e2, ht]
          rw [if_pos this, ← Nat.shiftLeft_add_eq_or_of_lt (by omega), Nat.shiftLeft_eq]
          simp
          omega
      rw [hv]
      obtain ⟨h', f1, f2, f3, f4⟩ := ih { g with bitIndex := g.bitIndex >>> 1 } (2 * acc + (g.currentByte.toNat.testBit j).toNat)
        ⟨hg.inp, hg.isz, hg.idx, ⟨j, by omega, e3⟩⟩ (by omega)
        (by
          have hb1 : (g.currentByte.toNat.testBit j).toNat ≤ 1 := Bool.toNat_le _
          refine Nat.le_trans ?_ hacc
          rw [Nat.pow_succ, Nat.mul_comm (2 ^ n) 2, ← Nat.mul_assoc]
          apply Nat.mul_le_mul_right
          omega)
      refine ⟨h', f1, f2, hcore.trans (sameCore.trans ⟨rfl, rfl, rfl, rfl, rfl⟩ f3), f4⟩
    unfold hsBitLoop
    by_cases h0 : h.bitIndex = 0
    · have hs : h.inputSize ≠ 0 := by
        intro hs
        rw [hsBits_length hi, h0, hs] at hn
        simp [bitsLeft] at hn
      obtain ⟨g, g1, g2, g3, g4, g5⟩ := hsPull_spec hcfg hi h0 hs
      obtain ⟨h', r⟩ := cur g g2 (by omega) g4 g3
      refine ⟨h', ?_, r.2⟩
      rw [if_pos h0, if_neg hs, g1]
      exact r.1
    · rw [if_neg h0]
      exact cur h hi h0 rfl (sameCore.refl h)

/-- `get_bits`, for up to eight bits. -/
theorem hsGetBits_ok {cfg : HsCfg} (hcfg : cfg.Ok) {h : Hsd} (hi : HIn cfg h) {n : Nat} (h1 : 1 ≤ n) (h8 : n ≤ 8)
    (hn : n ≤ (hsBits h).length) :
    ∃ h', hsGetBits h n = .ok (some (bitsVal ((hsBits h).take n)), h') ∧ HIn cfg h' ∧ sameCore h h' ∧
      hsBits h' = (hsBits h).drop n := by
  obtain ⟨h', g1, g2⟩ := hsBitLoop_spec hcfg n h 0 hi hn
    (by rw [Nat.zero_add, Nat.one_mul]; exact Nat.pow_le_pow_right (by omega) (by omega))
  refine ⟨h', ?_, g2⟩
  unfold hsGetBits
  rw [if_neg (by omega), if_neg, g1]
  · rfl
  · rintro ⟨hs, hb⟩
    obtain ⟨k, hk, hbit⟩ := hi.bit
    rw [hsBits_length hi, hs, hbit, bitsLeft_pow] at hn
    have : n ≤ k := by omega
    rw [hbit, Nat.shiftLeft_eq, Nat.one_mul] at hb
    have e : 2 ^ k / 2 = 2 ^ (k - 1) := by
      obtain ⟨j, rfl⟩ : ∃ j, k = j + 1 := ⟨k - 1, by omega⟩
      rw [Nat.pow_succ, Nat.mul_div_cancel _ (by omega)]; rfl
    rw [e] at hb
    have : 2 ^ (n - 1) ≤ 2 ^ (k - 1) := Nat.pow_le_pow_right (by omega) (by omega)
    omega

theorem hsGetBits_none {cfg : HsCfg} {h : Hsd} (hi : HIn cfg h) {n : Nat} (h1 : 1 ≤ n) (h8 : n ≤ 8)
    (hn : (hsBits h).length < n) : hsGetBits h n = .ok (none, h) ∧ h.inputSize = 0 := by
  obtain ⟨k, hk, hbit⟩ := hi.bit
  rw [hsBits_length hi, hbit, bitsLeft_pow] at hn
  have hs : h.inputSize = 0 := by
    rcases hi.idx with h | h
    · omega
    · exact h.2
  refine ⟨?_, hs⟩
  unfold hsGetBits
  rw [if_neg (by omega), if_pos]
  refine ⟨hs, ?_⟩
  rw [hbit, Nat.shiftLeft_eq, Nat.one_mul]
  cases k with
  | zero => simp; exact Nat.two_pow_pos _
  | succ j =>
    rw [Nat.pow_succ, Nat.mul_div_cancel _ (by omega)]
    exact Nat.pow_lt_pow_right (by omega) (by omega)

end Detools
