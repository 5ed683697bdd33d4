import Verif.Model.Varint

namespace Detools

theorem or_shift (a b k : Nat) (h : a < 2^k) : a ||| (b <<< k) = a + b * 2^k := by
  rw [Nat.or_comm, Nat.shiftLeft_eq, Nat.mul_comm, ← Nat.two_pow_add_eq_or_of_lt h]
  omega

theorem or_80 (n : Nat) (h : n < 128) : 0x80 ||| n = 128 + n := by
  have := or_shift n 1 7 (by omega)
  rw [Nat.or_comm]; simpa [Nat.add_comm] using this

theorem and_7f (n : Nat) : n &&& 0x7f = n % 128 := Nat.and_two_pow_sub_one_eq_mod n 7
theorem and_3f (n : Nat) : n &&& 0x3f = n % 64 := Nat.and_two_pow_sub_one_eq_mod n 6

/-- Case split over all byte values. -/
theorem forall_byte (P : UInt8 → Prop) (h : ∀ n : Fin 256, P (UInt8.ofNat n.val)) (b : UInt8) : P b := by
  have := h ⟨b.toNat, b.toNat_lt⟩
  simpa using this

theorem byte_and_7f (b : UInt8) : (b &&& 0x7f).toNat = b.toNat % 128 := by
  rw [UInt8.toNat_and]; exact and_7f _

set_option maxRecDepth 8000 in
theorem byte_msb (b : UInt8) : (b &&& 0x80 ≠ 0) ↔ 128 ≤ b.toNat := by
  revert b; apply forall_byte; decide

set_option maxRecDepth 8000 in
theorem byte_sign (b : UInt8) : (b &&& 0x40 ≠ 0) ↔ 64 ≤ b.toNat % 128 := by
  revert b; apply forall_byte; decide

theorem clearLast_ne_nil {l : Bytes} (h : l ≠ []) : clearLast l ≠ [] := by
  match l with
  | [] => exact absurd rfl h
  | [b] => simp [clearLast]
  | b :: c :: t => simp [clearLast]

theorem clearLast_length (l : Bytes) : (clearLast l).length = l.length := by
  match l with
  | [] => rfl
  | [b] => rfl
  | b :: c :: t => simp [clearLast, clearLast_length (c :: t)]

theorem packGroups_zero : packGroups 0 = [] := by unfold packGroups; simp

theorem packGroups_pos {v : Nat} (h : v ≠ 0) :
    packGroups v = UInt8.ofNat (128 + v % 128) :: packGroups (v / 128) := by
  rw [packGroups.eq_1]
  simp only [h, dif_neg, not_false_eq_true, and_7f, Nat.shiftRight_eq_div_pow]
  rw [or_80 _ (by omega)]

theorem toNat_ofNat_lt {n : Nat} (h : n < 256) : (UInt8.ofNat n).toNat = n := by
  simp; omega

/-- Decoding a sequence of 7-bit groups. -/
theorem unpackLoop_groups (v : Nat) : ∀ (value offset : Nat) (rest : Bytes), v ≠ 0 →
    value < 2^offset →
    ∃ o, unpackLoop value offset (clearLast (packGroups v) ++ rest)
      = .ok (value + v * 2^offset, o, rest)
      ∧ o = offset + 7 * (packGroups v).length := by
  induction v using Nat.strongRecOn with
  | _ v ih =>
    intro value offset rest hv hlt
    rw [packGroups_pos hv]
    by_cases h : v / 128 = 0
    · refine ⟨offset + 7, ?_, by simp [h, packGroups_zero]⟩
      rw [h, packGroups_zero]
      have hv2 : v < 128 := by omega
      have e1 : ((UInt8.ofNat (128 + v % 128)) &&& 0x7f).toNat = v := by
        rw [byte_and_7f, toNat_ofNat_lt (by omega)]; omega
      simp only [clearLast, List.cons_append, List.nil_append, unpackLoop, and_7f, e1]
      have e2 : ¬ (((UInt8.ofNat (128 + v % 128)) &&& 0x7f) &&& 0x80 ≠ 0) := by
        rw [byte_msb, e1]; omega
      rw [if_neg e2, or_shift _ _ _ hlt, Nat.mod_eq_of_lt hv2]
    · obtain ⟨c, t, hct⟩ : ∃ c t, packGroups (v/128) = c :: t := ⟨_, _, packGroups_pos h⟩
      have hcl : clearLast (UInt8.ofNat (128 + v % 128) :: packGroups (v / 128))
          = UInt8.ofNat (128 + v % 128) :: clearLast (packGroups (v/128)) := by
        rw [hct]; rfl
      rw [hcl]
      simp only [List.cons_append, unpackLoop, and_7f]
      have e2 : ((UInt8.ofNat (128 + v % 128)) &&& 0x80 ≠ 0) := by
        rw [byte_msb, toNat_ofNat_lt (by omega)]; omega
      rw [if_pos e2, or_shift _ _ _ hlt, toNat_ofNat_lt (by omega)]
      have e3 : (128 + v % 128) % 128 = v % 128 := by omega
      rw [e3]
      have hlt' : value + v % 128 * 2^offset < 2^(offset + 7) := by
        have : v % 128 * 2^offset ≤ 127 * 2^offset := Nat.mul_le_mul_right _ (by omega)
        rw [Nat.pow_add]; omega
      obtain ⟨o, ho1, ho2⟩ := ih (v/128) (by omega) (value + v % 128 * 2^offset) (offset+7) rest h hlt'
      refine ⟨o, ?_, ?_⟩
      · rw [ho1]
        congr 2
        have : v = 128 * (v/128) + v % 128 := (Nat.div_add_mod v 128).symm
        have e4 : v * 2^offset = (128 * (v/128) + v % 128) * 2^offset := by rw [← this]
        rw [e4, Nat.pow_add, Nat.add_mul]
        have : v / 128 * (2 ^ offset * 2 ^ 7) = 128 * (v/128) * 2^offset := by
          rw [Nat.mul_comm (2^offset), ← Nat.mul_assoc, Nat.mul_comm (v/128)]
        omega
      · simp [ho2]; omega

theorem packGroups_length_le (n v : Nat) (h : v < 2^(7*n)) : (packGroups v).length ≤ n := by
  induction n generalizing v with
  | zero => simp at h; subst h; simp [packGroups_zero]
  | succ n ih =>
    by_cases hv : v = 0
    · subst hv; simp [packGroups_zero]
    · rw [packGroups_pos hv]
      have : v / 128 < 2^(7*n) := by
        rw [Nat.div_lt_iff_lt_mul (by omega)]
        have : (2:Nat)^(7*(n+1)) = 2^(7*n) * 128 := by rw [Nat.mul_add, Nat.pow_add]
        omega
      simp; exact ih _ this

theorem packSize_ne_nil (v : Int) : packSize v ≠ [] := by
  unfold packSize
  split
  · simp [clearLast]
  · exact clearLast_ne_nil (by simp)

/-- First byte of a non-zero packed size. -/
theorem packSize_shape (v : Int) (hv : v ≠ 0) :
    packSize v = clearLast (UInt8.ofNat ((if v > 0 then 0 else 64) + 128 + v.natAbs % 64)
        :: packGroups (v.natAbs / 64)) := by
  unfold packSize
  simp only [hv, if_false, and_3f, Nat.shiftRight_eq_div_pow]
  rw [or_80 _ (by omega)]
  congr 3
  split
  · simp
  · have h1 : 128 + v.natAbs % 64 = v.natAbs % 64 ||| 2 <<< 6 := by
      rw [or_shift _ _ _ (by omega)]; omega
    generalize hm : v.natAbs % 64 = m at h1
    have hm' : m < 2^6 := by omega
    have h2 : (64:Nat) = 1 <<< 6 := rfl
    rw [h1, h2, Nat.or_comm m, ← Nat.or_assoc, ← Nat.shiftLeft_or_distrib,
      Nat.or_comm, or_shift _ _ _ hm']
    have : (1 ||| 2 : Nat) = 3 := rfl
    have h3 : (1 : Nat) <<< 6 = 64 := rfl
    rw [this, h3]; omega

theorem unpackSizeWithLength_packSize (v : Int) (rest : Bytes) :
    unpackSizeWithLength (packSize v ++ rest) = .ok (v, (packSize v).length, rest) := by
  by_cases hv : v = 0
  · subst hv; rfl
  · rw [packSize_shape v hv]
    generalize hs : (if v > 0 then 0 else 64 : Nat) = s
    have hs' : s = 0 ∨ s = 64 := by split at hs <;> omega
    have hlt : s + 128 + v.natAbs % 64 < 256 := by omega
    by_cases h : v.natAbs / 64 = 0
    · rw [h, packGroups_zero]
      have e1 : ((UInt8.ofNat (s + 128 + v.natAbs % 64)) &&& 0x7f).toNat = s + v.natAbs % 64 := by
        rw [byte_and_7f, toNat_ofNat_lt hlt]; omega
      have e2 : ¬ (((UInt8.ofNat (s + 128 + v.natAbs % 64)) &&& 0x7f) &&& 0x80 ≠ 0) := by
        rw [byte_msb, e1]; omega
      simp only [clearLast, List.cons_append, List.nil_append, unpackSizeWithLength, e1, if_neg e2,
        bind, Except.bind, pure, Except.pure, byte_sign, and_3f]
      have e3 : (s + v.natAbs % 64) % 64 = v.natAbs := by omega
      rw [e3]
      simp
      split at hs <;> simp_all <;> omega
    · obtain ⟨c, t, hct⟩ : ∃ c t, packGroups (v.natAbs/64) = c :: t := ⟨_, _, packGroups_pos h⟩
      have hcl : clearLast (UInt8.ofNat (s + 128 + v.natAbs % 64) :: packGroups (v.natAbs / 64))
          = UInt8.ofNat (s + 128 + v.natAbs % 64) :: clearLast (packGroups (v.natAbs/64)) := by
        rw [hct]; rfl
      rw [hcl]
      have e2 : ((UInt8.ofNat (s + 128 + v.natAbs % 64)) &&& 0x80 ≠ 0) := by
        rw [byte_msb, toNat_ofNat_lt hlt]; omega
      simp only [List.cons_append, unpackSizeWithLength, if_pos e2,
        bind, Except.bind, pure, Except.pure, byte_sign, and_3f, toNat_ofNat_lt hlt]
      have e3 : (s + 128 + v.natAbs % 64) % 64 = v.natAbs % 64 := by omega
      rw [e3]
      obtain ⟨o, ho1, ho2⟩ := unpackLoop_groups (v.natAbs/64) (v.natAbs % 64) 6 rest h (by omega)
      rw [ho1]
      simp only [List.length_cons, clearLast_length]
      have e5 : (o - 6) / 7 = (packGroups (v.natAbs / 64)).length := by omega
      rw [e5]
      have e6 : v.natAbs % 64 + v.natAbs / 64 * 2^6 = v.natAbs := by omega
      rw [e6]
      split at hs <;> simp_all <;> omega

theorem unpackSize_packSize (v : Int) (rest : Bytes) :
    unpackSize (packSize v ++ rest) = .ok (v, rest) := by
  simp [unpackSize, unpackSizeWithLength_packSize, bind, Except.bind, pure, Except.pure]

theorem packSize_length_le (v : Int) (h : v.natAbs < 2^69) : (packSize v).length ≤ 10 := by
  by_cases hv : v = 0
  · subst hv; decide
  · rw [packSize_shape v hv, clearLast_length]
    have := packGroups_length_le 9 (v.natAbs / 64) (by omega)
    simp; omega

theorem unpackLoop_consumes (bs : Bytes) : ∀ (value offset v o : Nat) (rest : Bytes),
    unpackLoop value offset bs = .ok (v, o, rest) →
    ∃ c, bs = c ++ rest ∧ o = offset + 7 * c.length ∧ 0 < c.length
      ∧ (∀ tail, unpackLoop value offset (c ++ tail) = .ok (v, o, tail)) := by
  induction bs with
  | nil => intro _ _ _ _ _ h; simp [unpackLoop] at h
  | cons b bs ih =>
    intro value offset v o rest h
    simp only [unpackLoop] at h
    split at h
    · next hb =>
      obtain ⟨c, h1, h2, h3, h4⟩ := ih _ _ _ _ _ h
      refine ⟨b :: c, by simp [h1], by simp; omega, by simp, ?_⟩
      intro tail
      simp only [List.cons_append, unpackLoop, if_pos hb]
      exact h4 tail
    · next hb =>
      simp at h
      obtain ⟨rfl, rfl, rfl⟩ := h
      refine ⟨[b], rfl, by simp, by simp, ?_⟩
      intro tail
      simp only [List.cons_append, List.nil_append, unpackLoop, if_neg hb]

theorem unpackSizeWithLength_consumes (bs : Bytes) (v : Int) (n : Nat) (rest : Bytes)
    (h : unpackSizeWithLength bs = .ok (v, n, rest)) :
    ∃ c, bs = c ++ rest ∧ c.length = n ∧ 0 < n
      ∧ (∀ tail, unpackSizeWithLength (c ++ tail) = .ok (v, n, tail)) := by
  match bs with
  | [] => simp [unpackSizeWithLength] at h
  | b :: bs =>
    simp only [unpackSizeWithLength, bind, Except.bind, pure, Except.pure] at h
    split at h
    · next hb =>
      split at h
      · simp at h
      · next heq =>
        obtain ⟨c, h1, h2, h3, h4⟩ := unpackLoop_consumes _ _ _ _ _ _ heq
        simp only [Except.ok.injEq, Prod.mk.injEq] at h
        obtain ⟨rfl, rfl, rfl⟩ := h
        refine ⟨b :: c, by simp [h1], by simp; omega, by omega, ?_⟩
        intro tail
        simp only [List.cons_append, unpackSizeWithLength, if_pos hb, h4 tail, bind, Except.bind, pure, Except.pure]
    · next hb =>
      simp only [Except.ok.injEq, Prod.mk.injEq] at h
      obtain ⟨rfl, rfl, rfl⟩ := h
      refine ⟨[b], rfl, by simp, by simp, ?_⟩
      intro tail
      simp only [List.cons_append, List.nil_append, unpackSizeWithLength, if_neg hb, bind, Except.bind, pure, Except.pure]

theorem reinterpret_roundtrip (n : Nat) (h : n < 2^64) :
    reinterpretUnsigned (reinterpretSigned n) = n := by
  unfold reinterpretUnsigned reinterpretSigned
  split <;> split <;> omega

end Detools
