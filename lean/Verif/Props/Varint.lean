import Verif.Proofs.Varint
/-
C04, C05: integer encodings.
-/
namespace Detools

/-- C04. `pack_size` succeeds on every int64 except INT64_MIN, and whatever bytes
follow, `unpack_size` reads back the value and leaves exactly those bytes. -/
theorem C04_pack_unpack (v : Int) (h : -2^63 < v) (h' : v < 2^63) (rest : Bytes) :
    ∃ bs, pyPackSize v = .ok bs ∧ 1 ≤ bs.length ∧ bs.length ≤ 10 ∧
      unpackSize (bs ++ rest) = .ok (v, rest) ∧
      unpackSizeWithLength (bs ++ rest) = .ok (v, bs.length, rest) := by
  refine ⟨packSize v, ?_, ?_, ?_, unpackSize_packSize v rest, unpackSizeWithLength_packSize v rest⟩
  · unfold pyPackSize
    rw [if_neg (by omega), if_neg (by omega)]
  · exact List.length_pos_iff.2 (packSize_ne_nil v)
  · apply packSize_length_le; omega

/-- C04. No encoding is a prefix of the encoding of another value; in particular
encoding is injective. -/
theorem C04_prefix_free (v w : Int) (bv bw tail : Bytes) (hv : pyPackSize v = .ok bv)
    (hw : pyPackSize w = .ok bw) (h : bw = bv ++ tail) : v = w ∧ tail = [] := by
  have key : ∀ (x : Int) (b : Bytes), pyPackSize x = .ok b → b = packSize x := by
    intro x b hx
    unfold pyPackSize at hx
    split at hx
    · simp at hx
    · split at hx
      · simp at hx
      · simpa using hx.symm
  have e1 := unpackSize_packSize v tail
  rw [← key v bv hv, ← h] at e1
  have e2 := unpackSize_packSize w []
  rw [← key w bw hw, List.append_nil, e1] at e2
  simpa using e2

/-- C04. Values outside int64 raise OverflowError. -/
theorem C04_out_of_range (v : Int) (h : v < -2^63 ∨ 2^63 ≤ v) :
    pyPackSize v = .error (.builtin "OverflowError") := by
  unfold pyPackSize; rw [if_pos h]

/-- C04. The one excluded value reaches a signed overflow in C. -/
theorem C04_int64_min_ub : ∃ m, pyPackSize (-2^63) = .error (.ub m) := ⟨_, rfl⟩

example : pyPackSize (-300) = .ok [0xec, 0x04] ∧ unpackSize ([0xec, 0x04] ++ [7]) = .ok (-300, [7]) := by
  decide +kernel

/-- C05. Every unsigned 64-bit value except 2^63 survives `pack_usize` and
`unpack_usize`, leaving what follows. -/
theorem C05_usize_roundtrip_partial (v : Nat) (h : v < 2^64) (h' : v ≠ 2^63) (rest : Bytes) :
    ∃ bs, packUsize v = .ok bs ∧ unpackUsize (bs ++ rest) = .ok (v, rest) := by
  have hr : -2^63 < reinterpretSigned v ∧ reinterpretSigned v < 2^63 := by
    unfold reinterpretSigned; split <;> omega
  obtain ⟨bs, h1, _, _, h2, _⟩ := C04_pack_unpack (reinterpretSigned v) hr.1 hr.2 rest
  refine ⟨bs, ?_, ?_⟩
  · unfold packUsize
    rw [if_neg (by omega), Int.toNat_natCast, h1]
  · unfold unpackUsize
    rw [h2]
    simp only [bind, Except.bind, pure, Except.pure]
    rw [if_neg (by omega), reinterpret_roundtrip v h]

/-- C05. The excluded value: `pack_usize(2^63)` reaches the signed overflow. -/
theorem C05_usize_2_63_ub : ∃ m, packUsize (2^63) = .error (.ub m) := ⟨_, rfl⟩

/-- C05. Values outside 64 bits raise struct.error. -/
theorem C05_usize_out_of_range (v : Int) (h : v < 0 ∨ 2^64 ≤ v) :
    packUsize v = .error (.builtin "struct.error") := by
  unfold packUsize; rw [if_pos h]

/-- C05. Exactly which bytes are an unsigned value: those of a signed value of 64 bits, and the
unsigned value is the same bits. -/
theorem C05_usize_unpack_exact (bs rest : Bytes) (v : Nat) :
    unpackUsize bs = .ok (v, rest) ↔
      ∃ x : Int, unpackSize bs = .ok (x, rest) ∧ -2^63 ≤ x ∧ x < 2^63 ∧ (v : Int) = x % 2^64 := by
  unfold unpackUsize
  cases h : unpackSize bs with
  | error e => simp [bind, Except.bind]
  | ok p =>
    obtain ⟨x, r⟩ := p
    simp only [bind, Except.bind, pure, Except.pure]
    by_cases hr : x < -2^63 ∨ 2^63 ≤ x
    · rw [if_pos hr]
      constructor
      · intro hc; cases hc
      · rintro ⟨y, hy, h1, h2, _⟩
        injection hy with hy; injection hy with hy _
        omega
    · rw [if_neg hr]
      unfold reinterpretUnsigned
      constructor
      · intro hc
        injection hc with hc; injection hc with hv hrest
        subst hrest hv
        refine ⟨x, rfl, by omega, by omega, ?_⟩
        split <;> omega
      · rintro ⟨y, hy, h1, h2, h3⟩
        injection hy with hy; injection hy with hy hrest
        subst hrest hy
        congr 2
        split <;> omega

example : packUsize 0xfffffffffffffffe = .ok [0x42] ∧ unpackUsize [0x42, 9] = .ok (0xfffffffffffffffe, [9]) := by
  decide +kernel

end Detools
