/-!
The logarithm that bounds the stack of trsort.
-/

namespace Detools.Dss.Tr

/-- The logarithm of the cube. -/
def lg3 (n : Nat) : Nat := Nat.log2 (n ^ 3)

theorem lg3_drop {m n k : Nat} (hm : 1 ≤ m) (h : m ^ 3 * 2 ^ k ≤ n ^ 3) : lg3 m + k ≤ lg3 n := by
  unfold lg3
  have h1 : m ^ 3 ≠ 0 := Nat.pos_iff_ne_zero.1 (Nat.pow_pos (by omega))
  have h2 : 0 < m ^ 3 * 2 ^ k := Nat.mul_pos (Nat.pos_of_ne_zero h1) (Nat.pow_pos (by decide))
  rw [Nat.le_log2 (by omega), Nat.pow_add]
  exact Nat.le_trans (Nat.mul_le_mul_right _ (Nat.log2_self_le h1)) h

theorem lg3_mono {m n : Nat} (h : m ≤ n) : lg3 m ≤ lg3 n := by
  by_cases hm : m = 0
  · subst hm
    exact Nat.zero_le _
  · have := lg3_drop (m := m) (n := n) (k := 0) (by omega) (by rw [Nat.pow_zero, Nat.mul_one]; exact Nat.pow_le_pow_left h 3)
    omega

theorem lg3_two {n : Nat} (h : 2 ≤ n) : 3 ≤ lg3 n := lg3_mono h

theorem lg3_half {m n : Nat} (hn : 2 ≤ n) (h : 2 * m ≤ n) : lg3 m + 3 ≤ lg3 n := by
  by_cases hm : m = 0
  · subst hm
    exact lg3_two hn
  · refine lg3_drop (by omega) ?_
    have := Nat.pow_le_pow_left h 3
    rw [Nat.mul_pow] at this
    omega

theorem lg3_third {m n : Nat} (hn : 3 ≤ n) (h : 3 * m ≤ n) : lg3 m + 4 ≤ lg3 n := by
  by_cases hm : m = 0
  · subst hm
    exact lg3_mono hn
  · refine lg3_drop (by omega) ?_
    have := Nat.pow_le_pow_left h 3
    rw [Nat.mul_pow] at this
    omega

/-- Enough room for a range of `m` of `n`. -/
def room (m n : Nat) : Nat := max (lg3 m) (2 + lg3 (min m (n / 2)))

theorem room_mono {m m' n : Nat} (h : m ≤ m') : room m n ≤ room m' n := by
  unfold room
  have h1 := lg3_mono h
  have h2 := lg3_mono (show min m (n / 2) ≤ min m' (n / 2) by omega)
  omega

theorem room_le {m n : Nat} (hn : 2 ≤ n) (h : m ≤ n) : room m n ≤ lg3 n := by
  unfold room
  have h1 := lg3_mono h
  have h2 := lg3_half (m := min m (n / 2)) hn (by omega)
  omega

theorem room_half {m n k : Nat} (hk : 2 ≤ k) (h : 2 * m ≤ k) : 1 + room m n ≤ lg3 k := by
  unfold room
  have h1 := lg3_half hk h
  have h2 := lg3_half (m := min m (n / 2)) hk (by omega)
  omega

theorem room_third {m n k : Nat} (hk : 3 ≤ k) (h : 3 * m ≤ k) : 2 + room m n ≤ lg3 k := by
  unfold room
  have h1 := lg3_third hk h
  have h2 := lg3_third (m := min m (n / 2)) hk (by omega)
  omega

/-- When the stack of 64 entries is not enough. -/
theorem lg3_full {n : Nat} (h : 64 < lg3 n) : 3329021 < n := by
  unfold lg3 at h
  have h1 : n ^ 3 ≠ 0 := by
    intro h0
    rw [h0] at h
    exact absurd h (by decide)
  have h2 : 2 ^ 65 ≤ n ^ 3 := (Nat.le_log2 h1).1 h
  refine Nat.lt_of_not_le fun hn => ?_
  exact absurd (Nat.le_trans h2 (Nat.pow_le_pow_left hn 3)) (by decide)

end Detools.Dss.Tr
