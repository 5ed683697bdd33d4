import Verif.Model.DataFormatArch
import Verif.Proofs.PyContainers
/-
Packing of instructions is the inverse of unpacking.
-/
namespace Detools

theorem and_shift (x m k : Nat) : (x &&& (m <<< k)) >>> k = (x >>> k) &&& m := by
  rw [Nat.shiftRight_and_distrib, Nat.shiftLeft_shiftRight]

theorem shr_and (x k n : Nat) : (x >>> k) &&& (2 ^ n - 1) = x / 2 ^ k % 2 ^ n := by
  rw [Nat.and_two_pow_sub_one_eq_mod, Nat.shiftRight_eq_div_pow]

theorem or_low (a b k : Nat) (h : a % 2 ^ k = 0) (hb : b < 2 ^ k) : a ||| b = a + b := by
  have h1 : a = (a / 2 ^ k) <<< k := by
    rw [Nat.shiftLeft_eq, Nat.div_mul_cancel (Nat.dvd_of_mod_eq_zero h)]
  rw [h1]
  exact (Nat.shiftLeft_add_eq_or_of_lt hb _).symm

theorem or_high (a b k : Nat) (ha : a < 2 ^ k) (h : b % 2 ^ k = 0) : a ||| b = a + b := by
  rw [Nat.or_comm, or_low b a k h ha, Nat.add_comm]

theorem bits_nat (n k w : Nat) : bits (n : Int) k w = n / 2 ^ k % 2 ^ w := by
  unfold bits
  have : ((n : Int) >>> k) = ((n >>> k : Nat) : Int) := rfl
  rw [this, Nat.shiftRight_eq_div_pow]
  norm_cast

theorem shr_nat (n k : Nat) : ((n : Int) >>> k) = ((n / 2 ^ k : Nat) : Int) := by
  have : ((n : Int) >>> k) = ((n >>> k : Nat) : Int) := rfl
  rw [this, Nat.shiftRight_eq_div_pow]

theorem field_at {v k w : Nat} (b hi lo : Nat) (h : v = hi * 2 ^ (k + w) + b * 2 ^ k + lo) (hb : b < 2 ^ w) (hl : lo < 2 ^ k) :
    v / 2 ^ k % 2 ^ w = b := by
  rw [h, show hi * 2 ^ (k + w) + b * 2 ^ k + lo = lo + 2 ^ k * (hi * 2 ^ w + b) by
      rw [Nat.pow_add, Nat.mul_add, Nat.mul_left_comm, Nat.mul_comm b, Nat.add_comm],
    Nat.add_mul_div_left _ _ (Nat.two_pow_pos k), Nat.div_eq_of_lt hl, Nat.zero_add, Nat.mul_comm, Nat.mul_add_mod, Nat.mod_eq_of_lt hb]

theorem leBytes_leValue : ∀ (d : Bytes), leBytes d.length (leValue d) = d
  | [] => rfl
  | b :: d => by
    have hb := b.toNat_lt
    simp only [List.length_cons, leBytes, leValue]
    rw [show (b.toNat + 256 * leValue d) % 256 = b.toNat by omega, show (b.toNat + 256 * leValue d) / 256 = leValue d by omega,
      leBytes_leValue d, UInt8.ofNat_toNat]

theorem leBytes_of {d : Bytes} {n : Nat} (h : d.length = n) : leBytes n (leValue d) = d := by
  subst h; exact leBytes_leValue d

theorem leBytes_mod : ∀ (n v : Nat), leBytes n (v % 256 ^ n) = leBytes n v
  | 0, _ => rfl
  | n + 1, v => by
    simp only [leBytes]
    rw [Nat.pow_succ, Nat.mod_mul_left_mod, Nat.mod_mul_left_div_self, leBytes_mod n]

theorem leValue_lt : ∀ (d : Bytes), leValue d < 256 ^ d.length
  | [] => by simp [leValue]
  | b :: d => by
    have hb := b.toNat_lt
    have := leValue_lt d
    simp only [leValue, List.length_cons, Nat.pow_succ]
    omega

theorem leValue_append : ∀ (a b : Bytes), leValue (a ++ b) = leValue a + 256 ^ a.length * leValue b
  | [], b => by simp [leValue]
  | x :: a, b => by
    simp only [List.cons_append, leValue, leValue_append a b, List.length_cons, Nat.pow_succ, Nat.mul_add]
    rw [Nat.mul_comm (256 ^ a.length) 256, Nat.mul_assoc, Nat.add_assoc]

theorem byteswap22_of (u l : Nat) (hl : l < 65536) (d e : Bytes) (hd : d.length = 2) (he : e.length = 2)
    (h1 : u = leValue d) (h2 : l = leValue e) : byteswap22 (u * 65536 + l) = d ++ e := by
  unfold byteswap22
  rw [Nat.shiftRight_eq_div_pow, show (u * 65536 + l) / 2 ^ 16 = u by omega, ← leBytes_mod 2 (u * 65536 + l),
    show (u * 65536 + l) % 256 ^ 2 = l by omega, h1, h2, leBytes_of hd, leBytes_of he]

theorem mask_f800 {x v : Nat} (hx : x < 65536) (h : x &&& 0xf800 = v * 2048) : x / 2048 = v := by
  have := congrArg (· >>> 11) h
  simp only [show 0xf800 = 0x1f <<< 11 by rfl, and_shift] at this
  rw [show 0x1f = 2 ^ 5 - 1 by rfl, shr_and, Nat.shiftRight_eq_div_pow] at this
  omega

set_option maxRecDepth 4000 in
theorem packBl_unpackBl (d e : Bytes) (hd : d.length = 2) (he : e.length = 2)
    (h1 : leValue d &&& 0xf800 = 0xf000) (h2 : leValue e &&& 0xd000 = 0xd000) :
    packBl (unpackBl (leValue d) (leValue e)) = .ok (d ++ e) := by
  have hu := leValue_lt d
  have hl := leValue_lt e
  rw [hd] at hu
  rw [he] at hl
  generalize hU : leValue d = u at *
  generalize hL : leValue e = l at *
  have h1 := mask_f800 (v := 30) hu h1
  have h2 : l / 4096 = 13 ∨ l / 4096 = 15 := by
    have := and_shift l 0xd 12
    rw [show 0xd <<< 12 = 0xd000 from rfl, h2] at this
    have hlt : l / 2 ^ 12 < 16 := by omega
    have key : ∀ n, n < 16 → n &&& 13 = 13 → n = 13 ∨ n = 15 := by decide
    rw [Nat.shiftRight_eq_div_pow l] at this
    exact key _ hlt this.symm
  simp only [unpackBl]
  rw [show 0x400 = 1 <<< 10 by rfl, show 0x2000 = 1 <<< 13 by rfl, show 0x800 = 1 <<< 11 by rfl, and_shift, and_shift, and_shift,
    show u >>> 10 &&& 1 = u / 1024 % 2 from shr_and u 10 1, show l >>> 13 &&& 1 = l / 8192 % 2 from shr_and l 13 1,
    show l >>> 11 &&& 1 = l / 2048 % 2 from shr_and l 11 1, show u &&& 0x3ff = u % 1024 from Nat.and_two_pow_sub_one_eq_mod u 10,
    show l &&& 0x7ff = l % 2048 from Nat.and_two_pow_sub_one_eq_mod l 11]
  generalize hs : u / 1024 % 2 = s
  generalize hj1 : l / 8192 % 2 = j1
  generalize hj2 : l / 2048 % 2 = j2
  generalize hi10 : u % 1024 = i10
  generalize hi11 : l % 2048 = i11
  have hs2 : s = 0 ∨ s = 1 := by omega
  have hj1' : j1 = 0 ∨ j1 = 1 := by omega
  have hj2' : j2 = 0 ∨ j2 = 1 := by omega
  generalize hi1 : 1 - (j1 ^^^ s) = i1
  generalize hi2 : 1 - (j2 ^^^ s) = i2
  have e1 : 1 - (i1 ^^^ s) = j1 ∧ i1 < 2 := by
    rcases hs2 with rfl | rfl <;> rcases hj1' with rfl | rfl <;> subst hi1 <;> decide
  have e2 : 1 - (i2 ^^^ s) = j2 ∧ i2 < 2 := by
    rcases hs2 with rfl | rfl <;> rcases hj2' with rfl | rfl <;> subst hi2 <;> decide
  simp only [Nat.shiftLeft_eq]
  rw [or_low (s * _) _ 23 (by omega) (by omega), or_low _ (i2 * _) 22 (by omega) (by omega), or_low _ (i10 * _) 21 (by omega) (by omega),
    or_low _ i11 11 (by omega) (by omega)]
  generalize hv : s * 2 ^ 23 + i1 * 2 ^ 22 + i2 * 2 ^ 21 + i10 * 2 ^ 11 + i11 = v
  have hnorm : (if (if s = 1 then (v : Int) - 2 ^ 24 else (v : Int)) < 0 then (if s = 1 then (v : Int) - 2 ^ 24 else (v : Int)) + 2 ^ 24
      else (if s = 1 then (v : Int) - 2 ^ 24 else (v : Int))) = (v : Int) := by
    split <;> split <;> omega
  simp only [packBl, hnorm, shr_nat, bits_nat]
  clear hnorm
  rw [if_neg (by omega), Int.toNat_natCast, show v / 2 ^ 23 = s by omega, show v / 2 ^ 22 % 2 ^ 1 = i1 by omega,
    show v / 2 ^ 21 % 2 ^ 1 = i2 from field_at i2 (s * 2 + i1) (i10 * 2 ^ 11 + i11) (by omega) (by omega) (by omega),
    show v / 2 ^ 11 % 2 ^ 10 = i10 from field_at i10 (s * 4 + i1 * 2 + i2) i11 (by omega) (by omega) (by omega), show v / 2 ^ 0 % 2 ^ 11 = i11 by omega, e1.1, e2.1]
  simp only [Nat.shiftLeft_eq]
  rw [or_low _ (s * _) 27 (by omega) (by omega), or_low _ (i10 * _) 26 (by omega) (by omega), or_low _ (3 * _) 16 (by omega) (by omega),
    or_low _ (j1 * _) 14 (by omega) (by omega), or_low _ (1 * _) 13 (by omega) (by omega), or_low _ (j2 * _) 12 (by omega) (by omega),
    or_low _ i11 11 (by omega) (by omega)]
  rw [← byteswap22_of u l hl d e hd he hU.symm hL.symm]
  refine congrArg (fun x => Except.ok (byteswap22 x)) ?_
  clear hv
  omega

set_option maxRecDepth 4000 in
theorem packBw_unpackBw (d e : Bytes) (hd : d.length = 2) (he : e.length = 2)
    (h1 : leValue d &&& 0xf800 = 0xf000) (h2 : leValue e &&& 0xc000 = 0x8000) :
    packBw (unpackBw (leValue d) (leValue e)) = .ok (d ++ e) := by
  have hu := leValue_lt d
  have hl := leValue_lt e
  rw [hd] at hu
  rw [he] at hl
  generalize hU : leValue d = u at *
  generalize hL : leValue e = l at *
  have h1 := mask_f800 (v := 30) hu h1
  have h2 : l / 16384 = 2 := by
    have := congrArg (· >>> 14) h2
    simp only [show 0xc000 = 0x3 <<< 14 by rfl, and_shift] at this
    rw [show 0x3 = 2 ^ 2 - 1 by rfl, shr_and, Nat.shiftRight_eq_div_pow] at this
    omega
  simp only [unpackBw]
  rw [show 0x400 = 1 <<< 10 by rfl, show 0x3c0 = 0xf <<< 6 by rfl, show 0x2000 = 1 <<< 13 by rfl, show 0x1000 = 1 <<< 12 by rfl,
    show 0x800 = 1 <<< 11 by rfl, and_shift, and_shift, and_shift, and_shift, and_shift,
    show u >>> 10 &&& 1 = u / 1024 % 2 from shr_and u 10 1, show u >>> 6 &&& 0xf = u / 64 % 16 from shr_and u 6 4,
    show l >>> 13 &&& 1 = l / 8192 % 2 from shr_and l 13 1, show l >>> 12 &&& 1 = l / 4096 % 2 from shr_and l 12 1,
    show l >>> 11 &&& 1 = l / 2048 % 2 from shr_and l 11 1, show u &&& 0x3f = u % 64 from Nat.and_two_pow_sub_one_eq_mod u 6,
    show l &&& 0x7ff = l % 2048 from Nat.and_two_pow_sub_one_eq_mod l 11]
  generalize hs : u / 1024 % 2 = s
  generalize hc : u / 64 % 16 = c
  generalize hi6 : u % 64 = i6
  generalize hj1 : l / 8192 % 2 = j1
  generalize ht : l / 4096 % 2 = t
  generalize hj2 : l / 2048 % 2 = j2
  generalize hi11 : l % 2048 = i11
  simp only [Nat.shiftLeft_eq]
  rw [or_low (s * _) _ 24 (by omega) (by omega), or_low _ (j1 * _) 23 (by omega) (by omega), or_low _ (i6 * _) 22 (by omega) (by omega),
    or_low _ (i11 * _) 16 (by omega) (by omega), or_low _ (c * _) 5 (by omega) (by omega), or_low _ t 1 (by omega) (by omega)]
  generalize hv : s * 2 ^ 24 + j2 * 2 ^ 23 + j1 * 2 ^ 22 + i6 * 2 ^ 16 + i11 * 2 ^ 5 + c * 2 ^ 1 + t = v
  have hnorm : (if (if s = 1 then (v : Int) - 2 ^ 25 else (v : Int)) < 0 then (if s = 1 then (v : Int) - 2 ^ 25 else (v : Int)) + 2 ^ 25
      else (if s = 1 then (v : Int) - 2 ^ 25 else (v : Int))) = (v : Int) := by
    split <;> split <;> omega
  simp only [packBw, hnorm, shr_nat, bits_nat]
  clear hnorm
  simp only [Nat.div_div_eq_div_mul, ← Nat.pow_add, Nat.reduceAdd]
  rw [if_neg (by omega), Int.toNat_natCast, show v / 2 ^ 24 = s by omega,
    show v / 2 ^ 23 % 2 ^ 1 = j2 from field_at j2 s (j1 * 2 ^ 22 + i6 * 2 ^ 16 + i11 * 2 ^ 5 + c * 2 ^ 1 + t) (by omega) (by omega) (by omega),
    show v / 2 ^ 22 % 2 ^ 1 = j1 from field_at j1 (s * 2 + j2) (i6 * 2 ^ 16 + i11 * 2 ^ 5 + c * 2 ^ 1 + t) (by omega) (by omega) (by omega),
    show v / 2 ^ 16 % 2 ^ 6 = i6 from field_at i6 (s * 4 + j2 * 2 + j1) (i11 * 2 ^ 5 + c * 2 ^ 1 + t) (by omega) (by omega) (by omega),
    show v / 2 ^ 5 % 2 ^ 11 = i11 from field_at i11 (s * 2 ^ 8 + j2 * 2 ^ 7 + j1 * 2 ^ 6 + i6) (c * 2 ^ 1 + t) (by omega) (by omega) (by omega),
    show v / 2 ^ 1 % 2 ^ 4 = c from field_at c (s * 2 ^ 19 + j2 * 2 ^ 18 + j1 * 2 ^ 17 + i6 * 2 ^ 11 + i11) t (by omega) (by omega) (by omega),
    show v / 2 ^ 0 % 2 ^ 1 = t by omega]
  simp only [Nat.shiftLeft_eq]
  rw [or_low _ (s * _) 27 (by omega) (by omega), or_low _ (c * _) 26 (by omega) (by omega), or_low _ (i6 * _) 22 (by omega) (by omega),
    or_low _ (2 * _) 16 (by omega) (by omega), or_low _ (j1 * _) 14 (by omega) (by omega), or_low _ (t * _) 13 (by omega) (by omega),
    or_low _ (j2 * _) 12 (by omega) (by omega), or_low _ i11 11 (by omega) (by omega)]
  rw [← byteswap22_of u l hl d e hd he hU.symm hL.symm]
  refine congrArg (fun x => Except.ok (byteswap22 x)) ?_
  clear hv
  omega

theorem packAdd_unpackAdd (d : Bytes) (hd : d.length = 4) (h1 : leValue d &&& 0xff000000 = 0x91000000)
    (h2 : (leValue d >>> 5) &&& 0x1f = leValue d &&& 0x1f) : packAdd (unpackAdd (leValue d)) = .ok d := by
  have hx := leValue_lt d
  rw [hd] at hx
  have hL := leBytes_of hd
  generalize leValue d = x at *
  have h1 : x / 2 ^ 24 = 0x91 := by
    have := congrArg (· >>> 24) h1
    simp only [show 0xff000000 = 0xff <<< 24 by rfl, and_shift] at this
    rw [show 0xff = 2 ^ 8 - 1 by rfl, shr_and, Nat.shiftRight_eq_div_pow] at this
    omega
  rw [show x >>> 5 &&& 0x1f = x / 32 % 32 from shr_and x 5 5, show x &&& 0x1f = x % 32 from Nat.and_two_pow_sub_one_eq_mod x 5] at h2
  have hx' : x = 0x91 * 2 ^ 24 + (x / 2 ^ 22 % 4) * 2 ^ 22 + (x / 1024 % 4096) * 1024 + (x / 32 % 32) * 32 + x % 32 := by
    have a1 := Nat.div_add_mod x 32
    have a2 := Nat.div_add_mod (x / 32) 32
    have a3 := Nat.div_add_mod (x / 1024) 4096
    have a4 := Nat.div_add_mod (x / 2 ^ 22) 4
    rw [Nat.div_div_eq_div_mul] at a2 a3 a4
    simp only [Nat.reduceMul, Nat.reducePow] at *
    omega
  clear hx
  simp only [unpackAdd]
  rw [show x >>> 5 &&& 0x1f = x / 32 % 32 from shr_and x 5 5, show x >>> 22 &&& 0x3 = x / 2 ^ 22 % 4 from shr_and x 22 2,
    show x >>> 10 &&& 0xfff = x / 1024 % 4096 from shr_and x 10 12]
  generalize hr : x / 32 % 32 = r at *
  generalize hs : x / 2 ^ 22 % 4 = s
  generalize hi : x / 1024 % 4096 = i
  simp only [Nat.shiftLeft_eq]
  rw [or_high i _ 12 (by omega) (by omega), or_high _ (r * _) 14 (by omega) (by omega)]
  generalize hv : i + s * 2 ^ 12 + r * 2 ^ 14 = v
  simp only [packAdd, bits_nat]
  rw [show v / 2 ^ 0 % 2 ^ 12 = i by omega, show v / 2 ^ 12 % 2 ^ 2 = s from field_at s r i (by omega) (by omega) (by omega),
    show v / 2 ^ 14 % 2 ^ 5 = r from field_at r 0 (i + s * 2 ^ 12) (by omega) (by omega) (by omega)]
  simp only [Nat.shiftLeft_eq]
  rw [or_low _ (s * _) 24 (by omega) (by omega), or_low _ (i * _) 22 (by omega) (by omega), or_low _ (r * _) 10 (by omega) (by omega),
    or_low _ r 5 (by omega) (by omega)]
  rw [← hL]
  refine congrArg (fun x => Except.ok (leBytes 4 x)) ?_
  simp only [hr, hs, hi] at hx'
  rw [hx']
  omega

theorem packAdrp_unpackAdrp (d : Bytes) (hd : d.length = 4) (h1 : leValue d &&& 0x9f000000 = 0x90000000) :
    packAdrp (unpackAdrp (leValue d)) = .ok d := by
  have hx := leValue_lt d
  rw [hd] at hx
  have hL := leBytes_of hd
  generalize leValue d = x at *
  have h1 : x / 2 ^ 31 = 1 ∧ x / 2 ^ 24 % 32 = 16 := by
    have := and_shift x 0x9f 24
    rw [show 0x9f <<< 24 = 0x9f000000 from rfl, h1] at this
    have hlt : x / 2 ^ 24 < 256 := by omega
    have key : ∀ n : Fin 256, n.val &&& 0x9f = 0x90 → n.val / 128 = 1 ∧ n.val % 32 = 16 := by decide +kernel
    rw [Nat.shiftRight_eq_div_pow x] at this
    have := key ⟨x / 2 ^ 24, hlt⟩ this.symm
    simp only at this
    omega
  have hx' : x = 2 ^ 31 + (x / 2 ^ 29 % 4) * 2 ^ 29 + 16 * 2 ^ 24 + (x / 32 % 2 ^ 19) * 32 + x % 32 := by
    have a1 := Nat.div_add_mod x 32
    have a2 := Nat.div_add_mod (x / 32) (2 ^ 19)
    have a3 := Nat.div_add_mod (x / 2 ^ 24) 32
    have a4 := Nat.div_add_mod (x / 2 ^ 29) 4
    rw [Nat.div_div_eq_div_mul] at a2 a3 a4
    simp only [Nat.reduceMul, Nat.reducePow] at *
    omega
  clear hx
  simp only [unpackAdrp]
  rw [show x >>> 5 &&& 0x7ffff = x / 32 % 2 ^ 19 from shr_and x 5 19, show x >>> 29 &&& 0x3 = x / 2 ^ 29 % 4 from shr_and x 29 2,
    show x &&& 0x1f = x % 32 from Nat.and_two_pow_sub_one_eq_mod x 5]
  generalize hr : x % 32 = r at *
  generalize hs : x / 2 ^ 29 % 4 = s
  generalize hi : x / 32 % 2 ^ 19 = i
  simp only [Nat.shiftLeft_eq]
  rw [or_high s _ 2 (by omega) (by omega), or_high _ (r * _) 21 (by omega) (by omega)]
  generalize hv : s + i * 2 ^ 2 + r * 2 ^ 21 = v
  simp only [packAdrp, bits_nat]
  rw [show v / 2 ^ 0 % 2 ^ 2 = s by omega, show v / 2 ^ 2 % 2 ^ 19 = i from field_at i r s (by omega) (by omega) (by omega),
    show v / 2 ^ 21 % 2 ^ 5 = r from field_at r 0 (s + i * 2 ^ 2) (by omega) (by omega) (by omega)]
  simp only [Nat.shiftLeft_eq]
  rw [or_low _ (s * _) 31 (by omega) (by omega), or_low _ (16 * _) 29 (by omega) (by omega), or_low _ (i * _) 24 (by omega) (by omega),
    or_low _ r 5 (by omega) (by omega)]
  rw [← hL]
  refine congrArg (fun x => Except.ok (leBytes 4 x)) ?_
  simp only [hr, hs, hi] at hx'
  rw [hx']

theorem packS32_signed32 (d : Bytes) (hd : d.length = 4) : packS32 (signed32 (leValue d)) = .ok d := by
  have hx := leValue_lt d
  rw [hd] at hx
  have hL := leBytes_of hd
  generalize leValue d = x at *
  have hv : signed32 x = if x < 2 ^ 31 then (x : Int) else (x : Int) - 2 ^ 32 := rfl
  generalize signed32 x = v at hv
  simp only [packS32]
  rw [if_neg (by split at hv <;> omega), ← hL]
  refine congrArg (fun y => Except.ok (leBytes 4 y)) ?_
  split at hv <;> split <;> omega

theorem packS32_nat (d : Bytes) (hd : d.length = 4) (h : leValue d < 2 ^ 31) : packS32 (leValue d) = .ok d := by
  have := packS32_signed32 d hd
  rwa [signed32, if_pos h] at this

theorem packU64_nat (d : Bytes) (hd : d.length = 8) : packU64 (leValue d) = .ok d := by
  have hx := leValue_lt d
  rw [hd] at hx
  have hL := leBytes_of hd
  simp only [packU64]
  rw [if_neg (by omega), Int.toNat_natCast, hL]

theorem packU24_nat (d : Bytes) (hd : d.length = 3) : packU24 (leValue d) = .ok d := by
  have hx := leValue_lt d
  rw [hd] at hx
  have h4 : leValue (d ++ [0]) = leValue d := by rw [leValue_append]; simp [leValue]
  have := packS32_nat (d ++ [0]) (by simp [hd]) (by rw [h4]; omega)
  rw [h4] at this
  simp only [packU24, this, Except.map]
  rw [← hd, List.take_left]

end Detools
