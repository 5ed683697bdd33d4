import Verif.Proofs.DssSub
/-
divsufsort: the ranks of the B* substrings.
-/
namespace Detools
namespace Dss
open Sais

/-- Numbers `r` in order, in groups: `hd` tells where one starts, and `E` is where it ends. -/
structure Grouped (m : Nat) (r : Nat → Nat) (hd : Nat → Bool) (E : Nat → Nat) : Prop where
  lt : ∀ q, q < m → r q < m
  inj : ∀ p q, p < m → q < m → r p = r q → p = q
  first : hd 0 = true
  in' : ∀ q, q + 1 < m → hd (q + 1) = false → E q = E (q + 1)
  end' : ∀ q, q < m → (q + 1 = m ∨ hd (q + 1) = true) → E q = q

variable {m N : Nat} {r : Nat → Nat} {hd : Nat → Bool} {E : Nat → Nat}

theorem Grouped.ge (h : Grouped m r hd E) : ∀ (d q : Nat), m - q ≤ d → q < m → q ≤ E q ∧ E q < m
  | 0, q, h1, h2 => by omega
  | d + 1, q, h1, h2 => by
    by_cases hc : q + 1 = m ∨ hd (q + 1) = true
    · rw [h.end' q h2 hc]; omega
    · have hc1 : q + 1 ≠ m := fun e => hc (.inl e)
      have hc2 : hd (q + 1) = false := by
        cases hx : hd (q + 1)
        · rfl
        · exact absurd (.inr hx) hc
      rw [h.in' q (by omega) hc2]
      have := h.ge d (q + 1) (by omega) (by omega)
      omega

theorem Grouped.before (h : Grouped m r hd E) {e : Nat} (he : e ≤ m) (hh : e = m ∨ hd e = true) : ∀ (d q : Nat), e - q ≤ d → q < e → E q < e
  | 0, q, h1, h2 => by omega
  | d + 1, q, h1, h2 => by
    by_cases hc : q + 1 = m ∨ hd (q + 1) = true
    · rw [h.end' q (by omega) hc]; exact h2
    · have hc1 : q + 1 ≠ m := fun e => hc (.inl e)
      have hc2 : hd (q + 1) = false := by
        cases hx : hd (q + 1)
        · rfl
        · exact absurd (.inr hx) hc
      have hne : q + 1 ≠ e := by
        rintro rfl
        exact hc hh
      rw [h.in' q (by omega) hc2]
      exact h.before he hh d (q + 1) (by omega) (by omega)

/-- The suffix array that trsort is given, from an index on. -/
inductive Gr (m : Nat) (r : Nat → Nat) (hd : Nat → Bool) (E : Nat → Nat) (sa : List Int) : Nat → Prop where
  | done : Gr m r hd E sa m
  | sorted (q n : Nat) : 0 < n → q + n ≤ m → sa[q]? = some (-(n : Int)) → (∀ p, q ≤ p → p < q + n → hd p = true ∧ E p = p) →
      Gr m r hd E sa (q + n) → Gr m r hd E sa q
  | group (q e : Nat) : q < e → e < m → hd q = true → (∀ p, q ≤ p → p ≤ e → sa[p]? = some (r p : Int) ∧ E p = e) →
      Gr m r hd E sa (e + 1) → Gr m r hd E sa q

theorem Gr.frame {sa sa' : List Int} {q : Nat} (h : Gr m r hd E sa q) : (∀ p, q ≤ p → p < m → sa'[p]? = sa[p]?) → Gr m r hd E sa' q := by
  induction h with
  | done => exact fun _ => .done
  | sorted q n h1 h2 h3 h4 _ ih =>
    intro hf
    exact .sorted q n h1 h2 (by rw [hf q (by omega) (by omega)]; exact h3) h4 (ih fun p k1 k2 => hf p (by omega) k2)
  | group q e h1 h2 h3 h4 _ ih =>
    intro hf
    exact .group q e h1 h2 h3 (fun p k1 k2 => by rw [hf p k1 (by omega)]; exact h4 p k1 k2) (ih fun p k1 k2 => hf p (by omega) k2)

/-- An element before the loop. -/
def code (r : Nat → Nat) (hd : Nat → Bool) (q : Nat) : Int := if hd q = true then (r q : Int) else inv (r q)

/-- The loop has dealt with the elements from `n` on. -/
structure RInv (m N : Nat) (r : Nat → Nat) (hd : Nat → Bool) (E : Nat → Nat) (n : Nat) (sa : List Int) : Prop where
  len : sa.length = N
  low : ∀ q, q < n → sa[q]? = some (code r hd q)
  isa : ∀ q, n ≤ q → q < m → sa[m + r q]? = some (E q : Int)

theorem RInv.write {n : Nat} {sa : List Int} (g : Grouped m r hd E) (hN : 2 * m ≤ N) (hS : N < 2 ^ 31) (h : RInv m N r hd E (n + 1) sa) (hn : n < m) {e : Nat}
    (he : E n = e) : ∃ sa', st sa (m + r n) e = .ok sa' ∧ RInv m N r hd E n sa' ∧ ∀ q, q < m → sa'[q]? = sa[q]? := by
  have hr := g.lt n hn
  have hE := g.ge _ n (Nat.le_refl _) hn
  have hl := h.len
  refine ⟨_, st_ok (by omega) (by omega), ⟨by rw [List.length_set]; exact h.len, fun q hq => ?_, fun q h1 h2 => ?_⟩, fun q hq => ?_⟩
  · rw [List.getElem?_set_ne (by omega)]
    exact h.low q (by omega)
  · by_cases hqn : q = n
    · subst hqn
      rw [List.getElem?_set_self (by omega), he]
    · have : r q ≠ r n := fun e => hqn (g.inj q n h2 hn e)
      rw [List.getElem?_set_ne (by omega)]
      exact h.isa q (by omega) h2
  · rw [List.getElem?_set_ne (by omega)]

theorem rankSingles_ok (g : Grouped m r hd E) (hN : 2 * m ≤ N) (hS : N < 2 ^ 31) : ∀ (n : Nat) (sa : List Int), n ≤ m → RInv m N r hd E n sa →
    (n = m ∨ hd n = true) → ∃ n' sa', rankSingles m n sa = .ok (n', sa') ∧ n' ≤ n ∧ RInv m N r hd E n' sa' ∧
      (∀ q, n' ≤ q → q < n → hd q = true ∧ E q = q) ∧ (n' = 0 ∨ hd (n' - 1) = false) ∧ ∀ q, q < m → sa'[q]? = sa[q]?
  | 0, sa, _, h, _ => ⟨0, sa, rfl, Nat.le_refl _, h, fun q h1 h2 => by omega, .inl rfl, fun _ _ => rfl⟩
  | n + 1, sa, hn, h, hb => by
    have hv := h.low n (by omega)
    unfold rankSingles
    rw [rd_ok hv]
    simp only [Bind.bind, Except.bind]
    by_cases hh : hd n = true
    · have hc : code r hd n = (r n : Int) := if_pos hh
      have hE := g.end' n (by omega) hb
      obtain ⟨sa1, h1, h2, h3⟩ := h.write g hN hS (by omega) hE
      obtain ⟨n', sa', h4, h5, h6, h7, h8, h9⟩ := rankSingles_ok g hN hS n sa1 (by omega) h2 (.inr hh)
      rw [hc, if_pos (by omega), Int.toNat_natCast, h1]
      simp only []
      refine ⟨n', sa', h4, by omega, h6, fun q k1 k2 => ?_, h8, fun q hq => by rw [h9 q hq, h3 q hq]⟩
      by_cases he : q = n
      · subst he; exact ⟨hh, hE⟩
      · exact h7 q k1 (by omega)
    · have hc : code r hd n = inv (r n) := if_neg hh
      have hneg : ¬ 0 ≤ code r hd n := by rw [hc]; unfold inv; omega
      rw [if_neg hneg]
      refine ⟨n + 1, sa, rfl, Nat.le_refl _, h, fun q k1 k2 => by omega, .inr ?_, fun _ _ => rfl⟩
      rw [Nat.add_sub_cancel]
      cases hx : hd n
      · rfl
      · exact absurd hx hh

theorem rankGroup_ok (g : Grouped m r hd E) (hN : 2 * m ≤ N) (hS : N < 2 ^ 31) {j : Nat} : ∀ (n : Nat) (sa : List Int), 0 < n → n ≤ m →
    RInv m N r hd E n sa → E (n - 1) = j → ∃ n' sa', rankGroup m j n sa = .ok (n', sa') ∧ n' < n ∧ hd n' = true ∧ RInv m N r hd E n' sa' ∧
      (∀ q, n' ≤ q → q < n → sa'[q]? = some (r q : Int) ∧ E q = j) ∧ ∀ q, n ≤ q → q < m → sa'[q]? = sa[q]?
  | 0, _, h, _, _, _ => by omega
  | n + 1, sa, _, hn, h, hE => by
    rw [Nat.add_sub_cancel] at hE
    have hv := h.low n (by omega)
    have hr := g.lt n hn
    have hl := h.len
    unfold rankGroup
    rw [rd_ok hv]
    simp only [Bind.bind, Except.bind]
    by_cases hh : hd n = true
    · have hc : code r hd n = (r n : Int) := if_pos hh
      obtain ⟨sa1, h1, h2, h3⟩ := h.write g hN hS (by omega) hE
      rw [hc, if_neg (by omega), Int.toNat_natCast, h1]
      simp only []
      refine ⟨n, sa1, rfl, by omega, hh, h2, fun q k1 k2 => ?_, fun q k1 k2 => h3 q k2⟩
      have : q = n := by omega
      subst this
      rw [h3 q (by omega), hv, hc]
      exact ⟨rfl, hE⟩
    · have hx : hd n = false := by
        cases hx : hd n
        · rfl
        · exact absurd hx hh
      have hc : code r hd n = inv (r n) := if_neg hh
      have hn0 : 0 < n := by
        rcases Nat.eq_zero_or_pos n with e | e
        · subst e; exact absurd g.first hh
        · exact e
      have hi : inv (code r hd n) = (r n : Int) := by rw [hc]; unfold inv; omega
      have hneg : code r hd n < 0 := by rw [hc]; unfold inv; omega
      rw [if_pos hneg, hi, st_ok (by omega) (by omega), idx_nat]
      simp only []
      have hE' := g.ge _ n (Nat.le_refl _) hn
      have hw : RInv m N r hd E n ((sa.set n (r n : Int)).set (m + r n) (j : Int)) := by
        refine ⟨by rw [List.length_set, List.length_set]; exact hl, fun q hq => ?_, fun q k1 k2 => ?_⟩
        · rw [List.getElem?_set_ne (by omega), List.getElem?_set_ne (by omega)]
          exact h.low q (by omega)
        · by_cases hqn : q = n
          · subst hqn
            rw [List.getElem?_set_self (by rw [List.length_set]; omega), hE]
          · have : r q ≠ r n := fun e => hqn (g.inj q n k2 hn e)
            rw [List.getElem?_set_ne (by omega), List.getElem?_set_ne (by omega)]
            exact h.isa q (by omega) k2
      rw [st_ok (by omega) (by rw [List.length_set]; omega)]
      simp only []
      obtain ⟨n', sa', h4, h5, h6, h7, h8, h9⟩ := rankGroup_ok g hN hS n _ hn0 (by omega) hw (by
        rw [g.in' (n - 1) (by omega) (by rw [show n - 1 + 1 = n by omega]; exact hx), show n - 1 + 1 = n by omega, hE])
      refine ⟨n', sa', h4, by omega, h6, h7, fun q k1 k2 => ?_, fun q k1 k2 => ?_⟩
      · by_cases he : q = n
        · subst he
          rw [h9 q (by omega) (by omega), List.getElem?_set_ne (by omega), List.getElem?_set_self (by omega)]
          exact ⟨rfl, hE⟩
        · exact h8 q k1 (by omega)
      · rw [h9 q (by omega) k2, List.getElem?_set_ne (by omega), List.getElem?_set_ne (by omega)]

/-- A group, after which the loop goes on. -/
theorem group_step (g : Grouped m r hd E) (hN : 2 * m ≤ N) (hS : N < 2 ^ 31) {n : Nat} {sa : List Int} (h0 : 0 < n) (hn : n ≤ m)
    (h : RInv m N r hd E n sa) (hb : n = m ∨ hd n = true) (hlast : hd (n - 1) = false) (hg : Gr m r hd E sa n) :
    ∃ n' sa', rankGroup m (n - 1) n sa = .ok (n', sa') ∧ n' < n ∧ hd n' = true ∧ RInv m N r hd E n' sa' ∧ Gr m r hd E sa' n' := by
  have hE := g.end' (n - 1) (by omega) (by rw [show n - 1 + 1 = n by omega]; exact hb)
  obtain ⟨n', sa', h1, h2, h3, h4, h5, h6⟩ := rankGroup_ok g hN hS (j := n - 1) n sa h0 hn h hE
  have hne : n' ≠ n - 1 := fun e => by rw [e, hlast] at h3; cases h3
  refine ⟨n', sa', h1, h2, h3, h4, .group n' (n - 1) (by omega) (by omega) h3 (fun p k1 k2 => h5 p k1 (by omega)) ?_⟩
  rw [show n - 1 + 1 = n by omega]
  exact hg.frame h6

theorem rankLoop_ok (g : Grouped m r hd E) (hN : 2 * m ≤ N) (hS : N < 2 ^ 31) : ∀ (fuel n : Nat) (sa : List Int), n ≤ fuel → n ≤ m →
    RInv m N r hd E n sa → (n = m ∨ hd n = true) → Gr m r hd E sa n → ∃ sa', rankLoop m fuel n sa = .ok sa' ∧ RInv m N r hd E 0 sa' ∧ Gr m r hd E sa' 0
  | 0, 0, sa, _, _, h, _, hg => ⟨sa, rfl, h, hg⟩
  | _ + 1, 0, sa, _, _, h, _, hg => ⟨sa, rfl, h, hg⟩
  | 0, n + 1, _, hf, _, _, _, _ => by omega
  | fuel + 1, n + 1, sa, hf, hn, h, hb, hg => by
    have hv := h.low n (by omega)
    have hl := h.len
    unfold rankLoop
    rw [rd_ok hv]
    simp only [Bind.bind, Except.bind]
    by_cases hh : hd n = true
    · have hc : code r hd n = (r n : Int) := if_pos hh
      obtain ⟨n1, sa1, h1, h2, h3, h4, h5, h6⟩ := rankSingles_ok g hN hS (n + 1) sa hn h hb
      have hn1 : n1 ≤ n := by
        by_cases hx : n1 = n + 1
        · subst hx
          rcases h5 with h5 | h5
          · omega
          · rw [Nat.add_sub_cancel, hh] at h5; cases h5
        · omega
      have hl1 := h3.len
      rw [hc, if_pos (by omega), h1]
      simp only []
      rw [st_ok (by omega) (by omega)]
      simp only []
      have h3' : RInv m N r hd E n1 (sa1.set n1 ((n1 : Int) - 1 - n)) := by
        refine ⟨by rw [List.length_set]; exact hl1, fun q hq => ?_, fun q k1 k2 => ?_⟩
        · rw [List.getElem?_set_ne (by omega)]
          exact h3.low q hq
        · rw [List.getElem?_set_ne (by omega)]
          exact h3.isa q k1 k2
      have hg' : Gr m r hd E (sa1.set n1 ((n1 : Int) - 1 - n)) n1 := by
        refine .sorted n1 (n + 1 - n1) (by omega) (by omega) ?_ (fun p k1 k2 => h4 p k1 (by omega)) ?_
        · rw [List.getElem?_set_self (by omega)]
          congr 1
          omega
        · rw [show n1 + (n + 1 - n1) = n + 1 by omega]
          exact hg.frame fun p k1 k2 => by rw [List.getElem?_set_ne (by omega), h6 p k2]
      rcases h5 with h5 | h5
      · subst h5
        exact ⟨_, if_pos (by omega), h3', hg'⟩
      · by_cases hle : n1 ≤ 1
        · exfalso
          rw [show n1 - 1 = 0 by omega, g.first] at h5
          cases h5
        · rw [if_neg hle]
          obtain ⟨n2, sa2, k1, k2, k3, k4, k5⟩ := group_step g hN hS (by omega) (by omega) h3' (.inr (h4 n1 (Nat.le_refl _) (by omega)).1) h5 hg'
          rw [k1]
          simp only []
          exact rankLoop_ok g hN hS fuel n2 sa2 (by omega) (by omega) k4 (.inr k3) k5
    · have hx : hd n = false := by
        cases hx : hd n
        · rfl
        · exact absurd hx hh
      have hc : code r hd n = inv (r n) := if_neg hh
      have hneg : ¬ 0 ≤ code r hd n := by rw [hc]; unfold inv; omega
      rw [if_neg hneg]
      obtain ⟨n2, sa2, k1, k2, k3, k4, k5⟩ := group_step g hN hS (n := n + 1) (by omega) hn h hb hx hg
      rw [Nat.add_sub_cancel] at k1
      rw [k1]
      simp only []
      exact rankLoop_ok g hN hS fuel n2 sa2 (by omega) (by omega) k4 (.inr k3) k5

end Dss
end Detools
