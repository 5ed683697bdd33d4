import Verif.Proofs.TrPivot
/-
trsort: the copies of `tr_copy` and `tr_partialcopy`.
-/
namespace Detools
namespace Dss

namespace Tr
open Sais

/-! ### Groups -/

/-- Each element, the newest first, has the value of the one before it if their keys are the
same, else its place. -/
def Grp (κ r p : Nat → Nat) : List Nat → Prop
  | [] => True
  | [s] => r s = p 0
  | s :: u :: l => r s = (if κ s = κ u then r u else p (l.length + 1)) ∧ Grp κ r p (u :: l)

theorem Grp.congr {κ r κ' r' p : Nat → Nat} : ∀ {l : List Nat}, Grp κ r p l → (∀ y, y ∈ l → κ' y = κ y ∧ r' y = r y) → Grp κ' r' p l
  | [], _, _ => trivial
  | [s], h, he => by
    show r' s = p 0
    rw [(he s (by simp)).2]
    exact h
  | s :: u :: l, h, he => by
    refine ⟨?_, h.2.congr fun y hy => he y (List.mem_cons_of_mem _ hy)⟩
    rw [(he s (by simp)).1, (he s (by simp)).2, (he u (by simp)).1, (he u (by simp)).2]
    exact h.1

theorem Grp.val {κ r p : Nat → Nat} : ∀ {l : List Nat}, Grp κ r p l → ∀ y, y ∈ l → ∃ i, i < l.length ∧ r y = p i
  | [], _, _, hy => by cases hy
  | [s], h, y, hy => by
    rw [List.mem_singleton.1 hy]
    exact ⟨0, by simp, h⟩
  | s :: u :: l, h, y, hy => by
    rcases List.mem_cons.1 hy with rfl | hy
    · by_cases hk : κ y = κ u
      · obtain ⟨i, h1, h2⟩ := h.2.val u (by simp)
        refine ⟨i, by simp at h1 ⊢; omega, ?_⟩
        rw [h.1, if_pos hk, h2]
      · exact ⟨l.length + 1, by simp, by rw [h.1, if_neg hk]⟩
    · obtain ⟨i, h1, h2⟩ := h.2.val y hy
      exact ⟨i, by simp at h1 ⊢; omega, h2⟩

/-- Elements have the same value if their keys are the same, and only then. -/
theorem Grp.iff {κ r p : Nat → Nat} {N : Nat} (hp : ∀ i j, i < N → j < N → p i = p j → i = j) : ∀ {l : List Nat}, l.length ≤ N → Grp κ r p l →
    ((l.Pairwise fun x y => κ y ≤ κ x) ∨ (l.Pairwise fun x y => κ x ≤ κ y)) → ∀ x y, x ∈ l → y ∈ l → (r x = r y ↔ κ x = κ y)
  | [], _, _, _, _, _, hx, _ => by cases hx
  | [s], _, _, _, x, y, hx, hy => by
    rw [List.mem_singleton.1 hx, List.mem_singleton.1 hy]
    simp
  | s :: u :: l, hN, h, hm, x, y, hx, hy => by
    have ih := Grp.iff hp (l := u :: l) (by simp at hN ⊢; omega) h.2 (by
      rcases hm with hm | hm
      · exact .inl (List.pairwise_cons.1 hm).2
      · exact .inr (List.pairwise_cons.1 hm).2)
    have hd : ∀ y, y ∈ u :: l → (r s = r y ↔ κ s = κ y) := by
      intro y hy
      by_cases hk : κ s = κ u
      · have h1 := h.1
        rw [if_pos hk] at h1
        rw [h1, hk]
        exact ih u y (by simp) hy
      · have h1 := h.1
        rw [if_neg hk] at h1
        obtain ⟨i, i1, i2⟩ := h.2.val y hy
        constructor
        · intro he
          rw [h1, i2] at he
          have := hp _ _ (by simp at hN; omega) (by simp at hN i1; omega) he
          simp at i1
          omega
        · intro he
          exfalso
          rcases hm with hm | hm
          · rw [List.pairwise_cons, List.pairwise_cons] at hm
            have := hm.1 u (by simp)
            rcases List.mem_cons.1 hy with rfl | hy
            · exact hk he
            · have := hm.2.1 y hy
              omega
          · rw [List.pairwise_cons, List.pairwise_cons] at hm
            have := hm.1 u (by simp)
            rcases List.mem_cons.1 hy with rfl | hy
            · exact hk he
            · have := hm.2.1 y hy
              omega
    rcases List.mem_cons.1 hx with rfl | hx' <;> rcases List.mem_cons.1 hy with rfl | hy'
    · simp
    · exact hd y hy'
    · have := hd x hx'
      constructor
      · intro h; exact (this.1 h.symm).symm
      · intro h; exact (this.2 h.symm).symm
    · exact ih x y hx' hy'

/-- Values that are the first place of each group. -/
theorem Grp.up {κ r : Nat → Nat} {a : Nat} : ∀ {l : List Nat}, Grp κ r (fun i => a + i) l → (l.Pairwise fun x y => r y ≤ r x)
  | [], _ => .nil
  | [s], _ => List.pairwise_singleton _ _
  | s :: u :: l, h => by
    have ih := h.2.up
    rw [List.pairwise_cons]
    refine ⟨fun y hy => ?_, ih⟩
    by_cases hk : κ s = κ u
    · have h1 := h.1
      rw [if_pos hk] at h1
      rw [h1]
      rcases List.mem_cons.1 hy with rfl | hy
      · exact Nat.le_refl _
      · exact (List.pairwise_cons.1 ih).1 y hy
    · have h1 := h.1
      rw [if_neg hk] at h1
      obtain ⟨i, i1, i2⟩ := h.2.val y hy
      simp at i1
      simp only [] at h1
      omega

/-- Values that are the last place of each group. -/
theorem Grp.blk {κ : Nat → Nat} {isa : List Nat} {e : Nat} : ∀ {l : List Nat}, l.length ≤ e → Grp κ (ch isa) (fun i => e - 1 - i) l → Blk isa (e - l.length) l
  | [], _, _ => fun i s h => by cases h
  | [s], he, h => by
    intro i s' hi
    cases i with
    | zero =>
      injection hi with hi
      subst hi
      have : ch isa s = e - 1 - 0 := h
      simp only [List.length_singleton] at he ⊢
      refine ⟨by omega, fun j _ hj => ?_⟩
      rw [show j = 0 by omega]
      exact ⟨s, rfl, rfl⟩
    | succ i => cases hi
  | s :: u :: l, he, h => by
    simp only [List.length_cons] at he
    have ih := Grp.blk (l := u :: l) (by simp; omega) h.2
    simp only [List.length_cons] at ih ⊢
    intro i s' hi
    cases i with
    | succ i =>
      obtain ⟨g1, g2⟩ := ih i s' hi
      refine ⟨by omega, fun j h1 h2 => ?_⟩
      cases j with
      | zero => omega
      | succ j => exact g2 j (by omega) (by omega)
    | zero =>
      injection hi with hi
      subst hi
      by_cases hk : κ s = κ u
      · have h1 := h.1
        rw [if_pos hk] at h1
        obtain ⟨g1, g2⟩ := ih 0 u rfl
        refine ⟨by omega, fun j _ h2 => ?_⟩
        cases j with
        | zero => exact ⟨s, rfl, rfl⟩
        | succ j =>
          obtain ⟨s', k1, k2⟩ := g2 j (by omega) (by omega)
          exact ⟨s', k1, by rw [k2, h1]⟩
      · have h1 := h.1
        rw [if_neg hk] at h1
        simp only [] at h1
        refine ⟨by omega, fun j _ h2 => ?_⟩
        rw [show j = 0 by omega]
        exact ⟨s, rfl, rfl⟩

theorem Blk.mono {isa : List Nat} {f : Nat} {X : List Nat} (B : Blk isa f X) : X.Pairwise fun x y => ch isa x ≤ ch isa y := by
  rw [List.pairwise_iff_getElem]
  intro i j hi hj hij
  obtain ⟨_, g2⟩ := B i _ (List.getElem?_eq_getElem hi)
  obtain ⟨k1, _⟩ := B j _ (List.getElem?_eq_getElem hj)
  by_cases h : f + j ≤ ch isa X[i]
  · obtain ⟨s', h1, h2⟩ := g2 j (by omega) h
    rw [List.getElem?_eq_getElem hj] at h1
    injection h1 with h1
    rw [h1, h2]
    exact Nat.le_refl _
  · omega

/-- The last place of each group, if it is that already. -/
theorem Grp.same {κ r : Nat → Nat} {isa : List Nat} : ∀ {X Q : List Nat} {f e : Nat}, e = f + X.length + Q.length → Blk isa f X → (∀ y, y ∈ X → ch isa y < f + X.length ∧ κ y = ch isa y) →
    (∀ y, y ∈ Q → f + X.length ≤ κ y) → Grp κ r (fun i => e - 1 - i) (X ++ Q) → ∀ y, y ∈ X → r y = ch isa y
  | [], _, _, _, _, _, _, _, _, _, hy => by cases hy
  | x :: X, Q, f, e, he, B, hX, hQ, hg, y, hy => by
    have B' : Blk isa (f + 1) X := by
      intro i s hi
      obtain ⟨g1, g2⟩ := B (i + 1) s hi
      refine ⟨by omega, fun j h1 h2 => ?_⟩
      exact g2 (j + 1) (by omega) (by omega)
    simp only [List.length_cons] at he hX hQ
    have hg' : Grp κ r (fun i => e - 1 - i) (X ++ Q) := by
      cases hXQ : X ++ Q with
      | nil => trivial
      | cons u l =>
        rw [List.cons_append, hXQ] at hg
        exact hg.2
    have ih := Grp.same (X := X) (Q := Q) (f := f + 1) (e := e) (by omega) B' (fun y hy => ⟨by have := (hX y (List.mem_cons_of_mem _ hy)).1; omega, (hX y (List.mem_cons_of_mem _ hy)).2⟩)
      (fun y hy => by have := hQ y hy; omega) hg'
    rcases List.mem_cons.1 hy with rfl | hy
    · obtain ⟨b1, b2⟩ := B 0 y rfl
      obtain ⟨x1, x2⟩ := hX y (List.mem_cons_self ..)
      cases X with
      | nil =>
        simp only [List.length_nil] at x1 he hQ
        cases Q with
        | nil =>
          have : r y = e - 1 - 0 := hg
          simp only [List.length_nil] at he
          omega
        | cons q Q =>
          have h1 : r y = (if κ y = κ q then r q else (fun i => e - 1 - i) (Q.length + 1)) := hg.1
          have := hQ q (by simp)
          rw [if_neg (by omega)] at h1
          simp only [List.length_cons] at he
          show r y = ch isa y
          simp only [] at h1
          omega
      | cons u X =>
        have h1 : r y = (if κ y = κ u then r u else (fun i => e - 1 - i) ((X ++ Q).length + 1)) := hg.1
        by_cases hk : κ y = κ u
        · rw [if_pos hk] at h1
          rw [h1, ih u (by simp), ← (hX u (by simp)).2, ← hk, x2]
        · rw [if_neg hk] at h1
          rw [h1]
          simp only [List.length_append]
          simp only [List.length_cons] at he
          by_cases hc : f + 1 ≤ ch isa y
          · obtain ⟨s', k1, k2⟩ := b2 1 (by omega) hc
            injection k1 with k1
            rw [x2, (hX u (by simp)).2, k1, k2] at hk
            exact absurd rfl hk
          · omega
    · exact ih y hy

/-! ### One element -/

/-- Whether the suffix `D` before `z` is to be placed. -/
def pM (M : List Nat) (D z : Nat) : Bool := decide (D ≤ z ∧ z - D ∈ M)

theorem copyTest_ok {M : List Nat} {D v : Nat} {s : CopySt} {c z : Nat} (hz : s.sa[c]? = some (z : Int)) (hn : z < s.isa.length) (hval : D ≤ z → (ch s.isa (z - D) = v ↔ z - D ∈ M)) :
    copyTest D v c s = .ok (if pM M D z then some (z - D) else none) := by
  unfold copyTest pM
  simp only [Bind.bind, Except.bind]
  rw [rd_ok hz]
  simp only []
  by_cases h1 : D ≤ z
  · rw [if_pos (by omega), show ((z : Int) - (D : Int)).toNat = z - D by omega]
    have h2 : s.isa[z - D]? = some (ch s.isa (z - D)) := by
      rw [List.getElem?_eq_getElem (by omega)]
      unfold ch
      rw [List.getD_eq_getElem?_getD, List.getElem?_eq_getElem (by omega)]
      rfl
    rw [rd_ok h2]
    simp only []
    congr 1
    by_cases h3 : z - D ∈ M
    · rw [if_pos ((hval h1).2 h3), if_pos (decide_eq_true ⟨h1, h3⟩)]
    · rw [if_neg (fun h => h3 ((hval h1).1 h)), if_neg (by simp [h3])]
  · rw [if_neg (by omega), if_neg (by simp; omega)]

/-- `lastrank` and `newrank` are those of the newest element. -/
def Last (D : Nat) (s : CopySt) : List Nat → Prop
  | [] => s.lastrank = none
  | u :: _ => s.lastrank = some (ch s.isa (u + D)) ∧ s.newrank = ch s.isa u

/-- The rank of the next element. -/
def rankFor (isa : List Nat) (D r j : Nat) : List Nat → Nat
  | [] => j
  | u :: _ => if ch isa (r + D) = ch isa (u + D) then ch isa u else j

theorem rd_ch {isa : List Nat} {i : Nat} (h : i < isa.length) : rd isa i = .ok (ch isa i) := by
  refine rd_ok ?_
  unfold ch
  rw [List.getD_eq_getElem?_getD, List.getElem?_eq_getElem h]
  rfl

theorem nextRank_ok {D r j : Nat} {s : CopySt} {l : List Nat} (hr : r + D < s.isa.length) (hlast : Last D s l) :
    ∃ s', nextRank (r + D) j s = .ok s' ∧ s'.sa = s.sa ∧ s'.isa = s.isa ∧ s'.lastrank = some (ch s.isa (r + D)) ∧ s'.newrank = rankFor s.isa D r j l := by
  unfold nextRank
  simp only [Bind.bind, Except.bind]
  rw [rd_ch hr]
  simp only []
  cases l with
  | nil =>
    have : s.lastrank = none := hlast
    rw [if_neg (by rw [this]; exact fun h => by cases h)]
    exact ⟨_, rfl, rfl, rfl, rfl, rfl⟩
  | cons u l =>
    obtain ⟨h1, h2⟩ := hlast
    by_cases hk : ch s.isa (r + D) = ch s.isa (u + D)
    · rw [if_pos (by rw [h1, hk])]
      exact ⟨_, rfl, rfl, rfl, by rw [h1, hk], by rw [h2]; simp only [rankFor]; rw [if_pos hk]⟩
    · rw [if_neg (by rw [h1]; intro h; injection h with h; exact hk h.symm)]
      exact ⟨_, rfl, rfl, rfl, rfl, by simp only [rankFor]; rw [if_neg hk]⟩

theorem copyPut_ok {part : Bool} {D r j : Nat} {s : CopySt} {l : List Nat} (hr : r + D < s.isa.length) (hj : j < s.sa.length) (hlast : part = true → Last D s l)
    (hnew : part = false → ∀ u, l.head? = some u → ch s.isa (r + D) ≠ ch s.isa (u + D)) :
    ∃ s', copyPut part D j r s = .ok s' ∧ s'.sa = s.sa.set j (Int.ofNat r) ∧ s'.isa = s.isa.set r (rankFor s.isa D r j l) ∧
      (part = true → s'.lastrank = some (ch s.isa (r + D)) ∧ s'.newrank = rankFor s.isa D r j l) := by
  unfold copyPut
  simp only [Bind.bind, Except.bind]
  rw [wr_ok _ hj]
  simp only []
  cases part with
  | true =>
    rw [if_pos rfl]
    obtain ⟨s', h1, h2, h3, h4, h5⟩ := nextRank_ok (j := j) (s := { s with sa := s.sa.set j (Int.ofNat r) }) (l := l) hr (by
      have := hlast rfl
      cases l with
      | nil => exact this
      | cons u l => exact this)
    rw [h1]
    simp only []
    rw [wr_ok _ (by rw [h3]; show r < s.isa.length; omega)]
    simp only []
    refine ⟨_, rfl, h2, ?_, fun _ => ⟨h4, h5⟩⟩
    show s'.isa.set r s'.newrank = _
    rw [h3, h5]
  | false =>
    rw [if_neg (by simp), wr_ok _ (by omega)]
    refine ⟨_, rfl, rfl, ?_, fun h => (by cases h)⟩
    congr 1
    cases l with
    | nil => rfl
    | cons u l =>
      simp only [rankFor]
      rw [if_neg (hnew rfl u rfl)]

/-- What follows from one more element. -/
theorem Grp.put {isa : List Nat} {p : Nat → Nat} {D r j : Nat} {l : List Nat} (h : Grp (fun y => ch isa (y + D)) (ch isa) p l) (hr : r < isa.length) (hj : j = p l.length) (hD : 0 < D) (h1 : r ∉ l) (h2 : ∀ y, y ∈ l → y + D ≠ r) :
    Grp (fun y => ch (isa.set r (rankFor isa D r j l)) (y + D)) (ch (isa.set r (rankFor isa D r j l))) p (r :: l) := by
  have hold := h.congr (κ' := fun y => ch (isa.set r (rankFor isa D r j l)) (y + D)) (r' := ch (isa.set r (rankFor isa D r j l))) (fun y hy => by
    refine ⟨?_, ?_⟩
    · show ch _ (y + D) = _
      rw [ch_set _ hr, if_neg (h2 y hy)]
    · rw [ch_set _ hr, if_neg (fun e => h1 (by rw [← e]; exact hy))])
  cases l with
  | nil =>
    show ch _ r = p 0
    rw [ch_set _ hr, if_pos rfl]
    exact hj
  | cons u l =>
    refine ⟨?_, hold⟩
    show ch (isa.set r (rankFor isa D r j (u :: l))) r = if ch (isa.set r (rankFor isa D r j (u :: l))) (r + D) = ch (isa.set r (rankFor isa D r j (u :: l))) (u + D) then
      ch (isa.set r (rankFor isa D r j (u :: l))) u else p (l.length + 1)
    have e1 : ch (isa.set r (rankFor isa D r j (u :: l))) r = rankFor isa D r j (u :: l) := by rw [ch_set r hr, if_pos rfl]
    have e2 : ch (isa.set r (rankFor isa D r j (u :: l))) (r + D) = ch isa (r + D) := by rw [ch_set _ hr, if_neg (by omega)]
    have e3 : ch (isa.set r (rankFor isa D r j (u :: l))) (u + D) = ch isa (u + D) := by rw [ch_set _ hr, if_neg (h2 u (by simp))]
    have e4 : ch (isa.set r (rankFor isa D r j (u :: l))) u = ch isa u := by rw [ch_set _ hr, if_neg (fun e => h1 (by rw [e]; simp))]
    rw [e1, e2, e3, e4]
    simp only [rankFor]
    rw [hj]
    rfl

theorem Last.put {s s' : CopySt} {D r j : Nat} {l : List Nat} (hr : r < s.isa.length) (hD : 0 < D) (hi : s'.isa = s.isa.set r (rankFor s.isa D r j l))
    (h : s'.lastrank = some (ch s.isa (r + D)) ∧ s'.newrank = rankFor s.isa D r j l) : Last D s' (r :: l) := by
  refine ⟨?_, ?_⟩
  · rw [hi, ch_set _ hr, if_neg (by omega)]
    exact h.1
  · rw [hi, ch_set _ hr, if_pos rfl]
    exact h.2

end Tr

end Dss
end Detools
