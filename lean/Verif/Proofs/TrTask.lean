import Verif.Proofs.TrRank
import Verif.Proofs.TrLog
/-
trsort: what `tr_introsort` has to do with a range, and that ranges do not disturb each other.
-/
namespace Detools
namespace Dss

namespace Tr
open Sais

/-! ### Setting ranks -/

theorem ch_set {isa : List Nat} {r v : Nat} (y : Nat) (hr : r < isa.length) : ch (isa.set r v) y = if y = r then v else ch isa y := by
  unfold ch
  rw [List.getD_eq_getElem?_getD, List.getD_eq_getElem?_getD, List.getElem?_set]
  by_cases h : r = y
  · subst h
    rw [if_pos rfl, if_pos rfl, if_pos hr]
    rfl
  · rw [if_neg h, if_neg (fun k => h k.symm)]

theorem setRanks_ok {sa : List Int} {v : Nat} : ∀ (X : List Nat) (c : Nat) (isa : List Nat), At sa c (X.map Int.ofNat) → (∀ y, y ∈ X → y < isa.length) →
    ∃ isa', setRanks sa v X.length c isa = .ok isa' ∧ isa'.length = isa.length ∧ ∀ y, ch isa' y = if y ∈ X then v else ch isa y
  | [], c, isa, _, _ => ⟨isa, rfl, rfl, fun y => by simp⟩
  | x :: X, c, isa, ha, hX => by
    have h0 := ha 0 (by simp)
    simp only [Nat.add_zero, List.map_cons, List.getElem?_cons_zero] at h0
    have hx := hX x (List.mem_cons_self ..)
    obtain ⟨isa', g1, g2, g3⟩ := setRanks_ok (v := v) X (c + 1) (isa.set x v) ((at_append (xs := [Int.ofNat x]).1 ha).2)
      (fun y hy => by rw [List.length_set]; exact hX y (List.mem_cons_of_mem _ hy))
    refine ⟨isa', ?_, by rw [g2, List.length_set], fun y => ?_⟩
    · simp only [List.length_cons, setRanks, Bind.bind, Except.bind]
      rw [getNo_ok h0]
      simp only []
      rw [wr_ok v hx]
      simp only []
      exact g1
    · rw [g3 y, ch_set y hx]
      by_cases h1 : y ∈ X
      · rw [if_pos h1, if_pos (List.mem_cons_of_mem _ h1)]
      · rw [if_neg h1]
        by_cases h2 : y = x
        · rw [if_pos h2, if_pos (by rw [h2]; exact List.mem_cons_self ..)]
        · rw [if_neg h2, if_neg (by simp [h1, h2])]

/-! ### The marks on the stack -/

/-- `setLink` as a function. -/
def lk (l : Int) (s : TrStack) : TrStack :=
  if 0 ≤ l then s.modify (s.length - 1 - l.toNat) (fun f => { f with limit := -1 }) else s

/-- The link is into the stack. -/
def LinkOk (l : Int) (s : TrStack) : Prop := 0 ≤ l → l.toNat < s.length

theorem setLink_ok {l : Int} {s : TrStack} (h : LinkOk l s) : setLink l s = .ok (lk l s) := by
  unfold setLink lk
  by_cases h0 : 0 ≤ l
  · rw [if_pos h0, if_pos (h h0), if_pos h0]
  · rw [if_neg h0, if_neg h0]

/-- With `fl` the middle partition is marked. -/
def mk (fl : Bool) (l : Int) (s : TrStack) : TrStack := if fl then lk l s else s

theorem lk_length (l : Int) (s : TrStack) : (lk l s).length = s.length := by
  unfold lk
  split <;> simp

theorem mk_length (fl : Bool) (l : Int) (s : TrStack) : (mk fl l s).length = s.length := by
  unfold mk
  split
  · exact lk_length l s
  · rfl

theorem lk_cons {l : Int} {s : TrStack} (h : LinkOk l s) (f : TrFrame) : lk l (f :: s) = f :: lk l s := by
  unfold lk
  by_cases h0 : 0 ≤ l
  · have := h h0
    rw [if_pos h0, if_pos h0, List.length_cons, show s.length + 1 - 1 - l.toNat = (s.length - 1 - l.toNat) + 1 by omega]
    rfl
  · rw [if_neg h0, if_neg h0]

theorem mk_cons {fl : Bool} {l : Int} {s : TrStack} (h : LinkOk l s) (f : TrFrame) : mk fl l (f :: s) = f :: mk fl l s := by
  unfold mk
  cases fl
  · rfl
  · exact lk_cons h f

theorem lk_lk (l : Int) (s : TrStack) : lk l (lk l s) = lk l s := by
  have hlen := lk_length l s
  unfold lk at hlen ⊢
  by_cases h0 : 0 ≤ l
  · simp only [if_pos h0, List.length_modify]
    apply List.ext_getElem?
    intro i
    simp only [List.getElem?_modify]
    cases s[i]? with
    | none => rfl
    | some f =>
      by_cases hi : s.length - 1 - l.toNat = i
      · simp [hi]
      · simp [hi]
  · rw [if_neg h0, if_neg h0]

theorem mk_mk (a b : Bool) (l : Int) (s : TrStack) : mk a l (mk b l s) = mk (a || b) l s := by
  unfold mk
  cases a <;> cases b <;> simp [lk_lk]

theorem LinkOk.cons {l : Int} {s : TrStack} (h : LinkOk l s) (f : TrFrame) : LinkOk l (f :: s) := fun h0 => by
  have := h h0
  simp
  omega

theorem LinkOk.mk {l : Int} {s : TrStack} (h : LinkOk l s) (fl : Bool) (l' : Int) : LinkOk l (mk fl l' s) := fun h0 => by
  rw [mk_length]
  exact h h0

/-! ### Tasks -/

/-- What is to be done with the range from `first` to `last`. A sorted range is part of one of `n`
elements that was sorted. -/
structure Task where
  f : TrFrame
  X : List Nat
  n : Nat

variable {w : List Nat} {h : Nat}

/-- What the range holds: the class as it is, or sorted with marks. -/
def Holds (w : List Nat) (h : Nat) (sa : List Int) (t : Task) : Prop :=
  if t.f.limit = -3 then ∃ k : Nat → Nat, At sa t.f.first (tm k none t.X) ∧ (t.X.Pairwise fun a b => k a ≤ k b) ∧
      (∀ s s', s ∈ t.X → s' ∈ t.X → (k s < k s' → Lex (w.drop s) (w.drop s')) ∧ (k s = k s' → Ag w (t.f.d + h) s s')) ∧
      ∃ Y : List Nat, Y.length = t.n ∧ (∀ s, s ∈ t.X → s ∈ Y) ∧ ∀ s s', s ∈ t.X → s' ∈ t.X → k s = k s' → s' + t.f.d ∈ Y → s + t.f.d ∈ Y
  else At sa t.f.first (t.X.map Int.ofNat)

/-- What is given. -/
structure Todo (w : List Nat) (h : Nat) (isa : List Nat) (sa : List Int) (t : Task) : Prop where
  cls : Cls w isa t.f.first t.f.last t.X
  size : 2 ≤ t.X.length
  ag : ∀ s s', s ∈ t.X → s' ∈ t.X → Ag w t.f.d s s'
  deep : h ≤ t.f.d
  lim : -1 ≤ t.f.limit ∨ t.f.limit = -3
  two : t.f.limit = -1 → 2 * h ≤ t.f.d
  holds : Holds w h sa t

/-- How far the limit is from the end. -/
def phase (t : Task) : Nat := if t.f.limit = -3 then 0 else if t.f.limit = -1 then 2 else 1

/-- The steps that are enough. -/
def cost (w : List Nat) (t : Task) : Nat := 8 * (t.X.length * (w.length + 1 - t.f.d)) + 2 * phase t

/-- How the arrays change in the ranges of `ts`. -/
structure Did (w : List Nat) (h : Nat) (ts : List Task) (x x' : TrSt) (fl : Bool) : Prop where
  ranks : Ranks w h x'.isa
  res : ∀ t, t ∈ ts → Res w h x'.isa x'.sa t.f.first t.f.last t.X fl
  out : ∀ y, y < w.length → (∀ t, t ∈ ts → ch x.isa y < t.f.first ∨ t.f.last ≤ ch x.isa y) → ch x'.isa y = ch x.isa y
  len : x'.sa.length = x.sa.length
  sa : ∀ p, (∀ t, t ∈ ts → p < t.f.first ∨ t.f.last ≤ p) → x'.sa[p]? = x.sa[p]?
  same : fl = false → x'.bud.count = x.bud.count
  more : fl = true → x.bud.count < x'.bud.count

/-- How many elements there are in the ranges. -/
def sizes : List Task → Nat
  | [] => 0
  | t :: ts => t.X.length + sizes ts

/-- How many elements of a range are followed by one outside it. -/
def ends (h : Nat) (t : Task) : Nat := (t.X.filter fun s => decide (s + (t.f.d - h) ∉ t.X)).length

/-- The room on the stack that is enough for a range. -/
def need (h : Nat) (t : Task) : Nat :=
  if t.f.limit = -1 then 2 + lg3 (ends h t) else if t.f.limit = -3 then room t.X.length t.n else lg3 t.X.length

/-- The room on the stack that is enough for ranges on it. -/
def needs (h : Nat) : List Task → Nat
  | [] => 0
  | t :: ts => max (ts.length + need h t) (needs h ts)

/-- The loop goes on as if the ranges were done, unless the stack is full, for which the room must
be too small. -/
def Runs (w : List Nat) (h : Nat) (ts : List Task) (l : Int) (f : Option TrFrame) (s s0 : TrStack) (x : TrSt) (K : Nat) : Prop :=
  ∃ k, (k ≤ K ∧ (f = none → ts ≠ [] → 0 < k)) ∧ ((64 < s0.length + needs h ts ∧ ∀ fuel, trLoop h (k + fuel) f s x = .error .stack) ∨
    ∃ x' fl, (∀ fuel, trLoop h (k + fuel) f s x = trLoop h fuel none (mk fl l s0) x') ∧ Did w h ts x x' fl)

/-- The range is done. -/
def Works (w : List Nat) (h : Nat) (t : Task) : Prop :=
  ∀ (s : TrStack) (x : TrSt), Ranks w h x.isa → x.sa.length = w.length → Todo w h x.isa x.sa t → LinkOk t.f.trlink s →
    ∃ k, k + 8 ≤ cost w t ∧ ((64 < s.length + need h t ∧ ∀ fuel, trLoop h (k + fuel) (some t.f) s x = .error .stack) ∨
      ∃ x' fl, (∀ fuel, trLoop h (k + fuel) (some t.f) s x = trLoop h fuel none (mk fl t.f.trlink s) x') ∧ Did w h [t] x x' fl)

/-- Ranges apart from each other. -/
def Apart (t t' : Task) : Prop := t.f.last ≤ t'.f.first ∨ t'.f.last ≤ t.f.first

theorem Todo.frame {isa isa' : List Nat} {sa sa' : List Int} {t : Task} (T : Todo w h isa sa t) {f' l' : Nat}
    (hout : ∀ y, y < w.length → (ch isa y < f' ∨ l' ≤ ch isa y) → ch isa' y = ch isa y)
    (hin : ∀ y, y < w.length → f' ≤ ch isa y → ch isa y < l' → f' ≤ ch isa' y ∧ ch isa' y < l')
    (hsa : Upd sa sa' f' l') (hd : t.f.last ≤ f' ∨ l' ≤ t.f.first) : Todo w h isa' sa' t := by
  have hl := T.cls.len
  refine ⟨T.cls.frame hout hin hd, T.size, T.ag, T.deep, T.lim, T.two, ?_⟩
  have hh := T.holds
  unfold Holds at hh ⊢
  by_cases h3 : t.f.limit = -3
  · rw [if_pos h3] at hh ⊢
    obtain ⟨k, g1, g2⟩ := hh
    exact ⟨k, hsa.at g1 (by rw [tm_length]; omega), g2⟩
  · rw [if_neg h3] at hh ⊢
    exact hsa.at hh (by rw [List.length_map]; omega)

/-- One range of the arrays has changed. -/
theorem Did.one {t : Task} {x x' : TrSt} {fl : Bool} (D : Did w h [t] x x' fl) (C : Cls w x.isa t.f.first t.f.last t.X) :
    (∀ y, y < w.length → (ch x.isa y < t.f.first ∨ t.f.last ≤ ch x.isa y) → ch x'.isa y = ch x.isa y) ∧
    (∀ y, y < w.length → t.f.first ≤ ch x.isa y → ch x.isa y < t.f.last → t.f.first ≤ ch x'.isa y ∧ ch x'.isa y < t.f.last) ∧
    Upd x.sa x'.sa t.f.first t.f.last := by
  refine ⟨fun y hy ho => D.out y hy (fun t' ht => by rw [List.mem_singleton.1 ht]; exact ho), fun y hy h1 h2 => ?_,
    ⟨D.len, fun p hp => D.sa p (fun t' ht => by rw [List.mem_singleton.1 ht]; exact hp)⟩⟩
  obtain ⟨_, _, _, _, h4, _⟩ := D.res t (List.mem_singleton.2 rfl)
  exact h4 y ((C.mem y).2 ⟨hy, h1, h2⟩)

/-- The sum of the costs. -/
def costs (w : List Nat) : List Task → Nat
  | [] => 0
  | t :: ts => cost w t - 7 + costs w ts

/-- The ranges on the stack are done one after the other. -/
theorem tasks_ok (l : Int) : ∀ (ts : List Task) (s : TrStack) (x : TrSt), Ranks w h x.isa → x.sa.length = w.length → (∀ t, t ∈ ts → Todo w h x.isa x.sa t ∧ Works w h t ∧ t.f.trlink = l) →
    ts.Pairwise Apart → LinkOk l s → Runs w h ts l none (ts.map Task.f ++ s) s x (costs w ts)
  | [], s, x, R, _, _, _, _ => by
    refine ⟨0, ⟨Nat.le_refl _, fun _ h => absurd rfl h⟩, .inr ⟨x, false, fun fuel => by rw [Nat.zero_add]; rfl, ⟨R, fun _ h => (by cases h), fun _ _ _ => rfl, rfl, fun _ _ => rfl, fun _ => rfl, fun h => (by cases h)⟩⟩⟩
  | t :: ts, s, x, R, hlen, hts, hap, hl => by
    obtain ⟨T, W, hlk⟩ := hts t (List.mem_cons_self ..)
    rw [List.pairwise_cons] at hap
    have hl' : ∀ ts : List Task, LinkOk l (ts.map Task.f ++ s) := by
      intro ts
      induction ts with
      | nil => exact hl
      | cons t ts ih => exact ih.cons t.f
    have hmk : ∀ (fl : Bool) (ts : List Task), mk fl l (ts.map Task.f ++ s) = ts.map Task.f ++ mk fl l s := by
      intro fl ts
      induction ts with
      | nil => rfl
      | cons t ts ih => rw [List.map_cons, List.cons_append, mk_cons (hl' ts), ih]; rfl
    obtain ⟨k, hk, hrun⟩ := W (ts.map Task.f ++ s) x R hlen T (by rw [hlk]; exact hl' ts)
    have hstep : ∀ fuel, trLoop h (k + 1 + fuel) none ((t :: ts).map Task.f ++ s) x = trLoop h (k + fuel) (some t.f) (ts.map Task.f ++ s) x := by
      intro fuel
      rw [show k + 1 + fuel = k + fuel + 1 by omega]
      rfl
    rcases hrun with ⟨hfull, he⟩ | ⟨x1, fl1, hr1, D1⟩
    · rw [List.length_append, List.length_map] at hfull
      exact ⟨k + 1, ⟨by simp only [costs]; omega, fun _ _ => by omega⟩, .inl ⟨by simp only [needs]; omega, fun fuel => by rw [hstep]; exact he fuel⟩⟩
    · obtain ⟨o1, i1, u1⟩ := D1.one T.cls
      obtain ⟨k2, ⟨hk2, _⟩, hrun2⟩ := tasks_ok l ts (mk fl1 l s) x1 D1.ranks (D1.len.trans hlen)
        (fun t' ht => ⟨(hts t' (List.mem_cons_of_mem _ ht)).1.frame o1 i1 u1 (by have := hap.1 t' ht; unfold Apart at this; omega), (hts t' (List.mem_cons_of_mem _ ht)).2⟩) hap.2 (hl.mk fl1 l)
      have hr1' : ∀ fuel, trLoop h (k + 1 + k2 + fuel) none ((t :: ts).map Task.f ++ s) x = trLoop h (k2 + fuel) none (ts.map Task.f ++ mk fl1 l s) x1 := by
        intro fuel
        rw [show k + 1 + k2 + fuel = k + 1 + (k2 + fuel) by omega, hstep, hr1, hlk, hmk]
      refine ⟨k + 1 + k2, ⟨by simp only [costs]; omega, fun _ _ => by omega⟩, ?_⟩
      rcases hrun2 with ⟨hfull, he⟩ | ⟨x2, fl2, hr2, D2⟩
      · rw [mk_length] at hfull
        exact .inl ⟨by simp only [needs]; omega, fun fuel => by rw [hr1']; exact he fuel⟩
      · refine .inr ⟨x2, fl2 || fl1, fun fuel => by rw [hr1', hr2, mk_mk], ?_⟩
        have hX : ∀ y, y ∈ t.X → y < w.length := fun y hy => T.cls.lt hy
        refine ⟨D2.ranks, ?_, ?_, D2.len.trans D1.len, ?_, ?_, ?_⟩
        · intro t' ht
          rcases List.mem_cons.1 ht with rfl | ht
          · -- the first range is not disturbed
            have r1 := D1.res t' (List.mem_singleton.2 rfl)
            obtain ⟨X', h1, h2, h3, h4, h5, h6, h7⟩ := r1.weaken (fl' := fl2 || fl1) (by intro h; rw [h]; simp)
            have hs : ∀ y, y ∈ t'.X → ch x2.isa y = ch x1.isa y := fun y hy => D2.out y (hX y hy) fun t2 ht2 => by
              have := hap.1 t2 ht2
              have := h4 y hy
              unfold Apart at *
              omega
            have hs' : ∀ i s, X'[i]? = some s → ch x2.isa s = ch x1.isa s := fun i s hi => hs s (h1.mem_iff.1 (List.mem_of_getElem? hi))
            refine ⟨X', h1, h2, ?_, fun y hy => by rw [hs y hy]; exact h4 y hy, ?_, fun h0 i s hi => by rw [hs' i s hi]; exact h6 h0 i s hi,
              fun s s' k k' he => h7 s s' k k' (by rw [hs s k, hs s' k'] at he; exact he)⟩
            · intro i hi
              rw [D2.sa, h3 i hi]
              intro t2 ht2
              have := hap.1 t2 ht2
              have := h1.length_eq
              simp at hi
              unfold Apart at *
              omega
            · intro i s hi
              rw [hs' i s hi]
              obtain ⟨g1, g2⟩ := h5 i s hi
              refine ⟨g1, fun j hij hj => ?_⟩
              obtain ⟨s', k1, k2⟩ := g2 j hij hj
              exact ⟨s', k1, by rw [hs' j s' k1]; exact k2⟩
          · exact (D2.res t' ht).weaken (by intro h; rw [h]; simp)
        · intro y hy ho
          have h1 := o1 y hy (ho t (List.mem_cons_self ..))
          rw [D2.out y hy (fun t' ht => by rw [h1]; exact ho t' (List.mem_cons_of_mem _ ht)), h1]
        · intro p hp
          rw [D2.sa p (fun t' ht => hp t' (List.mem_cons_of_mem _ ht)), u1.2 p (hp t (List.mem_cons_self ..))]
        · intro hf
          simp only [Bool.or_eq_false_iff] at hf
          rw [D2.same hf.1, D1.same hf.2]
        · intro hf
          cases h2 : fl2 <;> cases h1 : fl1
          · rw [h1, h2] at hf; cases hf
          · have := D2.same h2
            have := D1.more h1
            omega
          · have := D2.more h2
            have := D1.same h1
            omega
          · have := D2.more h2
            have := D1.more h1
            omega

/-- The range to go on with is like one on the stack. -/
theorem Runs.go {ts : List Task} {l : Int} {f : TrFrame} {s s0 : TrStack} {x : TrSt} {K : Nat} (r : Runs w h ts l none (f :: s) s0 x K) (hne : ts ≠ []) :
    Runs w h ts l (some f) s s0 x (K - 1) := by
  obtain ⟨k, ⟨hk, hpos⟩, hr⟩ := r
  have := hpos rfl hne
  refine ⟨k - 1, ⟨by omega, fun h => (by cases h)⟩, ?_⟩
  have : ∀ fuel, trLoop h (k + fuel) none (f :: s) x = trLoop h (k - 1 + fuel) (some f) s x := fun fuel => by
    rw [show k + fuel = k - 1 + fuel + 1 by omega]
    rfl
  rcases hr with he | ⟨x', fl, h1, D⟩
  · exact .inl ⟨he.1, fun fuel => by rw [← this]; exact he.2 fuel⟩
  · exact .inr ⟨x', fl, fun fuel => by rw [← this]; exact h1 fuel, D⟩

end Tr

end Dss
end Detools
