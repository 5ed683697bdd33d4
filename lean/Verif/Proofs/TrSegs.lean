import Verif.Proofs.TrWorks
/-
trsort: the segments of the suffix array between the passes.
-/
namespace Detools
namespace Dss

namespace Tr
open Sais

variable {w : List Nat} {h : Nat}

/-- Elements in their places: the rank of each is its index. -/
structure Sing (w isa : List Nat) (q : Nat) (P : List Nat) : Prop where
  pos : ∀ i y, P[i]? = some y → ch isa y = q + i
  mem : ∀ y, y ∈ P ↔ y < w.length ∧ q ≤ ch isa y ∧ ch isa y < q + P.length

/-- Sorted elements, whose number is at the first, or a group with the same rank. -/
inductive Seg where
  | sing (P : List Nat)
  | grp (X : List Nat)

def Seg.els : Seg → List Nat
  | .sing P => P
  | .grp X => X

def Seg.isSing : Seg → Bool
  | .sing _ => true
  | .grp _ => false

/-- A segment at `q`. -/
def SegOk (w isa : List Nat) (sa : List Int) (q : Nat) : Seg → Prop
  | .sing P => 0 < P.length ∧ sa[q]? = some (-(P.length : Int)) ∧ Sing w isa q P
  | .grp X => 0 < X.length ∧ At sa q (X.map Int.ofNat) ∧ Cls w isa q (q + X.length) X

/-- Segments from `q` to `e`. -/
def SegsTo (w isa : List Nat) (sa : List Int) : Nat → List Seg → Nat → Prop
  | q, [], e => q = e
  | q, g :: gs, e => SegOk w isa sa q g ∧ SegsTo w isa sa (q + g.els.length) gs e

theorem segsTo_append {isa : List Nat} {sa : List Int} : ∀ {gs gs' : List Seg} {q e e' : Nat}, SegsTo w isa sa q gs e → SegsTo w isa sa e gs' e' → SegsTo w isa sa q (gs ++ gs') e'
  | [], gs', q, e, e', h1, h2 => by
    have h1 : q = e := h1
    rw [h1]
    exact h2
  | g :: gs, gs', q, e, e', h1, h2 => ⟨h1.1, segsTo_append h1.2 h2⟩

theorem SegOk.pos {isa : List Nat} {sa : List Int} {q : Nat} {g : Seg} (s : SegOk w isa sa q g) : 0 < g.els.length := by
  cases g with
  | sing P => exact s.1
  | grp X => exact s.1

theorem SegsTo.le {isa : List Nat} {sa : List Int} : ∀ {gs : List Seg} {q e : Nat}, SegsTo w isa sa q gs e → q + gs.length ≤ e
  | [], q, e, s => by
    have s : q = e := s
    simp
    omega
  | g :: gs, q, e, s => by
    have h1 := s.2.le
    have h2 := s.1.pos
    simp
    omega

/-- The ranks change elsewhere only. -/
theorem Sing.frame {isa isa' : List Nat} {q f' l' : Nat} {P : List Nat} (s : Sing w isa q P)
    (hout : ∀ y, y < w.length → (ch isa y < f' ∨ l' ≤ ch isa y) → ch isa' y = ch isa y)
    (hin : ∀ y, y < w.length → f' ≤ ch isa y → ch isa y < l' → f' ≤ ch isa' y ∧ ch isa' y < l') (hd : q + P.length ≤ f' ∨ l' ≤ q) : Sing w isa' q P := by
  refine ⟨fun i y hi => ?_, fun y => ?_⟩
  · have h1 := s.pos i y hi
    have h2 := (s.mem y).1 (List.mem_of_getElem? hi)
    rw [hout y h2.1 (by omega), h1]
  · rw [s.mem y]
    by_cases hy : y < w.length
    · by_cases h1 : f' ≤ ch isa y ∧ ch isa y < l'
      · have := hin y hy h1.1 h1.2
        omega
      · rw [hout y hy (by omega)]
    · omega

theorem SegOk.frame {isa isa' : List Nat} {sa sa' : List Int} {q f' l' : Nat} {g : Seg} (s : SegOk w isa sa q g)
    (hout : ∀ y, y < w.length → (ch isa y < f' ∨ l' ≤ ch isa y) → ch isa' y = ch isa y)
    (hin : ∀ y, y < w.length → f' ≤ ch isa y → ch isa y < l' → f' ≤ ch isa' y ∧ ch isa' y < l') (hsa : Upd sa sa' f' l') (hd : q + g.els.length ≤ f' ∨ l' ≤ q) : SegOk w isa' sa' q g := by
  cases g with
  | sing P =>
    obtain ⟨h1, h2, h3⟩ := s
    have hd : q + P.length ≤ f' ∨ l' ≤ q := hd
    exact ⟨h1, by rw [hsa.2 q (by omega)]; exact h2, h3.frame hout hin hd⟩
  | grp X =>
    obtain ⟨h1, h2, h3⟩ := s
    have hd : q + X.length ≤ f' ∨ l' ≤ q := hd
    exact ⟨h1, hsa.at h2 (by rw [List.length_map]; exact hd), h3.frame hout hin hd⟩

theorem SegsTo.frame {isa isa' : List Nat} {sa sa' : List Int} {f' l' : Nat} (hout : ∀ y, y < w.length → (ch isa y < f' ∨ l' ≤ ch isa y) → ch isa' y = ch isa y)
    (hin : ∀ y, y < w.length → f' ≤ ch isa y → ch isa y < l' → f' ≤ ch isa' y ∧ ch isa' y < l') (hsa : Upd sa sa' f' l') :
    ∀ {gs : List Seg} {q e : Nat}, SegsTo w isa sa q gs e → e ≤ f' ∨ l' ≤ q → SegsTo w isa' sa' q gs e
  | [], q, e, s, _ => s
  | g :: gs, q, e, s, hd => by
    have := s.2.le
    exact ⟨s.1.frame hout hin hsa (by omega), SegsTo.frame hout hin hsa s.2 (by omega)⟩

/-- One element of the suffix array is written. -/
theorem SegsTo.write {isa : List Nat} {sa : List Int} {i : Nat} {v : Int} {gs : List Seg} {q e : Nat} (s : SegsTo w isa sa q gs e) (hd : e ≤ i ∨ i < q) : SegsTo w isa (sa.set i v) q gs e :=
  s.frame (f' := i) (l' := i + 1) (fun _ _ _ => rfl) (fun _ _ h1 h2 => ⟨h1, h2⟩) ⟨by simp, fun p hp => List.getElem?_set_ne (by omega)⟩ (by omega)

theorem sing_nil (isa : List Nat) (q : Nat) : Sing w isa q [] :=
  ⟨(fun i y hi => by simp at hi), fun y => ⟨(fun hy => nomatch hy), (fun hy => by have := hy.2; simp at this; omega)⟩⟩

theorem Sing.append {isa : List Nat} {q : Nat} {P P' : List Nat} (s : Sing w isa q P) (s' : Sing w isa (q + P.length) P') : Sing w isa q (P ++ P') := by
  refine ⟨fun i y hi => ?_, fun y => ?_⟩
  · by_cases hl : i < P.length
    · rw [List.getElem?_append_left hl] at hi
      exact s.pos i y hi
    · rw [List.getElem?_append_right (by omega)] at hi
      rw [s'.pos _ y hi]
      omega
  · rw [List.mem_append, s.mem y, s'.mem y, List.length_append]
    omega

theorem Cls.sing {isa : List Nat} {q y : Nat} (C : Cls w isa q (q + 1) [y]) : Sing w isa q [y] := by
  refine ⟨fun i z hi => ?_, fun z => by rw [C.mem z]; rfl⟩
  have h1 := (List.getElem?_eq_some_iff.1 hi).1
  rw [List.length_singleton] at h1
  have h2 := C.cls z (List.mem_of_getElem? hi)
  omega

/-- The groups of a range in the order of its ranks. -/
theorem blk_segs {isa : List Nat} {sa : List Int} : ∀ (k : Nat) {f l : Nat} {X : List Nat}, X.length ≤ k → f + X.length = l → l ≤ w.length → Blk isa f X → At sa f (X.map Int.ofNat) → X.Nodup →
    (∀ y, y ∈ X ↔ y < w.length ∧ f ≤ ch isa y ∧ ch isa y < l) → ∃ gs : List Seg, SegsTo w isa sa f gs l ∧ ∀ g, g ∈ gs → (∀ y, y ∈ g.els → y ∈ X) ∧ ∀ y y', y ∈ g.els → y' ∈ g.els → ch isa y = ch isa y'
  | k, f, l, [], _, hl, _, _, _, _, _ => ⟨[], hl, fun _ h => by cases h⟩
  | 0, _, _, x :: X, hk, _, _, _, _, _, _ => by simp at hk
  | k + 1, f, l, x :: X, hk, hl, hfit, B, hat, hnd, hmem => by
    have hxm := (hmem x).1 (by simp)
    simp only [List.length_cons] at hk hl
    generalize he : ch isa x = e at hxm
    -- the first group
    have hY1 : ∀ i y, i < e + 1 - f → (x :: X)[i]? = some y → ch isa y = e := by
      intro i y hi hy
      obtain ⟨s', g1, g2⟩ := (B 0 x rfl).2 i (by omega) (by omega)
      rw [g1] at hy
      injection hy with hy
      rw [← hy, g2, he]
    have hsplit := List.take_append_drop (e + 1 - f) (x :: X)
    generalize hY : (x :: X).take (e + 1 - f) = Y at hsplit
    generalize hZ : (x :: X).drop (e + 1 - f) = Z at hsplit
    have hYl : Y.length = e + 1 - f := by
      rw [← hY, List.length_take, List.length_cons]
      omega
    have hZl : Z.length = X.length + 1 - (e + 1 - f) := by rw [← hZ, List.length_drop, List.length_cons]
    have hYr : ∀ y, y ∈ Y → ch isa y = e := by
      intro y hy
      obtain ⟨i, hi⟩ := List.getElem?_of_mem hy
      have hil := (List.getElem?_eq_some_iff.1 hi).1
      refine hY1 i y (by omega) ?_
      rw [← hsplit, List.getElem?_append_left hil]
      exact hi
    have hZr : ∀ y, y ∈ Z → e + 1 ≤ ch isa y := by
      intro y hy
      obtain ⟨i, hi⟩ := List.getElem?_of_mem hy
      have := (B (Y.length + i) y (by rw [← hsplit, List.getElem?_append_right (by omega), Nat.add_sub_cancel_left]; exact hi)).1
      omega
    have mem : ∀ y, y ∈ x :: X ↔ y ∈ Y ∨ y ∈ Z := fun y => by rw [← hsplit, List.mem_append]
    have hnd' := hnd
    rw [← hsplit, List.nodup_append] at hnd'
    rw [← hsplit, List.map_append, at_append, List.length_map] at hat
    have hfe : f + Y.length = e + 1 := by omega
    have BZ : Blk isa (e + 1) Z := by
      intro i s hs
      have hs' : (x :: X)[Y.length + i]? = some s := by rw [← hsplit, List.getElem?_append_right (by omega), Nat.add_sub_cancel_left]; exact hs
      obtain ⟨b1, b2⟩ := B _ s hs'
      refine ⟨by omega, fun j hij hj => ?_⟩
      obtain ⟨s', b3, b4⟩ := b2 (Y.length + j) (by omega) (by omega)
      rw [← hsplit, List.getElem?_append_right (by omega), Nat.add_sub_cancel_left] at b3
      exact ⟨s', b3, b4⟩
    obtain ⟨gs, k1, k2⟩ := blk_segs k (f := e + 1) (l := l) (X := Z) (by omega) (by omega) hfit BZ (by rw [hfe] at hat; exact hat.2) hnd'.2.1 (fun y => by
      constructor
      · intro hy
        have h1 := (hmem y).1 ((mem y).2 (.inr hy))
        exact ⟨h1.1, hZr y hy, h1.2.2⟩
      · intro hy
        rcases (mem y).1 ((hmem y).2 ⟨hy.1, by omega, hy.2.2⟩) with h1 | h1
        · have := hYr y h1
          omega
        · exact h1)
    refine ⟨.grp Y :: gs, ⟨⟨by omega, hat.1, ?_⟩, ?_⟩, ?_⟩
    · refine ⟨rfl, by omega, hnd'.1, fun y => ?_, fun y hy => by rw [hYr y hy]; omega⟩
      constructor
      · intro hy
        have := hYr y hy
        exact ⟨((hmem y).1 ((mem y).2 (.inl hy))).1, by omega, by omega⟩
      · intro hy
        rcases (mem y).1 ((hmem y).2 ⟨hy.1, by omega, by omega⟩) with h1 | h1
        · exact h1
        · have := hZr y h1
          omega
    · show SegsTo w isa sa (f + Y.length) gs l
      rw [hfe]
      exact k1
    · intro g hg
      rcases List.mem_cons.1 hg with rfl | hg
      · exact ⟨fun y hy => (mem y).2 (.inl hy), fun y y' hy hy' => (hYr y hy).trans (hYr y' hy').symm⟩
      · exact ⟨fun y hy => (mem y).2 (.inr ((k2 g hg).1 y hy)), (k2 g hg).2⟩

/-- Every element is in one of the segments that are not yet in place. -/
theorem SegsTo.find {isa : List Nat} {sa : List Int} : ∀ {gs : List Seg} {q e : Nat}, SegsTo w isa sa q gs e → ∀ y, y < w.length → q ≤ ch isa y → ch isa y < e → ∃ g, g ∈ gs ∧ y ∈ g.els ∧
    ∀ y', y' < w.length → ch isa y' = ch isa y → y' ∈ g.els ∧ (g.isSing = true → y' = y)
  | [], q, e, s, y, _, h1, h2 => by
    have s : q = e := s
    omega
  | g :: gs, q, e, s, y, hy, h1, h2 => by
    by_cases h3 : ch isa y < q + g.els.length
    · refine ⟨g, by simp, ?_⟩
      cases g with
      | sing P =>
        obtain ⟨_, _, s3⟩ := s.1
        have hm := (s3.mem y).2 ⟨hy, h1, h3⟩
        refine ⟨hm, fun y' hy' he => ?_⟩
        have hm' := (s3.mem y').2 ⟨hy', by rw [he]; exact h1, by rw [he]; exact h3⟩
        refine ⟨hm', fun _ => ?_⟩
        obtain ⟨i, hi⟩ := List.getElem?_of_mem hm
        obtain ⟨j, hj⟩ := List.getElem?_of_mem hm'
        have e1 := s3.pos i y hi
        have e2 := s3.pos j y' hj
        rw [show j = i by omega, hi] at hj
        injection hj with hj
        exact hj.symm
      | grp X =>
        obtain ⟨_, _, s3⟩ := s.1
        exact ⟨(s3.mem y).2 ⟨hy, h1, h3⟩, fun y' hy' he => ⟨(s3.mem y').2 ⟨hy', by rw [he]; exact h1, by rw [he]; exact h3⟩, fun h => by cases h⟩⟩
    · obtain ⟨g', k1, k2⟩ := s.2.find y hy (by omega) h2
      exact ⟨g', List.mem_cons_of_mem _ k1, k2⟩

/-- If all are in place. -/
theorem SegsTo.allSing {isa : List Nat} {sa : List Int} : ∀ {gs : List Seg} {q e : Nat}, SegsTo w isa sa q gs e → (∀ g, g ∈ gs → g.isSing = true) → ∃ P, Sing w isa q P ∧ q + P.length = e
  | [], q, e, s, _ => ⟨[], sing_nil isa q, s⟩
  | g :: gs, q, e, s, hg => by
    obtain ⟨P', p1, p2⟩ := s.2.allSing (fun g' h => hg g' (List.mem_cons_of_mem _ h))
    cases g with
    | sing P =>
      obtain ⟨_, _, s3⟩ := s.1
      exact ⟨P ++ P', s3.append p1, by rw [List.length_append, ← p2]; show _ = q + P.length + P'.length; omega⟩
    | grp X => exact absurd (hg (.grp X) (by simp)) (by simp [Seg.isSing])

/-- The ranks are then the numbers of suffixes that are less. -/
theorem Sing.ranks {isa : List Nat} {P : List Nat} (R : Ranks w h isa) (s : Sing w isa 0 P) (hl : P.length = w.length) :
    isa.map Int.ofNat = (List.range w.length).map fun r => Int.ofNat ((List.range w.length).filter fun s => decide (w.drop s < w.drop r)).length := by
  have hnd : P.Nodup := by
    rw [List.Nodup, List.pairwise_iff_getElem]
    intro i j hi hj hij he
    have e1 := s.pos i _ (List.getElem?_eq_getElem hi)
    have e2 := s.pos j _ (List.getElem?_eq_getElem hj)
    rw [he] at e1
    omega
  have hsub : P ⊆ List.range w.length := fun y hy => List.mem_range.2 ((s.mem y).1 hy).1
  have hall : ∀ y, y < w.length → y ∈ P := by
    intro y hy
    refine Classical.byContradiction fun hn => ?_
    have := List.Nodup.length_le_of_subset (l₁ := y :: P) (l₂ := List.range w.length) (List.nodup_cons.2 ⟨hn, hnd⟩) (fun z hz => by
      rcases List.mem_cons.1 hz with rfl | hz
      · exact List.mem_range.2 hy
      · exact hsub hz)
    simp at this
    omega
  have hp : (List.range w.length).Perm P := (List.perm_ext_iff_of_nodup List.nodup_range hnd).2 fun y => ⟨fun hy => hall y (List.mem_range.1 hy), fun hy => hsub hy⟩
  apply List.ext_getElem?
  intro r
  by_cases hr : r < w.length
  · rw [List.getElem?_map, List.getElem?_map, List.getElem?_range hr, ch_get (by rw [R.len]; exact hr)]
    show some (Int.ofNat (ch isa r)) = some (Int.ofNat ((List.range w.length).filter fun s => decide (w.drop s < w.drop r)).length)
    rw [(hp.filter _).length_eq]
    congr 2
    obtain ⟨i, hi⟩ := List.getElem?_of_mem (hall r hr)
    have hil := (List.getElem?_eq_some_iff.1 hi).1
    have hri : ch isa r = i := by rw [s.pos i r hi]; omega
    rw [hri, ← List.take_append_drop i P, List.filter_append, List.length_append]
    have e1 : (P.take i).filter (fun s => decide (w.drop s < w.drop r)) = P.take i := by
      rw [List.filter_eq_self]
      intro y hy
      obtain ⟨j, hj⟩ := List.getElem?_of_mem hy
      rw [List.getElem?_take] at hj
      split at hj
      · rename_i hji
        have hyP := List.mem_of_getElem? hj
        refine decide_eq_true (lex_iff.2 (R.mono y r ((s.mem y).1 hyP).1 hr ?_))
        rw [s.pos j y hj, hri]
        omega
      · cases hj
    have e2 : (P.drop i).filter (fun s => decide (w.drop s < w.drop r)) = [] := by
      rw [List.filter_eq_nil_iff]
      intro y hy hd
      obtain ⟨j, hj⟩ := List.getElem?_of_mem hy
      rw [List.getElem?_drop] at hj
      have hyP := List.mem_of_getElem? hj
      have hlt := lex_iff.1 (of_decide_eq_true hd)
      have hyr := s.pos _ y hj
      by_cases hj0 : j = 0
      · rw [hj0, Nat.add_zero, hi] at hj
        injection hj with hj
        rw [hj] at hlt
        exact Lex.irrefl _ hlt
      · exact (R.mono r y hr ((s.mem y).1 hyP).1 (by omega)).asymm hlt
    rw [e1, e2, List.length_take]
    simp
    omega
  · rw [List.getElem?_eq_none (by rw [List.length_map, R.len]; omega), List.getElem?_eq_none (by rw [List.length_map, List.length_range]; omega)]

end Tr

end Dss
end Detools
