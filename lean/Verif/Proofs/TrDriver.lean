import Verif.Proofs.TrPass
import Verif.Spec.Divsufsort
/-
trsort: what it is given, the passes, and the ranks at the end.
-/
namespace Detools
namespace Dss

namespace Tr
open Sais

variable {w : List Nat} {h : Nat}

/-- The names are ranks by which suffixes agree on one name. -/
theorem ranks_names (w : List Nat) : Ranks w 1 w := by
  refine ⟨rfl, fun s s' hs hs' hlt => ?_, fun s s' hs hs' he => ?_⟩
  · rw [List.drop_eq_getElem_cons hs, List.drop_eq_getElem_cons hs']
    have e1 := ch_get hs
    have e2 := ch_get hs'
    rw [List.getElem?_eq_getElem hs] at e1
    rw [List.getElem?_eq_getElem hs'] at e2
    injection e1 with e1
    injection e2 with e2
    rw [e1, e2]
    exact lex_iff.1 (List.cons_lt_cons_iff.2 (.inl hlt))
  · unfold Ag
    have e1 := ch_get hs
    have e2 := ch_get hs'
    rw [List.getElem?_eq_getElem hs] at e1
    rw [List.getElem?_eq_getElem hs'] at e2
    injection e1 with e1
    injection e2 with e2
    rw [List.drop_eq_getElem_cons hs, List.drop_eq_getElem_cons hs', e1, e2, he]
    simp

/-- A segment of names, of which it is not known that no other has them. -/
def SegW (w : List Nat) (sa : List Int) (q : Nat) : Seg → Prop
  | .sing P => 0 < P.length ∧ sa[q]? = some (-(P.length : Int)) ∧ ∀ i y, P[i]? = some y → w[y]? = some (q + i)
  | .grp X => 0 < X.length ∧ At sa q (X.map Int.ofNat) ∧ X.Nodup ∧ ∀ y, y ∈ X → w[y]? = some (q + X.length - 1)

def SegsW (w : List Nat) (sa : List Int) : Nat → List Seg → Prop
  | q, [] => q = w.length
  | q, g :: gs => SegW w sa q g ∧ SegsW w sa (q + g.els.length) gs

theorem SegsW.le {sa : List Int} : ∀ {gs : List Seg} {q : Nat}, SegsW w sa q gs → q ≤ w.length
  | [], q, s => by
    have s : q = w.length := s
    omega
  | g :: gs, q, s => by
    have := s.2.le
    omega

theorem trGroups_le {sa : List Int} : ∀ {q : Nat}, TrGroups w sa q → q ≤ w.length := by
  intro q g
  induction g with
  | done => exact Nat.le_refl _
  | sorted q n _ _ _ _ ih => omega
  | group q e l _ _ _ _ _ ih => omega

theorem sing_list (w : List Nat) : ∀ (n q : Nat), (∀ p, q ≤ p → p < q + n → ∃ r : Nat, w[r]? = some p) → ∃ P : List Nat, P.length = n ∧ ∀ i y, P[i]? = some y → w[y]? = some (q + i)
  | 0, q, _ => ⟨[], rfl, fun i y hi => by simp at hi⟩
  | n + 1, q, hp => by
    obtain ⟨r, hr⟩ := hp q (Nat.le_refl _) (by omega)
    obtain ⟨P, p1, p2⟩ := sing_list w n (q + 1) (fun p h1 h2 => hp p (by omega) (by omega))
    refine ⟨r :: P, by simp [p1], fun i y hi => ?_⟩
    cases i with
    | zero =>
      simp at hi
      rw [← hi]
      exact hr
    | succ i =>
      rw [List.getElem?_cons_succ] at hi
      rw [p2 i y hi]
      congr 1
      omega

theorem segsW_of {sa : List Int} (hlen : w.length ≤ sa.length) {q : Nat} (g : TrGroups w sa q) : ∃ gs, SegsW w (sa.take w.length) q gs := by
  induction g with
  | done => exact ⟨[], rfl⟩
  | sorted q n h1 h2 h3 h4 ih =>
    obtain ⟨gs, hgs⟩ := ih
    have hle := trGroups_le h4
    obtain ⟨P, p1, p2⟩ := sing_list w n q (fun p a b => by
      obtain ⟨r, hr⟩ := h3 p a b
      exact ⟨r, (hr r).2 rfl⟩)
    refine ⟨.sing P :: gs, ⟨by omega, ?_, p2⟩, ?_⟩
    · rw [List.getElem?_take, if_pos (by omega), h2, p1]
    · show SegsW w _ (q + P.length) gs
      rw [p1]
      exact hgs
  | group q e l h1 h2 h3 h4 h5 ih =>
    obtain ⟨gs, hgs⟩ := ih
    have hle := trGroups_le h5
    have hl : l.length = e + 1 - q := by
      have := congrArg List.length h2
      rw [List.length_take, List.length_drop, List.length_map] at this
      omega
    refine ⟨.grp l :: gs, ⟨by omega, fun i hi => ?_, h3, fun y hy => ?_⟩, ?_⟩
    · rw [List.length_map] at hi
      rw [List.getElem?_take, if_pos (by omega), ← h2, List.getElem?_take, if_pos (by omega), List.getElem?_drop]
    · rw [(h4 y).1 hy]
      congr 1
      omega
    · show SegsW w _ (q + l.length) gs
      rw [show q + l.length = e + 1 by omega]
      exact hgs

/-- The elements of a segment are below the next. -/
theorem SegW.rank {sa : List Int} {q : Nat} {g : Seg} (s : SegW w sa q g) : g.els.Nodup ∧ ∀ y, y ∈ g.els → ∃ r, w[y]? = some r ∧ q ≤ r ∧ r < q + g.els.length := by
  cases g with
  | sing P =>
    obtain ⟨_, _, s3⟩ := s
    refine ⟨?_, fun y hy => ?_⟩
    · show P.Nodup
      rw [List.Nodup, List.pairwise_iff_getElem]
      intro i j hi hj hij he
      have e1 := s3 i _ (List.getElem?_eq_getElem hi)
      have e2 := s3 j _ (List.getElem?_eq_getElem hj)
      rw [he, e2] at e1
      injection e1 with e1
      omega
    · obtain ⟨i, hi⟩ := List.getElem?_of_mem hy
      have hil : i < P.length := (List.getElem?_eq_some_iff.1 hi).1
      exact ⟨q + i, s3 i y hi, by omega, by show q + i < q + P.length; omega⟩
  | grp X =>
    obtain ⟨s1, _, s3, s4⟩ := s
    exact ⟨s3, fun y hy => ⟨_, s4 y hy, by omega, by show _ < q + X.length; omega⟩⟩

/-- As many elements as names. -/
theorem SegsW.flat {sa : List Int} : ∀ {gs : List Seg} {q : Nat}, SegsW w sa q gs → (gs.flatMap Seg.els).Nodup ∧ q + (gs.flatMap Seg.els).length = w.length ∧
    ∀ y, y ∈ gs.flatMap Seg.els → ∃ r, w[y]? = some r ∧ q ≤ r ∧ r < w.length
  | [], q, s => ⟨by simp, s, fun y hy => by simp at hy⟩
  | g :: gs, q, s => by
    obtain ⟨i1, i2, i3⟩ := s.2.flat
    obtain ⟨r1, r2⟩ := s.1.rank
    have hle := s.2.le
    rw [List.flatMap_cons]
    refine ⟨List.nodup_append.2 ⟨r1, i1, fun a ha b hb he => ?_⟩, by rw [List.length_append]; omega, fun y hy => ?_⟩
    · obtain ⟨r, k1, k2, k3⟩ := r2 a ha
      obtain ⟨r', k1', k2', k3'⟩ := i3 b hb
      rw [he, k1'] at k1
      injection k1 with k1
      omega
    · rcases List.mem_append.1 hy with hy | hy
      · obtain ⟨r, k1, k2, k3⟩ := r2 y hy
        exact ⟨r, k1, k2, by omega⟩
      · obtain ⟨r, k1, k2, k3⟩ := i3 y hy
        exact ⟨r, k1, by omega, k3⟩

theorem ch_of_get {y r : Nat} (hy : w[y]? = some r) : y < w.length ∧ ch w y = r := by
  have h1 := (List.getElem?_eq_some_iff.1 hy).1
  have h2 := ch_get h1
  rw [hy] at h2
  injection h2 with h2
  exact ⟨h1, h2.symm⟩

/-- As every suffix is in one of the segments, each has all of its names. -/
theorem SegsW.full {sa : List Int} : ∀ {gs : List Seg} {q : Nat}, SegsW w sa q gs → (∀ y, y < w.length → q ≤ ch w y → y ∈ gs.flatMap Seg.els) → SegsTo w w sa q gs w.length
  | [], q, s, _ => s
  | g :: gs, q, s, hall => by
    obtain ⟨r1, r2⟩ := s.1.rank
    obtain ⟨i1, i2, i3⟩ := s.2.flat
    have hle := s.2.le
    have hmem : ∀ y, y ∈ g.els ↔ y < w.length ∧ q ≤ ch w y ∧ ch w y < q + g.els.length := by
      intro y
      constructor
      · intro hy
        obtain ⟨r, k1, k2, k3⟩ := r2 y hy
        obtain ⟨k4, k5⟩ := ch_of_get k1
        omega
      · intro ⟨k1, k2, k3⟩
        have := hall y k1 k2
        rw [List.flatMap_cons, List.mem_append] at this
        rcases this with this | this
        · exact this
        · obtain ⟨r, m1, m2, m3⟩ := i3 y this
          have := (ch_of_get m1).2
          omega
    refine ⟨?_, s.2.full fun y k1 k2 => ?_⟩
    · cases g with
      | sing P =>
        obtain ⟨s1, s2, s3⟩ := s.1
        exact ⟨s1, s2, fun i y hi => (ch_of_get (s3 i y hi)).2, hmem⟩
      | grp X =>
        obtain ⟨s1, s2, s3, s4⟩ := s.1
        exact ⟨s1, s2, rfl, hle, s3, hmem, fun y hy => (ch_of_get (s4 y hy)).2⟩
    · have := hall y k1 (by omega)
      rw [List.flatMap_cons, List.mem_append] at this
      rcases this with this | this
      · have := (hmem y).1 this
        omega
      · exact this

/-- What `trsort` is given are segments. -/
theorem segs_of {sa : List Int} (hlen : w.length ≤ sa.length) (g : TrGroups w sa 0) : ∃ gs, SegsTo w w (sa.take w.length) 0 gs w.length ∧ ∀ y, y < w.length → ch w y < w.length := by
  obtain ⟨gs, hgs⟩ := segsW_of hlen g
  obtain ⟨i1, i2, i3⟩ := hgs.flat
  have hall : ∀ y, y < w.length → y ∈ gs.flatMap Seg.els := by
    intro y hy
    refine Classical.byContradiction fun hn => ?_
    have := List.Nodup.length_le_of_subset (l₁ := y :: gs.flatMap Seg.els) (l₂ := List.range w.length) (List.nodup_cons.2 ⟨hn, i1⟩) (fun z hz => by
      rcases List.mem_cons.1 hz with rfl | hz
      · exact List.mem_range.2 hy
      · obtain ⟨r, k1, _⟩ := i3 z hz
        exact List.mem_range.2 (ch_of_get k1).1)
    simp only [List.length_cons, List.length_range] at this
    omega
  refine ⟨gs, hgs.full fun y hy _ => hall y hy, fun y hy => ?_⟩
  obtain ⟨r, k1, k2, k3⟩ := i3 y (hall y hy)
  rw [(ch_of_get k1).2]
  exact k3

/-- The passes. -/
theorem trPasses_ok (U : LastUniq w) (hn : w.length < 2 ^ 32) (hpos : 0 < w.length) : ∀ {fuel h : Nat} {x : TrSt} {gs : List Seg}, 0 < h → 0 < fuel → w.length + 1 ≤ h + fuel → Ranks w h x.isa → x.sa.length = w.length →
    (∀ y, y < w.length → ch x.isa y < w.length) → SegsTo w x.isa x.sa 0 gs w.length →
    ((∃ v, 3329021 < w.count v) ∧ trPasses w.length fuel h x = .error .stack) ∨ ∃ x' h' P, trPasses w.length fuel h x = .ok x' ∧ x'.sa.length = w.length ∧ Ranks w h' x'.isa ∧ Sing w x'.isa 0 P ∧ P.length = w.length
  | 0, _, _, _, _, hf, _, _, _, _, _ => absurd hf (by omega)
  | fuel + 1, h, x, gs, h0, _, hfuel, R, hlen, hb, hgs => by
    unfold trPasses
    have pass : (∃ D P p, passLoop w.length h w.length 0 ⟨0, 0, x⟩ = .ok (w.length, p) ∧ ∃ b, b + P.length = w.length ∧ PInv w h b D P [] p) ∨ ((∃ v, 3329021 < w.count v) ∧ passLoop w.length h w.length 0 ⟨0, 0, x⟩ = .error .stack) := by
      have hne : gs ≠ [] := by
        intro hnil
        rw [hnil] at hgs
        have hgs : 0 = w.length := hgs
        omega
      have := passLoop_ok U hn h0 (fuel := w.length) (b := 0) (D := []) (gs := gs) (P := []) (p := ⟨0, 0, x⟩) (by have := hgs.le; omega) hne
        ⟨R, hlen, rfl, rfl, sing_nil _ _, hb, hgs, (fun _ hg => nomatch hg), Int.le_refl _, (fun _ _ hg => nomatch hg), fun _ => rfl⟩
      rcases this with h1 | ⟨p', b', D', P', h1, h2, h3⟩
      · exact .inr h1
      · exact .inl ⟨D', P', p', h1, b', h2, h3⟩
    have go : ∀ v, rd x.sa 0 = .ok v → -(w.length : Int) < v →
        ((∃ v, 3329021 < w.count v) ∧
        (do let v ← rd x.sa 0
            if -(w.length : Int) < v then
              let (first, p) ← passLoop w.length h w.length 0 ⟨0, 0, x⟩
              let sa ← putSkip first p.skip p.x.sa
              if p.unsorted = 0 then .ok { p.x with sa := sa } else trPasses w.length fuel (h + h) { p.x with sa := sa }
            else .ok x : C TrSt) = .error .stack) ∨
        ∃ x' h' P, (do let v ← rd x.sa 0
                       if -(w.length : Int) < v then
                         let (first, p) ← passLoop w.length h w.length 0 ⟨0, 0, x⟩
                         let sa ← putSkip first p.skip p.x.sa
                         if p.unsorted = 0 then .ok { p.x with sa := sa } else trPasses w.length fuel (h + h) { p.x with sa := sa }
                       else .ok x : C TrSt) = .ok x' ∧ x'.sa.length = w.length ∧ Ranks w h' x'.isa ∧ Sing w x'.isa 0 P ∧ P.length = w.length := by
      intro v hv hlt
      rw [hv]
      simp only [Bind.bind, Except.bind]
      rw [if_pos hlt]
      rcases pass with ⟨D, P, p, k1, b, k2, I⟩ | ⟨hf, k1⟩
      · rw [k1]
        simp only []
        obtain ⟨sa', m1, m2, m3, m4⟩ := pass_end I k2
        rw [m1]
        simp only []
        by_cases hu : p.unsorted = 0
        · rw [if_pos hu]
          obtain ⟨Q, q1, q2⟩ := m3.allSing (fun g hg => by
            rcases List.mem_append.1 hg with hg | hg
            · exact I.zero hu g hg
            · exact close_sing P g hg)
          exact .inr ⟨_, _, Q, rfl, m2, m4, q1, by omega⟩
        · rw [if_neg hu]
          have hlt : h < w.length := by
            by_cases hh : w.length ≤ h
            · exact absurd (I.big hh) hu
            · omega
          rw [show h + h = 2 * h by omega]
          exact trPasses_ok U hn hpos (by omega) (by omega) (by omega) m4 m2 I.bound m3
      · rw [k1]
        exact .inl ⟨hf, rfl⟩
    match gs, hgs with
    | [], hgs =>
      have hgs : 0 = w.length := hgs
      omega
    | .sing P :: gs, hgs =>
      obtain ⟨⟨s1, s2, s3⟩, s4⟩ := hgs
      have hle : 0 + P.length + gs.length ≤ w.length := s4.le
      by_cases hlt : -(w.length : Int) < -(P.length : Int)
      · exact go _ (rd_ok s2) hlt
      · rw [rd_ok s2]
        simp only [Bind.bind, Except.bind]
        rw [if_neg hlt]
        exact .inr ⟨x, h, P, rfl, hlen, R, s3, by omega⟩
    | .grp X :: gs, hgs =>
      obtain ⟨⟨s1, s2, s3⟩, s4⟩ := hgs
      obtain ⟨y, X0, hX⟩ : ∃ y X0, X = y :: X0 := by
        cases X with
        | nil => simp at s1
        | cons y X0 => exact ⟨y, X0, rfl⟩
      subst hX
      have hy := s2 0 (by simp)
      simp only [Nat.add_zero, List.map_cons, List.getElem?_cons_zero] at hy
      exact go _ (rd_ok hy) (by have : (0 : Int) ≤ Int.ofNat y := Int.natCast_nonneg y; omega)

theorem natsOf_map : ∀ l : List Nat, natsOf (l.map Int.ofNat) = .ok l
  | [] => rfl
  | v :: l => by
    rw [List.map_cons]
    unfold natsOf
    rw [show Int.ofNat v = (v : Int) from rfl, idx_nat]
    simp only [Bind.bind, Except.bind]
    rw [natsOf_map l]

/-- `trsort` turns the names into the numbers of suffixes that are less, unless its stack is full, for which one of
the names must occur more than 64 times. -/
theorem callTrsort_ok {sa : List Int} (G : TrGiven w sa) :
    ((∃ v, 3329021 < w.count v) ∧ callTrsort w.length sa = .error .stack) ∨ ∃ sa', callTrsort w.length sa = .ok sa' ∧ sa'.length = sa.length ∧
      (sa'.drop w.length).take w.length =
        (List.range w.length).map fun r => Int.ofNat ((List.range w.length).filter fun s => decide (w.drop s < w.drop r)).length := by
  obtain ⟨gs, g1, g2⟩ := segs_of (by have := G.length; omega) G.groups
  have hl := G.length
  unfold callTrsort trsort
  rw [G.names, natsOf_map]
  simp only [Bind.bind, Except.bind]
  rcases trPasses_ok (w := w) G.last (by omega) G.nonempty (fuel := w.length + 1) (h := 1) (x := ⟨sa.take w.length, w, ⟨trIlg w.length * 2 / 3, w.length, w.length, 0⟩⟩) (by omega) (by omega) (by omega)
    (ranks_names w) (by rw [List.length_take]; omega) g2 g1 with ⟨hf, h1⟩ | ⟨x', h', P, h1, h2, h3, h4, h5⟩
  · left
    rw [h1]
    exact ⟨hf, rfl⟩
  · right
    rw [h1]
    have hi : (x'.isa.map Int.ofNat).length = w.length := by rw [List.length_map, h3.len]
    refine ⟨_, rfl, ?_, ?_⟩
    · rw [List.length_append, List.length_append, hi, h2, List.length_drop]
      omega
    · rw [← h4.ranks h3 h5, List.drop_append_of_le_length (by omega), List.drop_of_length_le (by omega), List.nil_append, List.take_append_of_le_length (by omega), List.take_of_length_le (by omega)]

end Tr

end Dss
end Detools
