import Verif.Proofs.TrCopyDown
/-
trsort: `tr_copy` and `tr_partialcopy` sort the elements in the middle.
-/
namespace Detools
namespace Dss

namespace Tr
open Sais

theorem blk_of_pos {isa : List Nat} {f : Nat} {X : List Nat} (h : ∀ i y, X[i]? = some y → ch isa y = f + i) : Blk isa f X := by
  intro i s hs
  rw [h i s hs]
  refine ⟨by omega, fun j hij hj => ?_⟩
  rw [show j = i by omega]
  exact ⟨s, hs, h i s hs⟩

theorem Blk.keep {isa isa' : List Nat} {f : Nat} {X : List Nat} (B : Blk isa f X) (h : ∀ y, y ∈ X → ch isa' y = ch isa y) : Blk isa' f X := by
  intro i s hs
  rw [h s (List.mem_of_getElem? hs)]
  refine ⟨(B i s hs).1, fun j hij hj => ?_⟩
  obtain ⟨s', h1, h2⟩ := (B i s hs).2 j hij hj
  exact ⟨s', h1, by rw [h s' (List.mem_of_getElem? h1)]; exact h2⟩

/-- Two orders that go together. -/
theorem order_next {r : Nat → Nat} {D : Nat} {l : List Nat} (h1 : l.Pairwise fun x y => r x ≤ r y) (h2 : l.Pairwise fun x y => r (x + D) ≤ r (y + D))
    (h3 : ∀ x y, x ∈ l → y ∈ l → r (x + D) = r (y + D) → r x = r y) : ∀ x y, x ∈ l → y ∈ l → r x < r y → r (x + D) < r (y + D) := by
  intro x y hx hy hlt
  obtain ⟨i, hi⟩ := List.getElem?_of_mem hx
  obtain ⟨j, hj⟩ := List.getElem?_of_mem hy
  obtain ⟨i1, i2⟩ := List.getElem?_eq_some_iff.1 hi
  obtain ⟨j1, j2⟩ := List.getElem?_eq_some_iff.1 hj
  rw [List.pairwise_iff_getElem] at h1 h2
  have hij : i < j := by
    rcases Nat.lt_trichotomy i j with h | h | h
    · exact h
    · subst h
      rw [← i2, ← j2] at hlt
      omega
    · have := h1 j i j1 i1 h
      rw [i2, j2] at this
      omega
  have h4 := h2 i j i1 j1 hij
  rw [i2, j2] at h4
  rcases Nat.lt_or_eq_of_le h4 with h | h
  · exact h
  · have := h3 x y hx hy h
    omega

theorem pairwise_map_sub {r : Nat → Nat} {D : Nat} {l Z : List Nat} (hs : List.Sublist (l.map (· + D)) Z) (h : Z.Pairwise fun x y => r x ≤ r y) : l.Pairwise fun x y => r (x + D) ≤ r (y + D) := by
  have := h.sublist hs
  rw [List.pairwise_map] at this
  exact this

variable {n : Nat} {isa0 : List Nat} {sa0 : List Int} {f a b l D : Nat} {L M G : List Nat} {part : Bool}

/-- What holds when the elements of `S` are in place with their ranks. -/
structure Low (n : Nat) (isa0 isa2 : List Nat) (sa0 sa2 : List Int) (f a b D : Nat) (L M G S : List Nat) (part : Bool) : Prop where
  mid : Mid n isa0 isa2 sa2 a b D L M G S
  upd : Upd sa0 sa2 a b
  arr : At sa2 f ((L ++ S.reverse).map Int.ofNat)
  blk : Blk isa2 f (L ++ S.reverse)
  ord : ∀ x y, x ∈ S → y ∈ S → ch isa2 x < ch isa2 y → ch isa2 (x + D) < ch isa2 (y + D)
  inj : part = false → ∀ i y, (L ++ S.reverse)[i]? = some y → ch isa2 y = f + i

theorem Cp.start (K : Cp n isa0 sa0 f a b l D L M G part) : Up n isa0 sa0 f a b D L M part 0 [] ⟨sa0, isa0, none, 0⟩ := by
  refine ⟨(fun y hy => by cases hy), .nil, by simp, by simpa using K.atL, .refl _ _ _, K.len, fun _ _ => rfl, trivial, ?_, fun _ => ?_⟩
  · intro hp i y hi
    exact (K.inj hp).1 i y (by simpa using hi)
  · rfl

/-- The ranks of the first loop. -/
theorem Up.mono (K : Cp n isa0 sa0 f a b l D L M G part) {k : Nat} {S : List Nat} {s : CopySt} (u : Up n isa0 sa0 f a b D L M part k S s) : (L ++ S.reverse).Pairwise fun x y => ch s.isa x ≤ ch s.isa y := by
  have hLS : ∀ y, y ∈ L → ch s.isa y = ch isa0 y := fun y hy => u.out y fun h => K.disjoint.1 y hy (u.sub y h)
  rw [List.pairwise_append]
  refine ⟨?_, ?_, ?_⟩
  · exact (K.blkL.keep hLS).mono
  · rw [List.pairwise_reverse]
    exact u.grp.up
  · intro x hx y hy
    obtain ⟨i, _, h2⟩ := u.grp.val y (List.mem_reverse.1 hy)
    rw [h2, hLS x hx]
    have := (K.rL x hx).2
    omega

theorem Up.next (K : Cp n isa0 sa0 f a b l D L M G part) {k : Nat} {S : List Nat} {s : CopySt} (u : Up n isa0 sa0 f a b D L M part k S s) {r : Nat → Nat} (hm : (L ++ S.reverse).Pairwise fun x y => r x ≤ r y) : S.reverse.Pairwise fun x y => r (x + D) ≤ r (y + D) := by
  refine pairwise_map_sub (Z := L ++ S.reverse) ?_ hm
  rw [u.scan]
  exact (List.filter_sublist).trans (List.take_sublist _ _)

theorem Up.iff (K : Cp n isa0 sa0 f a b l D L M G part) {k : Nat} {S : List Nat} {s : CopySt} (u : Up n isa0 sa0 f a b D L M part k S s) (x y : Nat) (hx : x ∈ S) (hy : y ∈ S) : ch s.isa x = ch s.isa y ↔ ch s.isa (x + D) = ch s.isa (y + D) := by
  refine Grp.iff (N := S.length) (fun i j _ _ h => ?_) (Nat.le_refl _) u.grp (.inl ?_) x y hx hy
  · omega
  · have := u.next K (u.mono K)
    rw [List.pairwise_reverse] at this
    exact this

theorem Up.mid (K : Cp n isa0 sa0 f a b l D L M G part) {S : List Nat} {s : CopySt} (u : Up n isa0 sa0 f a b D L M part (L.length + S.length) S s) {isa2 : List Nat} (hlen : isa2.length = n)
    (hout : ∀ y, y ∉ S → ch isa2 y = ch isa0 y) (hr : ∀ y, y ∈ S → a ≤ ch isa2 y ∧ ch isa2 y < a + S.length) : Mid n isa0 isa2 s.sa a b D L M G S := by
  have h1 := K.hM
  have hall : (L ++ S.reverse).take (L.length + S.length) = L ++ S.reverse := List.take_of_length_le (by simp)
  refine ⟨u.sub, u.nodup, ?_, ?_, hlen, u.upd.1.trans K.salen, u.upd.at K.atG (.inr (Nat.le_refl _)), hout, hr⟩
  · intro y hy
    have := u.seen hy
    rw [hall] at this
    rcases List.mem_append.1 this with h | h
    · exact .inl h
    · exact .inr (List.mem_reverse.1 h)
  · intro z hz hD hM
    have hzm : z ∈ L ++ S.reverse := by
      rcases hz with h | h
      · exact List.mem_append_left _ h
      · exact List.mem_append_right _ (List.mem_reverse.2 h)
    have : z ∈ ((L ++ S.reverse).take (L.length + S.length)).filter (pM M D) := by
      rw [hall]
      exact List.mem_filter.2 ⟨hzm, decide_eq_true ⟨hD, hM⟩⟩
    rw [← u.scan] at this
    obtain ⟨y, g1, g2⟩ := List.mem_map.1 this
    rw [show z - D = y by omega]
    exact List.mem_reverse.1 g1

theorem low_copy (K : Cp n isa0 sa0 f a b l D L M G false) {S : List Nat} {s : CopySt} (u : Up n isa0 sa0 f a b D L M false (L.length + S.length) S s) : Low n isa0 s.isa sa0 s.sa f a b D L M G S false := by
  have hmono := u.mono K
  refine ⟨u.mid K u.len u.out ?_, u.upd, u.arr, blk_of_pos (u.inj rfl), ?_, u.inj⟩
  · intro y hy
    obtain ⟨i, h1, h2⟩ := u.grp.val y hy
    rw [h2]
    omega
  · intro x y hx hy
    refine order_next (l := S.reverse) ?_ (u.next K hmono) (fun x y hx hy h => (u.iff K x y (List.mem_reverse.1 hx) (List.mem_reverse.1 hy)).2 h) x y (List.mem_reverse.2 hx) (List.mem_reverse.2 hy)
    rw [List.pairwise_append] at hmono
    exact hmono.2.1

theorem low_partial (K : Cp n isa0 sa0 f a b l D L M G true) {S : List Nat} {s : CopySt} (u : Up n isa0 sa0 f a b D L M true (L.length + S.length) S s) :
    ∃ s', copyFix f (a + S.length - f) { s with lastrank := none } = .ok s' ∧ Low n isa0 s'.isa sa0 s'.sa f a b D L M G S true := by
  have hmono := u.mono K
  have hLa := K.hL
  have hzl : (L ++ S.reverse).length = L.length + S.length := by simp
  obtain ⟨s', g1, g2, g3, g4, g5⟩ := copyFix_ok (n := n) (f := f) (isa1 := s.isa) (L ++ S.reverse) (u.nodupZ K) (fun y hy => u.ltZ K hy) u.len (e := a + S.length) (by omega) (a + S.length - f) (L ++ S.reverse) [] { s with lastrank := none }
    (by simp) (by omega) u.arr u.len (fun _ _ => rfl) trivial (fun _ => rfl) (fun _ h => by cases h)
  refine ⟨s', g1, ?_⟩
  have hblk : Blk s'.isa f (L ++ S.reverse) := by
    have := g5.blk (by omega)
    rw [show a + S.length - (L ++ S.reverse).length = f by omega] at this
    exact this
  have hLS : ∀ y, y ∈ L → ch s.isa y = ch isa0 y := fun y hy => u.out y fun h => K.disjoint.1 y hy (u.sub y h)
  have hL : ∀ y, y ∈ L → ch s'.isa y = ch isa0 y := by
    refine Grp.same (κ := ch s.isa) (r := ch s'.isa) (Q := S.reverse) (f := f) (e := a + S.length) (by simp; omega) K.blkL (fun y hy => ⟨by have := (K.rL y hy).2; omega, hLS y hy⟩) ?_ g5
    intro y hy
    obtain ⟨i, _, h2⟩ := u.grp.val y (List.mem_reverse.1 hy)
    rw [h2]
    omega
  have hiff : ∀ x y, x ∈ L ++ S.reverse → y ∈ L ++ S.reverse → (ch s'.isa x = ch s'.isa y ↔ ch s.isa x = ch s.isa y) := by
    refine Grp.iff (N := (L ++ S.reverse).length) (fun i j hi hj h => ?_) (Nat.le_refl _) g5 (.inr hmono)
    omega
  have hout : ∀ y, y ∉ S → ch s'.isa y = ch isa0 y := by
    intro y hy
    by_cases hyL : y ∈ L
    · exact hL y hyL
    · rw [g4 y (fun h => (List.mem_append.1 h).elim hyL (fun h => hy (List.mem_reverse.1 h)))]
      exact u.out y hy
  have hmono' := hblk.mono
  have hmid : Mid n isa0 s'.isa s.sa a b D L M G S := by
    refine u.mid K g3 hout fun y hy => ?_
    have hyZ : y ∈ L ++ S.reverse := List.mem_append_right _ (List.mem_reverse.2 hy)
    obtain ⟨i, h1, h2⟩ := g5.val y hyZ
    obtain ⟨j, hj⟩ := List.getElem?_of_mem (List.mem_reverse.2 hy)
    have := (hblk (L.length + j) y (by rw [List.getElem?_append_right (by omega), Nat.add_sub_cancel_left]; exact hj)).1
    omega
  refine ⟨by rw [g2]; exact hmid, by rw [g2]; exact u.upd, by rw [g2]; exact u.arr, hblk, ?_, fun h => by cases h⟩
  intro x y hx hy
  refine order_next (r := ch s'.isa) (l := S.reverse) ?_ (u.next K hmono') (fun x y hx hy h => ?_) x y (List.mem_reverse.2 hx) (List.mem_reverse.2 hy)
  · rw [List.pairwise_append] at hmono'
    exact hmono'.2.1
  · have mem : ∀ x, x ∈ S.reverse → x ∈ L ++ S.reverse ∧ x + D ∈ L ++ S.reverse := by
      intro x hx
      refine ⟨List.mem_append_right _ hx, ?_⟩
      rcases hmid.seen x (List.mem_reverse.1 hx) with h | h
      · exact List.mem_append_left _ h
      · exact List.mem_append_right _ (List.mem_reverse.2 h)
    have h1 := (hiff _ _ (mem x hx).2 (mem y hy).2).1 h
    have h2 := (u.iff K x y (List.mem_reverse.1 hx) (List.mem_reverse.1 hy)).2 h1
    exact (hiff _ _ (mem x hx).1 (mem y hy).1).2 h2

/-- What a copy leaves. -/
structure Copied (w : List Nat) (h : Nat) (isa0 isa : List Nat) (sa0 sa : List Int) (f a b : Nat) (L M G : List Nat) (part : Bool) : Prop where
  ranks : Ranks w h isa
  upd : Upd sa0 sa a b
  out : ∀ y, y ∉ M → ch isa y = ch isa0 y
  rM : ∀ y, y ∈ M → a ≤ ch isa y ∧ ch isa y < b
  res : ∃ X' : List Nat, X'.Perm (L ++ (M ++ G)) ∧ At sa f (X'.map Int.ofNat) ∧ Blk isa f X' ∧ (part = false → ∀ i y, X'[i]? = some y → ch isa y = f + i)

theorem copied {w : List Nat} {h : Nat} (R : Ranks w h isa0) (K : Cp w.length isa0 sa0 f a b l D L M G part) (hag : ∀ y y', y ∈ M → y' ∈ M → Ag w D y y') {isa2 : List Nat} {sa2 : List Int} {S : List Nat}
    (lo : Low w.length isa0 isa2 sa0 sa2 f a b D L M G S part) (s : CopySt) (hs : s.sa = sa2 ∧ s.isa = isa2 ∧ (part = true → s.lastrank = none)) :
    ∃ s', copyDown part D (b - 1) (a + S.length) l b s = .ok s' ∧ Copied w h isa0 s'.isa sa0 s'.sa f a b L M G part := by
  obtain ⟨hs1, hs2, hs3⟩ := hs
  have hMb := K.hM
  have hGl := K.hG
  have hLa := K.hL
  have m := lo.mid
  have u0 : Dn w.length isa2 sa2 a b D M G S part l [] s := by
    refine ⟨(fun y hy => by cases hy), .nil, (fun y hy => by cases hy), ?_, ?_, ?_, ?_, ?_, trivial, ?_, hs3⟩
    · rw [List.nil_append, List.length_nil, Nat.sub_zero, List.drop_eq_nil_iff.2 (by omega)]
      rfl
    · rw [hs1]
      simpa using m.atG
    · rw [hs1]
      exact .refl _ _ _
    · rw [hs2]
      exact m.len
    · intro y _
      rw [hs2]
    · intro hp i y hi
      rw [List.nil_append] at hi
      rw [hs2, m.out y (fun hS => K.disjoint.2.2.1 y (m.sub y hS) (List.mem_of_getElem? hi))]
      exact (K.inj hp).2 i y hi
  obtain ⟨T, s', c', e1, u, hST⟩ := copyDown_ok K m l [] s u0 (Nat.le_refl _)
  refine ⟨s', e1, ?_⟩
  have hbT : b - T.length = a + S.length := by omega
  -- all of it
  have hperm : (S ++ T).Perm M := by
    have hnd : (S ++ T).Nodup := by
      rw [List.nodup_append]
      exact ⟨m.nodup, u.nodup, fun y hy y' hy' he => u.disj y' hy' (he ▸ hy)⟩
    have hsub : S ++ T ⊆ M := fun y hy => by
      rcases List.mem_append.1 hy with hy | hy
      · exact m.sub y hy
      · exact u.sub y hy
    refine (List.perm_ext_iff_of_nodup hnd K.disjoint.2.2.2.2.1).2 fun y => ⟨fun h => hsub h, fun hy => ?_⟩
    refine Classical.byContradiction fun hn => ?_
    have := List.Nodup.length_le_of_subset (l₁ := y :: (S ++ T)) (l₂ := M) (List.nodup_cons.2 ⟨hn, hnd⟩) (fun z hz => by
      rcases List.mem_cons.1 hz with rfl | hz
      · exact hy
      · exact hsub hz)
    simp at this
    omega
  have memM : ∀ y, y ∈ M → y ∈ S ∨ y ∈ T := fun y hy => List.mem_append.1 (hperm.mem_iff.2 hy)
  -- the ranks
  have rT : ∀ y, y ∈ T → a + S.length ≤ ch s'.isa y ∧ ch s'.isa y < b := by
    intro y hy
    obtain ⟨i, h1, h2⟩ := u.grp.val y hy
    omega
  have rS : ∀ y, y ∈ S → ch s'.isa y = ch isa2 y := fun y hy => u.out y fun h => u.disj y h hy
  have rL : ∀ y, y ∈ L → ch s'.isa y = ch isa2 y := fun y hy => u.out y fun h => K.disjoint.1 y hy (u.sub y h)
  have hout : ∀ y, y ∉ M → ch s'.isa y = ch isa0 y := fun y hy => (u.out y fun h => hy (u.sub y h)).trans (m.out y fun h => hy (m.sub y h))
  have rG : ∀ y, y ∈ G → ch s'.isa y = ch isa0 y := fun y hy => hout y fun h => K.disjoint.2.2.1 y h hy
  have rM : ∀ y, y ∈ M → a ≤ ch s'.isa y ∧ ch s'.isa y < b := by
    intro y hy
    rcases memM y hy with h | h
    · rw [rS y h]
      have := m.rS y h
      omega
    · have := rT y h
      omega
  have rLow : ∀ y, y ∈ L ∨ y ∈ S → ch s'.isa y < a + S.length := by
    intro y hy
    rcases hy with h | h
    · rw [hout y (K.disjoint.1 y h)]
      have := (K.rL y h).2
      omega
    · rw [rS y h]
      exact (m.rS y h).2
  have rHigh : ∀ y, y ∈ T ∨ y ∈ G → a + S.length ≤ ch s'.isa y := by
    intro y hy
    rcases hy with h | h
    · exact (rT y h).1
    · rw [rG y h]
      have := (K.rG y h).1
      omega
  have hZ : Blk s'.isa f (L ++ S.reverse) := lo.blk.keep fun y hy => by
    rcases List.mem_append.1 hy with h | h
    · exact rL y h
    · exact rS y (List.mem_reverse.1 h)
  have hY : Blk s'.isa (a + S.length) (T ++ G) := by
    have h1 := u.grp.blk (by omega)
    rw [hbT] at h1
    have hab : a + S.length + T.length = b := by omega
    refine h1.append ?_ ?_
    · rw [hab]
      exact K.blkG.keep rG
    · intro y hy
      rw [hab]
      exact (rT y hy).2
  have seenT : ∀ y, y ∈ T → y + D ∈ T ∨ y + D ∈ G := fun y hy => List.mem_append.1 (List.mem_of_mem_drop (u.seen hy))
  have nextT : T.Pairwise fun x y => ch s'.isa (x + D) ≤ ch s'.isa (y + D) := by
    refine pairwise_map_sub (Z := T ++ G) ?_ hY.mono
    rw [u.scan]
    exact (List.filter_sublist).trans (List.drop_sublist _ _)
  have ordT : ∀ x y, x ∈ T → y ∈ T → ch s'.isa x < ch s'.isa y → ch s'.isa (x + D) < ch s'.isa (y + D) := by
    refine order_next ?_ nextT fun x y hx hy h => ?_
    · have := hY.mono
      rw [List.pairwise_append] at this
      exact this.1
    · refine (Grp.iff (N := T.length) (fun i j hi hj h => ?_) (Nat.le_refl _) u.grp (.inr nextT) x y hx hy).2 h
      omega
  have ord : ∀ x y, x ∈ M → y ∈ M → ch s'.isa x < ch s'.isa y → ch s'.isa (x + D) < ch s'.isa (y + D) := by
    intro x y hx hy hlt
    rcases memM x hx with hx' | hx'
    · rcases memM y hy with hy' | hy'
      · rw [rS x hx', rS y hy'] at hlt
        have key : ∀ x, x ∈ S → ch s'.isa (x + D) = ch isa2 (x + D) := by
          intro x hx
          rcases m.seen x hx with h | h
          · exact rL _ h
          · exact rS _ h
        rw [key x hx', key y hy']
        exact lo.ord x y hx' hy' hlt
      · exact Nat.lt_of_lt_of_le (rLow _ (m.seen x hx')) (rHigh _ (seenT y hy'))
    · rcases memM y hy with hy' | hy'
      · have h1 := rLow y (.inr hy')
        have h2 := (rT x hx').1
        omega
      · exact ordT x y hx' hy' hlt
  have ltM : ∀ y, y ∈ M → y < w.length := fun y hy => K.lt y (.inr (.inl hy))
  have ltN : ∀ y, y ∈ M → y + D < w.length := fun y hy => K.lt _ (K.next y hy)
  have lex : ∀ (k x y : Nat), x ∈ M → y ∈ M → w.length ≤ x + k → ch s'.isa x < ch s'.isa y → Lex (w.drop x) (w.drop y) := by
    intro k
    induction k with
    | zero =>
      intro x y hx hy hk
      have := ltM x hx
      omega
    | succ k ih =>
      intro x y hx hy hk hlt
      have hpos := K.pos
      refine (hag x y hx hy).lex ?_
      have h1 := ord x y hx hy hlt
      by_cases hx' : x + D ∈ M
      · by_cases hy' : y + D ∈ M
        · exact ih _ _ hx' hy' (by omega) h1
        · refine R.mono _ _ (ltN x hx) (ltN y hy) ?_
          have h2 := rM _ hx'
          rw [hout _ hy'] at h1
          have h3 := mt (K.cls _ (ltN y hy)).2 hy'
          rw [K.rM _ hx']
          omega
      · by_cases hy' : y + D ∈ M
        · refine R.mono _ _ (ltN x hx) (ltN y hy) ?_
          have h2 := rM _ hy'
          rw [hout _ hx'] at h1
          have h3 := mt (K.cls _ (ltN x hx)).2 hx'
          rw [K.rM _ hy']
          omega
        · rw [hout _ hx', hout _ hy'] at h1
          exact R.mono _ _ (ltN x hx) (ltN y hy) h1
  refine ⟨?_, ?_, hout, rM, (L ++ S.reverse) ++ (T ++ G), ?_, ?_, ?_, ?_⟩
  · refine R.refine (f := a) (l := b) u.len ?_ ?_ ?_
    · intro y hy hr
      refine hout y fun h => ?_
      have := (K.cls y hy).1 h
      omega
    · intro y hy h1 h2
      have h3 := (K.cls y hy).2 ⟨h1, h2⟩
      exact ⟨K.rM y h3, rM y h3⟩
    · intro y y' hy hy' h1 h2 h3 h4 hlt
      exact lex w.length y y' ((K.cls y hy).2 ⟨h1, h2⟩) ((K.cls y' hy').2 ⟨h3, h4⟩) (by omega) hlt
  · exact lo.upd.trans (u.upd.mono (by omega) (Nat.le_refl _))
  · rw [List.append_assoc]
    refine List.Perm.append_left _ ?_
    rw [← List.append_assoc]
    exact List.Perm.append_right _ (((List.reverse_perm S).append_right T).trans hperm)
  · rw [List.map_append, at_append]
    have hl2 : f + ((L ++ S.reverse).map Int.ofNat).length = a + S.length := by simp; omega
    rw [hl2]
    refine ⟨u.upd.at lo.arr (.inl (by omega)), ?_⟩
    rw [← hbT]
    exact u.arr
  · have hl2 : f + (L ++ S.reverse).length = a + S.length := by simp; omega
    refine hZ.append (by rw [hl2]; exact hY) fun y hy => ?_
    rw [hl2]
    rcases List.mem_append.1 hy with h | h
    · exact rLow y (.inl h)
    · exact rLow y (.inr (List.mem_reverse.1 h))
  · intro hp i y hi
    have hl2 : f + (L ++ S.reverse).length = a + S.length := by simp; omega
    by_cases hl : i < (L ++ S.reverse).length
    · rw [List.getElem?_append_left hl] at hi
      rw [← lo.inj hp i y hi]
      rcases List.mem_append.1 (List.mem_of_getElem? hi) with h | h
      · exact rL y h
      · exact rS y (List.mem_reverse.1 h)
    · rw [List.getElem?_append_right (by omega)] at hi
      have := u.inj hp _ y hi
      rw [this]
      omega

theorem trCopy_ok {w : List Nat} {h : Nat} {x : TrSt} (R : Ranks w h x.isa) (K : Cp w.length x.isa x.sa f a b l D L M G false) (hag : ∀ y y', y ∈ M → y' ∈ M → Ag w D y y') :
    ∃ isa sa, trCopy f a b l D x = .ok { x with sa := sa, isa := isa } ∧ Copied w h x.isa isa x.sa sa f a b L M G false := by
  have h1 := K.hL
  have h2 := K.hM
  have h3 := K.hG
  obtain ⟨S, s, e1, u⟩ := copyUp_ok K (l - f + 1) 0 [] _ K.start (by omega) (by omega)
  obtain ⟨s', e2, c⟩ := copied R K hag (low_copy K u) s ⟨rfl, rfl, fun h => by cases h⟩
  refine ⟨_, _, ?_, c⟩
  simp only [Nat.add_zero, List.length_nil] at e1
  unfold trCopy
  simp only [Bind.bind, Except.bind]
  rw [e1]
  simp only []
  rw [e2]

theorem trPartialcopy_ok {w : List Nat} {h : Nat} {x : TrSt} (R : Ranks w h x.isa) (K : Cp w.length x.isa x.sa f a b l D L M G true) (hag : ∀ y y', y ∈ M → y' ∈ M → Ag w D y y') :
    ∃ isa sa, trPartialcopy f a b l D x = .ok { x with sa := sa, isa := isa } ∧ Copied w h x.isa isa x.sa sa f a b L M G true := by
  have h1 := K.hL
  have h2 := K.hM
  have h3 := K.hG
  obtain ⟨S, s, e1, u⟩ := copyUp_ok K (l - f + 1) 0 [] _ K.start (by omega) (by omega)
  obtain ⟨s1, e2, lo⟩ := low_partial K u
  obtain ⟨s', e3, c⟩ := copied R K hag lo { s1 with lastrank := none } ⟨rfl, rfl, fun _ => rfl⟩
  refine ⟨_, _, ?_, c⟩
  simp only [Nat.add_zero, List.length_nil] at e1
  unfold trPartialcopy
  simp only [Bind.bind, Except.bind]
  rw [e1]
  simp only []
  rw [e2]
  simp only []
  rw [e3]

end Tr

end Dss
end Detools
