import Verif.Proofs.TrStep
/-
trsort: the steps for a range to be sorted by insertion or as a heap, and for a sorted range.
-/
namespace Detools
namespace Dss

namespace Tr
open Sais

variable {w : List Nat} {h : Nat}

theorem lgTable_ge (i : Nat) : -1 ≤ lgTable i := by
  unfold lgTable
  split <;> omega

theorem trIlg_nonneg {n : Nat} (h0 : 0 < n) (hn : n < 2 ^ 32) : 0 ≤ trIlg n := by
  unfold trIlg
  by_cases h1 : n &&& 0xffff0000 ≠ 0
  · rw [if_pos h1]
    split
    · have := lgTable_ge ((n >>> 24) &&& 0xff)
      omega
    · have := lgTable_ge ((n >>> 16) &&& 0xff)
      omega
  · rw [if_neg h1]
    by_cases h2 : n &&& 0xff00 ≠ 0
    · rw [if_pos h2]
      have := lgTable_ge ((n >>> 8) &&& 0xff)
      omega
    · rw [if_neg h2]
      unfold lgTable
      by_cases h3 : n &&& 0xff = 0
      · exfalso
        have h4 : n &&& (0xffff0000 ||| (0xff00 ||| 0xff)) = 0 := by
          rw [Nat.and_or_distrib_left, Nat.and_or_distrib_left, h3]
          simp only [ne_eq, Decidable.not_not] at h1 h2
          rw [h1, h2]
          rfl
        have h5 : (0xffff0000 ||| (0xff00 ||| 0xff) : Nat) = 2 ^ 32 - 1 := by decide
        rw [h5, Nat.and_two_pow_sub_one_eq_mod, Nat.mod_eq_of_lt hn] at h4
        omega
      · rw [if_neg h3]
        omega

/-- What is to be shown. -/
def Goal (w : List Nat) (h : Nat) (t : Task) (s : TrStack) (x : TrSt) : Prop :=
  ∃ k, k + 8 ≤ cost w t ∧ ((64 < s.length + need h t ∧ ∀ fuel, trLoop h (k + fuel) (some t.f) s x = .error .stack) ∨
    ∃ x' fl, (∀ fuel, trLoop h (k + fuel) (some t.f) s x = trLoop h fuel none (mk fl t.f.trlink s) x') ∧ Did w h [t] x x' fl)

theorem other_mem {X : List Nat} (hn : X.Nodup) (h2 : 2 ≤ X.length) {y : Nat} : ∃ y', y' ∈ X ∧ y' ≠ y := by
  match X, hn, h2 with
  | a :: b :: X, hn, _ =>
    rw [List.nodup_cons] at hn
    by_cases hy : y = a
    · exact ⟨b, by simp, fun hb => hn.1 (by rw [← hy, ← hb]; simp)⟩
    · exact ⟨a, by simp, fun ha => hy ha.symm⟩

/-- Names that agree can be read. -/
theorem rd_of_ag (U : LastUniq w) {X : List Nat} {d : Nat} (hn : X.Nodup) (h2 : 2 ≤ X.length) (hX : ∀ y, y ∈ X → y < w.length)
    (ha : ∀ s s', s ∈ X → s' ∈ X → Ag w d s s') : Rd w.length d X := by
  intro y hy
  obtain ⟨y', h1, h3⟩ := other_mem hn h2 (y := y)
  exact (ha y y' hy h1).fit U (hX y hy) (hX y' h1) (Ne.symm h3)

theorem Todo.rd (U : LastUniq w) {isa : List Nat} {sa : List Int} {t : Task} (T : Todo w h isa sa t) : Rd w.length t.f.d t.X :=
  rd_of_ag U T.cls.nodup T.size (fun _ hy => T.cls.lt hy) T.ag

theorem Todo.depth (U : LastUniq w) {isa : List Nat} {sa : List Int} {t : Task} (T : Todo w h isa sa t) : t.f.d < w.length := by
  have := T.size
  match hX : t.X with
  | [] => rw [hX] at this; simp at this
  | y :: _ =>
    have := T.rd U y (by rw [hX]; simp)
    omega

theorem Todo.cost_ge (U : LastUniq w) {isa : List Nat} {sa : List Int} {t : Task} (T : Todo w h isa sa t) : 16 ≤ cost w t := by
  have := T.size
  have := T.depth U
  unfold cost
  have := Nat.mul_le_mul (show 2 ≤ t.X.length by omega) (show 1 ≤ w.length + 1 - t.f.d by omega)
  omega

/-- A range is given another form. -/
theorem Did.retask {t t' : Task} {x x1 x' : TrSt} {fl : Bool} (D : Did w h [t'] x1 x' fl) (h1 : t'.f.first = t.f.first) (h2 : t'.f.last = t.f.last) (hp : t'.X.Perm t.X)
    (hi : x1.isa = x.isa) (hu : Upd x.sa x1.sa t.f.first t.f.last) (hc : x1.bud.count = x.bud.count) : Did w h [t] x x' fl := by
  refine ⟨D.ranks, fun u hu => ?_, fun y hy ho => ?_, D.len.trans hu.1, fun p hp => ?_, fun hf => by rw [D.same hf, hc], fun hf => by have := D.more hf; omega⟩
  · rw [List.mem_singleton.1 hu, ← h1, ← h2]
    exact (D.res t' (List.mem_singleton.2 rfl)).perm hp
  · rw [D.out y hy, hi]
    intro u hu
    rw [List.mem_singleton.1 hu, h1, h2, hi]
    exact ho t (List.mem_singleton.2 rfl)
  · have := hp t (List.mem_singleton.2 rfl)
    rw [D.sa p, hu.2 p this]
    intro u hu
    rw [List.mem_singleton.1 hu, h1, h2]
    exact this

theorem toSorted (U : LastUniq w) {t : Task} {s : TrStack} {x : TrSt} {out : List Nat} {sa : List Int} (R : Ranks w h x.isa) (hlen : x.sa.length = w.length) (T : Todo w h x.isa x.sa t)
    (hl : LinkOk t.f.trlink s) (h0 : 0 ≤ t.f.limit) (hp : out.Perm t.X) (hs : SrtC x.isa t.f.d out) (hat : At sa t.f.first (tm (kc x.isa t.f.d) none out)) (hu : Upd x.sa sa t.f.first t.f.last)
    (hstep : trStep h t.f s x = .ok ⟨some { t.f with limit := -3 }, s, { x with sa := sa }⟩)
    (W : Works w h ⟨{ t.f with limit := -3 }, out, out.length⟩) : Goal w h t s x := by
  have hc := T.cost_ge U
  refine works_of_step (ts := [⟨{ t.f with limit := -3 }, out, out.length⟩]) (fl0 := false) (x1 := { x with sa := sa }) (.inr hstep) R (hu.1.trans hlen) ?_ (List.pairwise_singleton _ _) hl ?_ (by omega) (by
      have h1 := hp.length_eq
      have h2 := lg3_two T.size
      have h3 := room_le T.size (Nat.le_refl _)
      have h4 : need h ⟨{ t.f with limit := -3 }, out, out.length⟩ = room out.length out.length := rfl
      rw [need_plain h0]
      simp only [needs, List.length_nil]
      rw [h4, h1]
      omega) ?_
  · intro t' ht
    rw [List.mem_singleton.1 ht]
    refine ⟨⟨T.cls.perm hp, by show 2 ≤ out.length; rw [hp.length_eq]; exact T.size, fun a b ha hb => T.ag a b (hp.mem_iff.1 ha) (hp.mem_iff.1 hb), T.deep, .inr rfl, fun hh => (by cases hh), ?_⟩, W, rfl⟩
    unfold Holds
    rw [if_pos rfl]
    refine ⟨kc x.isa t.f.d, hat, hs, fun a b ha hb => ?_, out, rfl, fun _ h => h, fun a b ha hb hk hm => ?_⟩
    rotate_left
    · have h1 : ch x.isa (b + t.f.d) = t.f.last - 1 := T.cls.cls _ (hp.mem_iff.1 hm)
      refine hp.mem_iff.2 ((T.cls.mem _).2 ⟨T.rd U a (hp.mem_iff.1 ha), ?_⟩)
      show t.f.first ≤ ch x.isa (a + t.f.d) ∧ ch x.isa (a + t.f.d) < t.f.last
      have hk : ch x.isa (a + t.f.d) = ch x.isa (b + t.f.d) := hk
      have := T.cls.len
      have := T.size
      omega
    have ha' := T.rd U a (hp.mem_iff.1 ha)
    have hb' := T.rd U b (hp.mem_iff.1 hb)
    have hab := T.ag a b (hp.mem_iff.1 ha) (hp.mem_iff.1 hb)
    exact ⟨fun hk => R.key_lt ha' hb' hab hk, fun hk => R.key_eq ha' hb' hab hk⟩
  · simp only [costs, cost, phase] at hc ⊢
    rw [hp.length_eq, if_neg (show t.f.limit ≠ -3 by omega), if_neg (show t.f.limit ≠ -1 by omega)]
    simp only [if_true]
    rw [if_neg (show t.f.limit ≠ -3 by omega), if_neg (show t.f.limit ≠ -1 by omega)] at hc
    omega
  · intro x' fl D
    rw [Bool.or_false]
    exact D.retask rfl rfl hp rfl hu rfl

theorem Todo.arr {isa : List Nat} {t : Task} {x : TrSt} (hlen : x.sa.length = w.length) (T : Todo w h isa x.sa t) (h3 : t.f.limit ≠ -3) :
    ∃ A B, x.sa = A ++ (t.X.map Int.ofNat ++ B) ∧ A.length = t.f.first := by
  have := T.holds
  unfold Holds at this
  rw [if_neg h3] at this
  have := T.cls.fit
  have := T.cls.len
  exact At.split (by assumption) (by omega)

theorem ins_ok (U : LastUniq w) {t : Task} {s : TrStack} {x : TrSt} (R : Ranks w h x.isa) (hlen : x.sa.length = w.length) (T : Todo w h x.isa x.sa t)
    (hl : LinkOk t.f.trlink s) (h0 : 0 ≤ t.f.limit) (h8 : t.f.last - t.f.first ≤ 8) (W : ∀ X', X'.Perm t.X → Works w h ⟨{ t.f with limit := -3 }, X', X'.length⟩) : Goal w h t s x := by
  obtain ⟨A, B, e1, e2⟩ := T.arr hlen (by omega)
  have hsz := T.size
  have hln := T.cls.len
  obtain ⟨out, p1, p2, p3⟩ := trInsertionsort_ok (A := A) (B := B) ⟨R.len⟩ (List.ne_nil_of_length_pos (by omega)) (T.rd U) e2.symm hln.symm
  refine toSorted U R hlen T hl h0 p1 p2 (sa := A ++ (tm (kc x.isa t.f.d) none out ++ B)) (at_mid e2.symm) ?_ ?_ (W out p1)
  · rw [e1]
    exact upd_mid e2.symm (by simp; omega) (by rw [tm_length, p1.length_eq]; simp)
  · unfold trStep
    simp only [Bind.bind, Except.bind]
    rw [if_neg (by omega), if_pos h8, e1, p3]

theorem heap_ok (U : LastUniq w) {t : Task} {s : TrStack} {x : TrSt} (R : Ranks w h x.isa) (hlen : x.sa.length = w.length) (T : Todo w h x.isa x.sa t)
    (hl : LinkOk t.f.trlink s) (h0 : t.f.limit = 0) (h8 : ¬ t.f.last - t.f.first ≤ 8) (W : ∀ X', X'.Perm t.X → Works w h ⟨{ t.f with limit := -3 }, X', X'.length⟩) : Goal w h t s x := by
  obtain ⟨A, B, e1, e2⟩ := T.arr hlen (by omega)
  have hsz := T.size
  have hln := T.cls.len
  obtain ⟨out, p1, p2, p3⟩ := trHeapsort_ok (A := A) (B := B) ⟨R.len⟩ (List.ne_nil_of_length_pos (by omega)) (T.rd U)
  have hol := p1.length_eq
  have p4 := markAll_ok (A := A) (B := B) ⟨R.len⟩ (t.f.last - t.f.first) out [] (by omega) (by omega) (fun r hr => T.rd U r (p1.mem_iff.1 hr)) (fun p q _ hq => by cases hq)
  rw [List.append_nil, show A.length + out.length = t.f.last by omega, e2] at p4
  refine toSorted U R hlen T hl (by omega) p1 p2 (sa := A ++ (tm (kc x.isa t.f.d) none out ++ B)) (at_mid e2.symm) ?_ ?_ (W out p1)
  · rw [e1]
    exact upd_mid e2.symm (by simp; omega) (by rw [tm_length, p1.length_eq]; simp)
  · unfold trStep
    simp only [Bind.bind, Except.bind]
    rw [e2] at p3
    rw [if_neg (by omega), if_neg h8, if_pos h0, e1, show t.f.last - t.f.first = t.X.length by omega, p3]
    simp only []
    rw [← show t.f.last - t.f.first = t.X.length by omega]
    have : (tm (kc x.isa t.f.d) none [] ++ B) = B := rfl
    rw [this] at p4
    rw [p4]

/-! ### The sorted range -/

/-- The elements that no other is equal to, a group, and the rest. -/
theorem sorted_split (k : Nat → Nat) : ∀ X : List Nat, (X.Pairwise fun a b => k a ≤ k b) →
    ∃ P q R : List Nat, ∃ z : List Nat, X = P ++ ((q ++ z) ++ R) ∧ (P.Pairwise fun a b => k a < k b) ∧ (∀ a b, a ∈ P → b ∈ (q ++ z) ++ R → k a < k b) ∧
      (∀ a b, a ∈ q ++ z → b ∈ q ++ z → k a = k b) ∧ (∀ a b, a ∈ q ++ z → b ∈ R → k a < k b) ∧
      ((q = [] ∧ z = [] ∧ R = []) ∨ (q ≠ [] ∧ z.length = 1)) ∧
      tm k none X = P.map Int.ofNat ++ ((q.map (fun r => inv (Int.ofNat r)) ++ z.map Int.ofNat) ++ tm k none R)
  | [], _ => ⟨[], [], [], [], rfl, .nil, fun _ _ h => (by cases h), fun _ _ h => (by cases h), fun _ _ h => (by cases h), .inl ⟨rfl, rfl, rfl⟩, rfl⟩
  | [x], _ => ⟨[x], [], [], [], rfl, List.pairwise_singleton _ _, fun _ _ _ h => (by cases h), fun _ _ h => (by cases h), fun _ _ h => (by cases h), .inl ⟨rfl, rfl, rfl⟩, rfl⟩
  | x :: y :: X, hs => by
    have hs0 := hs
    rw [List.pairwise_cons] at hs
    by_cases hxy : k y = k x
    · -- a group
      have : ∀ Y : List Nat, (Y.Pairwise fun a b => k a ≤ k b) → (∀ a, a ∈ Y → k x ≤ k a) →
          ∃ q R, Y = q ++ R ∧ (∀ a, a ∈ q → k a = k x) ∧ (∀ b, b ∈ R → k x < k b) := by
        intro Y
        induction Y with
        | nil => exact fun _ _ => ⟨[], [], rfl, fun _ h => (by cases h), fun _ h => (by cases h)⟩
        | cons a Y ih =>
          intro hY hx
          rw [List.pairwise_cons] at hY
          by_cases ha : k a = k x
          · obtain ⟨q, R, e1, e2, e3⟩ := ih hY.2 (fun b hb => hx b (List.mem_cons_of_mem _ hb))
            refine ⟨a :: q, R, by rw [e1]; rfl, fun b hb => ?_, e3⟩
            rcases List.mem_cons.1 hb with rfl | hb
            · exact ha
            · exact e2 b hb
          · refine ⟨[], a :: Y, rfl, fun _ h => (by cases h), fun b hb => ?_⟩
            have := hx a (List.mem_cons_self ..)
            rcases List.mem_cons.1 hb with rfl | hb
            · omega
            · have := hY.1 b hb
              omega
      obtain ⟨q, R, e1, e2, e3⟩ := this X (List.pairwise_cons.1 hs.2).2 (fun a ha => hs.1 a (List.mem_cons_of_mem _ ha))
      -- the last of the group
      obtain ⟨q', z, e4⟩ : ∃ q' z, x :: y :: q = q' ++ [z] := by
        rcases List.eq_nil_or_concat (x :: y :: q) with h | ⟨q', z, h⟩
        · cases h
        · exact ⟨q', z, by rw [h, List.concat_eq_append]⟩
      have hmem : ∀ a, a ∈ q' ++ [z] → k a = k x := by
        intro a ha
        rw [← e4] at ha
        rcases List.mem_cons.1 ha with rfl | ha
        · rfl
        · rcases List.mem_cons.1 ha with rfl | ha
          · exact hxy
          · exact e2 a ha
      have hq' : q' ≠ [] := by
        intro h0
        have := congrArg List.length e4
        rw [h0] at this
        simp at this
      have eX : x :: y :: X = (q' ++ [z]) ++ R := by rw [← e4, e1]; rfl
      refine ⟨[], q', R, [z], by rw [eX]; rfl, .nil, fun _ _ h => (by cases h), fun a b ha hb => by rw [hmem a ha, hmem b hb], fun a b ha hb => by rw [hmem a ha]; exact e3 b hb, .inr ⟨hq', rfl⟩, ?_⟩
      rw [eX, tm_append]
      have h1 : tm k ((R.head?.map k).or none) (q' ++ [z]) = tm k none (q' ++ [z]) := by
        cases R with
        | nil => rfl
        | cons r R =>
          refine tm_none k (k r) _ fun a ha => ?_
          have := e3 r (by simp)
          have := hmem a (List.mem_of_getLast? ha)
          omega
      have h2 : ∀ Y : List Nat, (∀ a, a ∈ Y → k a = k z) → tm k (some (k z)) Y = Y.map (fun r => inv (Int.ofNat r)) := by
        intro Y
        induction Y with
        | nil => exact fun _ => rfl
        | cons a Y ih =>
          intro hY
          simp only [tm, List.map_cons]
          rw [ih fun b hb => hY b (List.mem_cons_of_mem _ hb), if_pos]
          · rfl
          · rw [hY a (by simp)]
            cases Y with
            | nil => rfl
            | cons b Y => simp [hY b (by simp)]
      rw [h1, tm_snoc, h2 q' fun a ha => by rw [hmem a (List.mem_append_left _ ha), hmem z (by simp)]]
      simp
    · have hlt : k x < k y := by
        have := hs.1 y (by simp)
        omega
      obtain ⟨P, q, R, z, e1, e2, e3, e4, e5, e6, e7⟩ := sorted_split k (y :: X) hs.2
      have hall : ∀ b, b ∈ y :: X → k x < k b := by
        intro b hb
        rcases List.mem_cons.1 hb with rfl | hb
        · exact hlt
        · have := (List.pairwise_cons.1 hs.2).1 b hb
          omega
      refine ⟨x :: P, q, R, z, by rw [e1]; rfl, ?_, ?_, e4, e5, e6, ?_⟩
      · rw [List.pairwise_cons]
        exact ⟨fun b hb => hall b (by rw [e1]; exact List.mem_append_left _ hb), e2⟩
      · intro a b ha hb
        rcases List.mem_cons.1 ha with rfl | ha
        · exact hall b (by rw [e1]; exact List.mem_append_right _ hb)
        · exact e3 a b ha hb
      · have : tm k none (x :: y :: X) = (x : Int) :: tm k none (y :: X) := by
          rw [tm, if_neg]
          simp only [List.head?_cons, Option.map_some, Option.or_none]
          intro h
          injection h with h
          exact hxy h
        rw [this, e7]
        rfl

theorem singles_ok {sa : List Int} {N : List Int} : ∀ (P : List Nat) (a : Nat) (isa : List Nat), P ≠ [] → At sa a (P.map Int.ofNat ++ N) → (∀ v, N.head? = some v → v < 0) → (∀ y, y ∈ P → y < isa.length) → P.Nodup →
    ∃ isa', singles sa (P.length + N.length) a isa = .ok (a + P.length, isa') ∧ isa'.length = isa.length ∧ (∀ i y, P[i]? = some y → ch isa' y = a + i) ∧ ∀ y, y ∉ P → ch isa' y = ch isa y
  | [], _, _, h0, _, _, _, _ => absurd rfl h0
  | p :: P, a, isa, _, hat, hN, hP, hnd => by
    have hp := hP p (List.mem_cons_self ..)
    have h0 := hat 0 (by simp)
    simp only [Nat.add_zero, List.map_cons, List.cons_append, List.getElem?_cons_zero] at h0
    have hat' : At sa (a + 1) (P.map Int.ofNat ++ N) := (at_append (xs := [Int.ofNat p]).1 hat).2
    rw [show (p :: P).length + N.length = P.length + N.length + 1 by simp; omega]
    simp only [singles, Bind.bind, Except.bind]
    rw [getNo_ok h0]
    simp only []
    rw [wr_ok a hp]
    simp only []
    have one : (∀ i y, (p :: ([] : List Nat))[i]? = some y → ch (isa.set p a) y = a + i) := by
      intro i y hi
      cases i with
      | zero => injection hi with hi; rw [ch_set y hp, if_pos hi.symm]; rfl
      | succ i => cases hi
    have other : ∀ y, y ∉ p :: P → ch (isa.set p a) y = ch isa y := by
      intro y hy
      rw [ch_set y hp, if_neg]
      intro h
      exact hy (by rw [h]; simp)
    cases P with
    | nil =>
      cases N with
      | nil =>
        rw [if_neg (by simp)]
        exact ⟨isa.set p a, rfl, List.length_set, one, other⟩
      | cons v N =>
        rw [if_pos (by simp)]
        have h1 := hat' 0 (by simp)
        simp only [Nat.add_zero, List.map_nil, List.nil_append, List.getElem?_cons_zero] at h1
        rw [rd_ok h1]
        simp only []
        have := hN v rfl
        rw [if_neg (by omega)]
        exact ⟨isa.set p a, rfl, List.length_set, one, other⟩
    | cons q P =>
      rw [if_pos (by simp; omega)]
      have h1 := hat' 0 (by simp)
      simp only [Nat.add_zero, List.map_cons, List.cons_append, List.getElem?_cons_zero] at h1
      rw [rd_ok h1]
      simp only []
      rw [if_pos (show 0 ≤ Int.ofNat q from Int.natCast_nonneg _)]
      rw [List.nodup_cons] at hnd
      obtain ⟨isa', g1, g2, g3, g4⟩ := singles_ok (q :: P) (a + 1) (isa.set p a) (by simp) hat' hN (fun y hy => by rw [List.length_set]; exact hP y (List.mem_cons_of_mem _ hy)) hnd.2
      refine ⟨isa', ?_, by rw [g2, List.length_set], ?_, ?_⟩
      · rw [g1]
        simp only [List.length_cons]
        congr 2
        omega
      · intro i y hi
        cases i with
        | zero =>
          injection hi with hi
          rw [g4 y (by rw [← hi]; exact hnd.1), ch_set y hp, if_pos hi.symm]
          rfl
        | succ i =>
          rw [g3 i y hi]
          omega
      · intro y hy
        rw [g4 y (fun h => hy (List.mem_cons_of_mem _ h)), other y hy]

theorem unmark_ok {B : List Int} {z : Nat} : ∀ (q : List Nat) (A : List Int) (fuel a : Nat), q ≠ [] → q.length ≤ fuel → a = A.length →
    unmark fuel a (A ++ (q.map (fun r => inv (Int.ofNat r)) ++ ((z : Int) :: B))) = .ok (a + q.length, A ++ (q.map Int.ofNat ++ ((z : Int) :: B)))
  | [], _, _, _, h, _, _ => absurd rfl h
  | _ :: _, _, 0, _, _, h, _ => absurd h (by simp)
  | r :: q, A, fuel + 1, a, _, hf, ha => by
    simp only [unmark, Bind.bind, Except.bind, List.map_cons, List.cons_append]
    rw [rd_mid ha]
    simp only []
    rw [wr_mid ha]
    simp only []
    have e1 : inv (inv (Int.ofNat r)) = Int.ofNat r := by unfold inv; omega
    rw [e1]
    have hr : ∀ X : List Int, A ++ Int.ofNat r :: X = (A ++ [Int.ofNat r]) ++ X := fun X => by simp
    cases q with
    | nil =>
      simp only [List.map_nil, List.nil_append]
      rw [hr, rd_mid (by simp; omega)]
      simp only []
      rw [if_neg (by omega)]
      simp
    | cons r' q =>
      simp only [List.map_cons, List.cons_append]
      rw [hr, rd_mid (by simp; omega)]
      simp only []
      rw [if_pos (by unfold inv; simp only [Int.ofNat_eq_natCast]; omega)]
      have := unmark_ok (B := B) (z := z) (r' :: q) (A ++ [Int.ofNat r]) fuel (a + 1) (by simp) (by simp at hf ⊢; omega) (by simp; omega)
      simp only [List.map_cons, List.cons_append] at this
      rw [this]
      simp
      omega

theorem check_true {b b' : Budget} {n : Nat} (hc : b.check n = (true, b')) : b'.count = b.count := by
  unfold Budget.check at hc
  split at hc
  · injection hc with _ h
    rw [← h]
  · split at hc
    · injection hc with h
      cases h
    · injection hc with _ h
      rw [← h]

theorem check_false {b b' : Budget} {n : Nat} (hc : b.check n = (false, b')) : b'.count = b.count + n := by
  unfold Budget.check at hc
  split at hc
  · injection hc with h
    cases h
  · split at hc
    · injection hc with _ h
      rw [← h]
    · injection hc with h
      cases h

/-- A class of the new ranks. -/
theorem cls_of {isa : List Nat} {f l : Nat} {M : List Nat} (hlen : f + M.length = l) (hfit : l ≤ w.length) (hnd : M.Nodup) (hM : ∀ y, y ∈ M → y < w.length ∧ ch isa y = l - 1)
    (ho : ∀ y, y < w.length → y ∉ M → ch isa y < f ∨ l ≤ ch isa y) : Cls w isa f l M := by
  refine ⟨hlen, hfit, hnd, fun y => ⟨fun hy => ?_, fun hy => ?_⟩, fun y hy => (hM y hy).2⟩
  · have := hM y hy
    have := List.length_pos_iff.2 (List.ne_nil_of_mem hy)
    omega
  · by_cases h : y ∈ M
    · exact h
    · have := ho y hy.1 h
      omega

/-- A range that is done if it is too small to be a task. -/
theorem part_of {ts : List Task} {x1 : TrSt} {t : Task} {fl0 : Bool} (hbig : big t = true → t ∈ ts) (hap : big t = false → ∀ t', t' ∈ ts → t'.f.last ≤ t.f.first ∨ t.f.last ≤ t'.f.first)
    (C : Cls w x1.isa t.f.first t.f.last t.X) (hat : big t = false → At x1.sa t.f.first (t.X.map Int.ofNat)) : Part w h ts x1 t.f.first t.f.last t.X fl0 := by
  cases hb : big t with
  | true => exact .inl ⟨t, hbig hb, rfl, rfl, rfl⟩
  | false =>
    have hl := C.len
    have : ¬ 1 < t.f.last - t.f.first := of_decide_eq_false hb
    refine .inr ⟨hap hb, fun y hy => C.lt hy, C.res (hat hb) ?_ (fun _ => by omega)⟩
    intro s s' hs hs'
    match hX : t.X with
    | [] => rw [hX] at hs; cases hs
    | [a] =>
      rw [hX] at hs hs'
      rw [List.mem_singleton.1 hs, List.mem_singleton.1 hs']
      exact ag_refl _ _
    | _ :: _ :: _ =>
      rw [hX] at hl
      simp at hl
      omega

/-- The ranks after a sorted range. -/
theorem sorted_ranks {isa isa2 : List Nat} (R0 : Ranks w h isa) {f b l : Nat} {P g R : List Nat} (C : Cls w isa f l (P ++ (g ++ R))) (hb : b = f + P.length + g.length) (hlen : isa2.length = w.length)
    (vP : ∀ i y, P[i]? = some y → ch isa2 y = f + i) (vg : ∀ y, y ∈ g → ch isa2 y = b - 1) (vo : ∀ y, y ∉ P → y ∉ g → ch isa2 y = ch isa y)
    (hP : P.Pairwise fun a b => Lex (w.drop a) (w.drop b)) (hPg : ∀ a b, a ∈ P → b ∈ g ++ R → Lex (w.drop a) (w.drop b)) (hgR : ∀ a b, a ∈ g → b ∈ R → Lex (w.drop a) (w.drop b)) :
    Ranks w h isa2 ∧ Cls w isa2 (f + P.length) b g ∧ Cls w isa2 b l R ∧ (∀ y, y < w.length → (ch isa y < f ∨ l ≤ ch isa y) → ch isa2 y = ch isa y) ∧
      ∀ y, y ∈ P → f ≤ ch isa2 y ∧ ch isa2 y < f + P.length := by
  have hCl := C.len
  have hfit := C.fit
  simp only [List.length_append] at hCl
  have hnd := C.nodup
  rw [List.nodup_append] at hnd
  obtain ⟨nP, nEG, dL⟩ := hnd
  rw [List.nodup_append] at nEG
  obtain ⟨nE, nG, dE⟩ := nEG
  have posE : ∀ y, y ∈ g → 0 < g.length := fun y hy => List.length_pos_iff.2 (List.ne_nil_of_mem hy)
  have posG : ∀ y, y ∈ R → 0 < R.length := fun y hy => List.length_pos_iff.2 (List.ne_nil_of_mem hy)
  have wP : ∀ y, y ∈ P → f ≤ ch isa2 y ∧ ch isa2 y < f + P.length := fun y hy => by
    obtain ⟨i, hi⟩ := List.getElem?_of_mem hy
    have := (List.getElem?_eq_some_iff.1 hi).1
    rw [vP i y hi]
    omega
  have vR : ∀ y, y ∈ R → ch isa2 y = l - 1 := fun y hy => by
    rw [vo y (fun h => dL y h y (List.mem_append_right _ hy) rfl) (fun h => dE y h y hy rfl)]
    exact C.cls y (List.mem_append_right _ (List.mem_append_right _ hy))
  have vO : ∀ y, y < w.length → (ch isa y < f ∨ l ≤ ch isa y) → ch isa2 y = ch isa y := fun y hy ho => by
    have : y ∉ P ++ (g ++ R) := fun h => by have := (C.mem y).1 h; omega
    simp only [List.mem_append, not_or] at this
    exact vo y this.1 this.2.1
  have cases : ∀ y, y < w.length → f ≤ ch isa y → ch isa y < l → y ∈ P ∨ y ∈ g ∨ y ∈ R := fun y hy h1 h2 => by
    have := (C.mem y).2 ⟨hy, h1, h2⟩
    simpa only [List.mem_append] using this
  have inX : ∀ y, y ∈ P ∨ y ∈ g ∨ y ∈ R → y < w.length ∧ f ≤ ch isa y ∧ ch isa y < l := fun y hy => (C.mem y).1 (by simpa only [List.mem_append] using hy)
  refine ⟨R0.refine hlen vO ?_ ?_, ?_, ?_, vO, wP⟩
  · intro y hy h1 h2
    have hc := C.cls y ((C.mem y).2 ⟨hy, h1, h2⟩)
    rcases cases y hy h1 h2 with h | h | h
    · have := wP y h
      omega
    · have := vg y h
      have := posE y h
      omega
    · have := vR y h
      have := posG y h
      omega
  · intro y y' hy hy' h1 h2 h3 h4 hlt
    rcases cases y hy h1 h2 with h | h | h <;> rcases cases y' hy' h3 h4 with h' | h' | h'
    · obtain ⟨i, hi⟩ := List.getElem?_of_mem h
      obtain ⟨j, hj⟩ := List.getElem?_of_mem h'
      rw [vP i y hi, vP j y' hj] at hlt
      obtain ⟨i1, i2⟩ := List.getElem?_eq_some_iff.1 hi
      obtain ⟨j1, j2⟩ := List.getElem?_eq_some_iff.1 hj
      rw [List.pairwise_iff_getElem] at hP
      have := hP i j i1 j1 (by omega)
      rw [i2, j2] at this
      exact this
    · exact hPg y y' h (List.mem_append_left _ h')
    · exact hPg y y' h (List.mem_append_right _ h')
    · have := wP y' h'
      rw [vg y h] at hlt
      have := posE y h
      omega
    · rw [vg y h, vg y' h'] at hlt; omega
    · exact hgR y y' h h'
    · have := wP y' h'
      rw [vR y h] at hlt
      have := posG y h
      omega
    · rw [vR y h, vg y' h'] at hlt; have := posG y h; omega
    · rw [vR y h, vR y' h'] at hlt; omega
  · refine cls_of (by omega) (by omega) nE (fun y hy => ⟨(inX y (.inr (.inl hy))).1, vg y hy⟩) fun y hy hn => ?_
    by_cases h1 : f ≤ ch isa y ∧ ch isa y < l
    · rcases cases y hy h1.1 h1.2 with h | h | h
      · exact .inl (wP y h).2
      · exact absurd h hn
      · have := vR y h
        have := posG y h
        omega
    · have := vO y hy (by omega)
      omega
  · refine cls_of (by omega) (by omega) nG (fun y hy => ⟨(inX y (.inr (.inr hy))).1, vR y hy⟩) fun y hy hn => ?_
    by_cases h1 : f ≤ ch isa y ∧ ch isa y < l
    · rcases cases y hy h1.1 h1.2 with h | h | h
      · have := (wP y h).2
        omega
      · have := vg y h
        have := posE y h
        omega
      · exact absurd h hn
    · have := vO y hy (by omega)
      omega

/-- Elements each of which has its index as its rank. -/
theorem single_res {isa : List Nat} {sa : List Int} {f : Nat} {P : List Nat} {fl : Bool} (hat : At sa f (P.map Int.ofNat)) (vP : ∀ i y, P[i]? = some y → ch isa y = f + i) :
    Res w h isa sa f (f + P.length) P fl := by
  have key : ∀ y, y ∈ P → ∃ i, P[i]? = some y ∧ i < P.length := fun y hy => by
    obtain ⟨i, hi⟩ := List.getElem?_of_mem hy
    exact ⟨i, hi, (List.getElem?_eq_some_iff.1 hi).1⟩
  refine ⟨P, .refl _, rfl, hat, fun y hy => ?_, fun i s hi => ?_, fun _ => vP, fun s s' hs hs' he => ?_⟩
  · obtain ⟨i, hi, hl⟩ := key y hy
    rw [vP i y hi]
    omega
  · rw [vP i s hi]
    refine ⟨Nat.le_refl _, fun j h1 h2 => ?_⟩
    rw [show j = i by omega]
    exact ⟨s, hi, vP i s hi⟩
  · obtain ⟨i, hi, _⟩ := key s hs
    obtain ⟨j, hj, _⟩ := key s' hs'
    rw [vP i s hi, vP j s' hj] at he
    rw [show i = j by omega, hj] at hi
    injection hi with hi
    rw [hi]
    exact ag_refl _ _

theorem pushGroup_ok {first a : Nat} {next : Int} {t : Task} {g R : List Nat} (h2 : 2 ≤ a - first) (s : TrStack) (x : TrSt) (hl : LinkOk t.f.trlink s) (incr : Nat) :
    ∃ (ts : List Task) (bud : Budget) (fl0 : Bool),
      ts.Perm ((if fl0 then [⟨⟨t.f.d, a, t.f.last, -3, t.f.trlink⟩, R, t.n⟩] else [⟨⟨t.f.d + incr, first, a, next, t.f.trlink⟩, g, 0⟩, ⟨⟨t.f.d, a, t.f.last, -3, t.f.trlink⟩, R, t.n⟩] : List Task).filter big) ∧ Asc ts ∧
      (fl0 = false → bud.count = x.bud.count) ∧ (fl0 = true → x.bud.count < bud.count) ∧
      ((63 ≤ s.length ∧ pushGroup incr first a next t.f s x = .error .stack) ∨ pushGroup incr first a next t.f s x = .ok (nextOf ts (mk fl0 t.f.trlink s) { x with bud := bud })) := by
  have e1 : ∀ t : Task, big t = decide (1 < t.f.last - t.f.first) := fun _ => rfl
  unfold pushGroup
  cases hc : x.bud.check (a - first) with
  | mk c bud =>
    cases c with
    | true =>
      simp only []
      by_cases h3 : a - first ≤ t.f.last - a
      · rw [if_pos h3]
        refine ⟨[⟨⟨t.f.d + incr, first, a, next, t.f.trlink⟩, g, 0⟩, ⟨⟨t.f.d, a, t.f.last, -3, t.f.trlink⟩, R, t.n⟩], bud, false, ?_, asc_two h3, fun _ => check_true hc, fun h => (by cases h), push_one ..⟩
        simp [e1, show 1 < a - first by omega, show 1 < t.f.last - a by omega]
      · rw [if_neg h3]
        by_cases h4 : 1 < t.f.last - a
        · rw [if_pos h4]
          refine ⟨[⟨⟨t.f.d, a, t.f.last, -3, t.f.trlink⟩, R, t.n⟩, ⟨⟨t.f.d + incr, first, a, next, t.f.trlink⟩, g, 0⟩], bud, false, ?_, asc_two (by show t.f.last - a ≤ a - first; omega), fun _ => check_true hc, fun h => (by cases h), push_one ..⟩
          simp [e1, show 1 < a - first by omega, h4]
          exact List.Perm.swap ..
        · rw [if_neg h4]
          refine ⟨[⟨⟨t.f.d + incr, first, a, next, t.f.trlink⟩, g, 0⟩], bud, false, ?_, asc_one _, fun _ => check_true hc, fun h => (by cases h), .inr rfl⟩
          simp [e1, show 1 < a - first by omega, h4]
    | false =>
      simp only [Bind.bind, Except.bind]
      rw [setLink_ok hl]
      simp only []
      by_cases h4 : 1 < t.f.last - a
      · rw [if_pos h4]
        refine ⟨[⟨⟨t.f.d, a, t.f.last, -3, t.f.trlink⟩, R, t.n⟩], bud, true, ?_, asc_one _, fun h => (by cases h), fun _ => by have := check_false hc; omega, .inr rfl⟩
        simp [e1, h4]
      · rw [if_neg h4]
        refine ⟨[], bud, true, ?_, List.Pairwise.nil, fun h => (by cases h), fun _ => by have := check_false hc; omega, .inr rfl⟩
        simp [e1, h4]

theorem nextLimit_ok {isa : List Nat} {n d : Nat} (X : TPos isa n) {sa : List Int} {a size z : Nat} (hz : sa[a]? = some (z : Int)) (hd : z + d < n) :
    ∃ v, nextLimit isa d a size sa = .ok v ∧ (v = trIlg size ∨ (v = -1 ∧ ch isa (z + d) = ch isa z)) := by
  unfold nextLimit
  simp only [Bind.bind, Except.bind]
  rw [X.keyAt hz (show z + 0 < n by omega)]
  simp only []
  rw [X.keyAt hz hd]
  simp only []
  split
  · exact ⟨_, rfl, .inl rfl⟩
  · rename_i he
    exact ⟨_, rfl, .inr ⟨rfl, by simpa using (Decidable.not_not.1 he).symm⟩⟩

theorem setRanksIf_ok {sa : List Int} {v todo c : Nat} (X : List Nat) (isa : List Nat) (cond : Bool) (ht : todo = X.length) (hat : At sa c (X.map Int.ofNat)) (hX : ∀ y, y ∈ X → y < isa.length)
    (hc : cond = false → ∀ y, y ∈ X → ch isa y = v) :
    ∃ isa', setRanksIf cond sa v todo c isa = .ok isa' ∧ isa'.length = isa.length ∧ ∀ y, ch isa' y = if y ∈ X then v else ch isa y := by
  unfold setRanksIf
  cases cond with
  | true =>
    rw [if_pos rfl, ht]
    exact setRanks_ok X c isa hat hX
  | false =>
    refine ⟨isa, rfl, rfl, fun y => ?_⟩
    split
    · exact hc rfl y (by assumption)
    · rfl

theorem sorted_ok (U : LastUniq w) (hn : w.length < 2 ^ 32) (h0 : 0 < h) {t : Task} {s : TrStack} {x : TrSt} (R : Ranks w h x.isa) (hlen : x.sa.length = w.length) (T : Todo w h x.isa x.sa t)
    (hl : LinkOk t.f.trlink s) (h3 : t.f.limit = -3)
    (W : ∀ t' : Task, (t.f.d < t'.f.d ∨ (t.f.d = t'.f.d ∧ t'.X.length < t.X.length)) → Works w h t') : Goal w h t s x := by
  have hh := T.holds
  unfold Holds at hh
  rw [if_pos h3] at hh
  obtain ⟨k, hat, hs, hk, Y, y1, y2, y3⟩ := hh
  obtain ⟨P, q, Rs, z, e1, e2, e3, e4, e5, e6, e7⟩ := sorted_split k t.X hs
  have hC := T.cls
  have hsz := T.size
  have hcost := T.cost_ge U
  have hroom : need h t = room t.X.length t.n := by
    unfold need
    rw [if_neg (by omega), if_pos h3]
  have hneed : 2 ≤ need h t := by
    rw [hroom]
    exact Nat.le_trans (Nat.le_of_lt (lg3_two T.size)) (Nat.le_max_left ..)
  have hXlen := congrArg List.length e1
  simp only [List.length_append] at hXlen
  have hCl := hC.len
  have hfit := hC.fit
  have hd := T.depth U
  rw [e1] at hC
  have hnd := hC.nodup
  have hndP := (List.nodup_append.1 hnd).1
  have memX : ∀ y, y ∈ P ∨ y ∈ q ++ z ∨ y ∈ Rs → y ∈ t.X := fun y hy => by rw [e1]; simpa [List.mem_append, or_assoc] using hy
  have isaL : ∀ y, y ∈ t.X → y < x.isa.length := fun y hy => by rw [R.len]; exact T.cls.lt hy
  have lexP : P.Pairwise fun a b => Lex (w.drop a) (w.drop b) :=
    e2.imp_of_mem fun {a b} ha hb hab => (hk a b (memX a (.inl ha)) (memX b (.inl hb))).1 hab
  have lexPg : ∀ a b, a ∈ P → b ∈ (q ++ z) ++ Rs → Lex (w.drop a) (w.drop b) := fun a b ha hb =>
    (hk a b (memX a (.inl ha)) (memX b (.inr (List.mem_append.1 hb)))).1 (e3 a b ha hb)
  have lexgR : ∀ a b, a ∈ q ++ z → b ∈ Rs → Lex (w.drop a) (w.drop b) := fun a b ha hb =>
    (hk a b (memX a (.inr (.inl ha))) (memX b (.inr (.inr hb)))).1 (e5 a b ha hb)
  rw [e7] at hat
  -- the first elements
  have single : ∃ isa1, singlesIf t.f x = .ok (t.f.first + P.length, isa1) ∧ isa1.length = x.isa.length ∧ (∀ i y, P[i]? = some y → ch isa1 y = t.f.first + i) ∧ ∀ y, y ∉ P → ch isa1 y = ch x.isa y := by
    unfold singlesIf
    simp only [Bind.bind, Except.bind]
    cases P with
    | nil =>
      rcases e6 with ⟨rfl, rfl, rfl⟩ | ⟨hq, hz⟩
      · simp only [List.length_nil] at hXlen
        omega
      · obtain ⟨r, q', rfl⟩ := List.exists_cons_of_ne_nil hq
        have h1 := hat 0 (by simp)
        simp only [Nat.add_zero, List.map_nil, List.nil_append, List.map_cons, List.cons_append, List.getElem?_cons_zero] at h1
        rw [rd_ok h1]
        simp only []
        rw [if_neg (by unfold inv; simp only [Int.ofNat_eq_natCast]; omega)]
        exact ⟨x.isa, rfl, rfl, fun i y hi => (by cases hi), fun _ _ => rfl⟩
    | cons p P =>
      have h1 := hat 0 (by simp)
      simp only [Nat.add_zero, List.map_cons, List.cons_append, List.getElem?_cons_zero] at h1
      rw [rd_ok h1]
      simp only []
      rw [if_pos (show 0 ≤ Int.ofNat p from Int.natCast_nonneg _)]
      have hneg : ∀ v, ((q.map (fun r => inv (Int.ofNat r)) ++ z.map Int.ofNat) ++ tm k none Rs).head? = some v → v < 0 := by
        intro v hv
        rcases e6 with ⟨rfl, rfl, rfl⟩ | ⟨hq, _⟩
        · cases hv
        · obtain ⟨r, q', rfl⟩ := List.exists_cons_of_ne_nil hq
          injection hv with hv
          rw [← hv]
          unfold inv
          simp only [Int.ofNat_eq_natCast]
          omega
      obtain ⟨isa1, g1, g2, g3, g4⟩ := singles_ok (p :: P) t.f.first x.isa (by simp) hat hneg (fun y hy => isaL y (memX y (.inl hy))) hndP
      refine ⟨isa1, ?_, g2, g3, g4⟩
      rw [← g1]
      congr 1
      simp only [List.length_append, List.length_map, tm_length]
      omega
  obtain ⟨isa1, s1, s2, s3, s4⟩ := single
  rw [at_append] at hat
  have tstep : trStep h t.f s x = sortedStep h t.f s x := by
    unfold trStep
    rw [if_pos (by omega), if_neg (by omega), if_neg (by omega)]
  rcases e6 with ⟨rfl, rfl, rfl⟩ | ⟨hq, hz⟩
  · -- no group
    simp only [List.length_nil] at hXlen
    have hPl : t.f.first + P.length = t.f.last := by omega
    obtain ⟨r1, _, _, r4, r5⟩ := sorted_ranks R hC rfl (s2.trans R.len) s3 (fun y hy => (by cases hy)) (fun y hy _ => s4 y hy) lexP lexPg lexgR
    refine works_of_step (ts := []) (fl0 := false) (x1 := { x with isa := isa1 }) (.inr ?_) r1 hlen (fun _ h => (by cases h)) .nil hl (by simp only [costs]; omega) (by omega) ⟨Nat.zero_le _, hneed⟩ ?_
    · rw [tstep]
      unfold sortedStep
      simp only [Bind.bind, Except.bind]
      rw [s1]
      simp only []
      rw [if_neg (by omega)]
      rfl
    · intro x' fl D
      have hres : Res w h isa1 x.sa t.f.first t.f.last P false := by rw [← hPl]; exact single_res hat.1 s3
      refine D.parts (a := t.f.last) (b := t.f.last) (L := P) (E := []) (G := []) (by rw [e1]; exact .refl _) r4 (Upd.refl ..) (fun _ h => (by cases h))
        (.inr ⟨fun _ h => (by cases h), fun y hy => T.cls.lt (memX y (.inl hy)), hres⟩) ?_ ?_ (fun _ => rfl) (fun h => (by cases h))
      · refine .inr ⟨fun _ h => (by cases h), fun _ h => (by cases h), ?_⟩
        exact single_res (P := []) at_nil fun _ _ h => (by cases h)
      · refine .inr ⟨fun _ h => (by cases h), fun _ h => (by cases h), ?_⟩
        exact single_res (P := []) at_nil fun _ _ h => (by cases h)
  · -- a group
    match z, hz with
    | [z], _ =>
    have hql : 0 < q.length := List.length_pos_iff.2 hq
    simp only [List.length_singleton] at hXlen
    have hat2 := hat.2
    rw [List.length_map] at hat2
    obtain ⟨A, B, a1, a2⟩ := hat2.split (by omega)
    have a1' : x.sa = A ++ (q.map (fun r => inv (Int.ofNat r)) ++ ((z : Int) :: (tm k none Rs ++ B))) := by rw [a1]; simp
    have u1 := unmark_ok (z := z) (B := tm k none Rs ++ B) q A (t.f.last - (t.f.first + P.length)) (t.f.first + P.length) hq (by omega) a2.symm
    rw [← a1'] at u1
    generalize hsa1 : A ++ (q.map Int.ofNat ++ ((z : Int) :: (tm k none Rs ++ B))) = sa1 at u1
    have hatg : At sa1 (t.f.first + P.length) ((q ++ [z]).map Int.ofNat) := by
      rw [← hsa1, show A ++ (q.map Int.ofNat ++ ((z : Int) :: (tm k none Rs ++ B))) = A ++ ((q ++ [z]).map Int.ofNat ++ (tm k none Rs ++ B)) by simp]
      exact at_mid a2.symm
    have hu : Upd x.sa sa1 (t.f.first + P.length) (t.f.first + P.length + q.length) := by
      rw [a1', ← hsa1]
      exact upd_mid a2.symm (by simp) (by simp)
    have hatR : At sa1 (t.f.first + P.length + q.length + 1) (tm k none Rs) := by
      have := (at_append.1 hat2).2
      rw [show t.f.first + P.length + (q.map (fun r => inv (Int.ofNat r)) ++ [z].map Int.ofNat).length = t.f.first + P.length + q.length + 1 by simp; omega] at this
      exact hu.at this (by omega)
    have hatP : At sa1 t.f.first (P.map Int.ofNat) := hu.at hat.1 (by simp)
    have hzat : sa1[t.f.first + P.length + q.length]? = some (z : Int) := by
      have := hatg q.length (by simp)
      rw [this]
      simp
    have hgX : ∀ y, y ∈ q ++ [z] → y ∈ t.X := fun y hy => memX y (.inr (.inl hy))
    have hag : ∀ a b, a ∈ q ++ [z] → b ∈ q ++ [z] → Ag w (t.f.d + h) a b := fun a b ha hb => (hk a b (hgX a ha) (hgX b hb)).2 (e4 a b ha hb)
    obtain ⟨nx, n1, n2⟩ := nextLimit_ok (isa := isa1) (d := t.f.d) (size := q.length + 1) ⟨s2.trans R.len⟩ hzat (T.rd U z (hgX z (by simp)))
    obtain ⟨isa2, i1, i2, i3⟩ := setRanksIf_ok (sa := sa1) (v := t.f.first + P.length + q.length) (todo := q.length + 1) (c := t.f.first + P.length) (q ++ [z]) isa1
      (decide (t.f.first + P.length + q.length + 1 < t.f.last)) (by simp) hatg (fun y hy => by rw [s2]; exact isaL y (hgX y hy)) (fun hc y hy => by
        have := of_decide_eq_false hc
        rw [s4 y ?_, T.cls.cls y (hgX y hy)]
        · omega
        · intro hyP
          exact (List.nodup_append.1 hnd).2.2 y hyP y (List.mem_append_left _ hy) rfl)
    have hdisj : ∀ y, y ∈ P → y ∉ q ++ [z] := fun y hyP hy => (List.nodup_append.1 hnd).2.2 y hyP y (List.mem_append_left _ hy) rfl
    obtain ⟨r1, r2, r3, r4, r5⟩ := sorted_ranks (isa2 := isa2) (b := t.f.first + P.length + q.length + 1) R hC (by simp; omega) (i2.trans (s2.trans R.len))
      (fun i y hi => by rw [i3 y, if_neg (hdisj y (List.mem_of_getElem? hi)), s3 i y hi]) (fun y hy => by rw [i3 y, if_pos hy]; rfl)
      (fun y hy hy' => by rw [i3 y, if_neg hy', s4 y hy]) lexP lexPg lexgR
    have vP : ∀ i y, P[i]? = some y → ch isa2 y = t.f.first + i := fun i y hi => by rw [i3 y, if_neg (hdisj y (List.mem_of_getElem? hi)), s3 i y hi]
    obtain ⟨ts, bud, fl0, t1, tasc, t2, t3, t4⟩ := pushGroup_ok (first := t.f.first + P.length) (a := t.f.first + P.length + q.length + 1) (next := nx) (t := t) (g := q ++ [z]) (R := Rs) (by omega) s
      { x with sa := sa1, isa := isa2 } hl h
    -- the tasks
    have memts : ∀ t', t' ∈ ts → (t' = ⟨⟨t.f.d, t.f.first + P.length + q.length + 1, t.f.last, -3, t.f.trlink⟩, Rs, t.n⟩ ∧ 1 < t.f.last - (t.f.first + P.length + q.length + 1)) ∨
        (fl0 = false ∧ t' = ⟨⟨t.f.d + h, t.f.first + P.length, t.f.first + P.length + q.length + 1, nx, t.f.trlink⟩, q ++ [z], 0⟩) := by
      intro t' ht
      have := t1.mem_iff.1 ht
      cases fl0 with
      | true =>
        simp only [if_true, List.mem_filter, List.mem_singleton] at this
        obtain ⟨rfl, hb⟩ := this
        exact .inl ⟨rfl, of_decide_eq_true hb⟩
      | false =>
        simp only [Bool.false_eq_true, if_false, List.mem_filter, List.mem_cons, List.not_mem_nil, or_false] at this
        obtain ⟨rfl | rfl, hb⟩ := this
        · exact .inr ⟨rfl, rfl⟩
        · exact .inl ⟨rfl, of_decide_eq_true hb⟩
    have hneeds : needs h ts ≤ need h t := by
      rw [hroom]
      refine needs_room ?_ tasc ?_ fun t' ht => ?_
      · rw [t1.length_eq]
        refine Nat.le_trans (List.length_filter_le ..) ?_
        split <;> simp
      · rw [sizes_perm t1]
        refine Nat.le_trans (sizes_filter ..) ?_
        split <;> simp only [sizes, List.length_append, List.length_singleton] <;> omega
      · rcases memts t' ht with ⟨rfl, hb⟩ | ⟨_, rfl⟩
        · refine ⟨by show 2 ≤ Rs.length; omega, by show t.f.last - (t.f.first + P.length + q.length + 1) = Rs.length; omega, ?_⟩
          unfold need
          rw [if_neg (by show ¬ (-3 : Int) = -1; decide), if_pos rfl]
          exact Nat.le_refl _
        · refine ⟨by simp; omega, by simp; omega, need_le_room (by
            have := trIlg_nonneg (n := q.length + 1) (by omega) (by omega)
            show nx ≠ -3
            omega) fun hm1 => ?_⟩
          have hm1 : nx = -1 := hm1
          have hkey : ch isa1 (z + t.f.d) = ch isa1 z := by
            rcases n2 with n2 | n2
            · have := trIlg_nonneg (n := q.length + 1) (by omega) (by omega)
              omega
            · exact n2.2
          have hzP : z ∉ P := fun hz => hdisj z hz (by simp)
          have hzk : ch isa1 z = t.f.last - 1 := by rw [s4 z hzP]; exact T.cls.cls z (hgX z (by simp))
          have hzd : z + t.f.d ∈ Y := by
            by_cases hp : z + t.f.d ∈ P
            · exact y2 _ (memX _ (.inl hp))
            · rw [s4 _ hp, hzk] at hkey
              exact y2 _ ((T.cls.mem _).2 ⟨T.rd U z (hgX z (by simp)), by omega⟩)
          have hsub : t.f.d + h - h = t.f.d := by omega
          have := ends_le (h := h) (t := ⟨⟨t.f.d + h, t.f.first + P.length, t.f.first + P.length + q.length + 1, nx, t.f.trlink⟩, q ++ [z], 0⟩) (Y := Y)
            (List.nodup_append.1 (List.nodup_append.1 hnd).2.1).1 (fun y hy => y2 y (hgX y hy))
            (fun y hy => by
              show y + (t.f.d + h - h) ∈ Y
              rw [hsub]
              exact y3 y z (hgX y hy) (hgX z (by simp)) (e4 y z hy (by simp)) hzd)
          rw [y1] at this
          exact this
    refine works_of_step (ts := ts) (fl0 := fl0) (x1 := ⟨sa1, isa2, bud⟩) ?_ r1 (hu.1.trans hlen) ?_ ?_ hl ?_ (by omega) ⟨hneeds, hneed⟩ ?_
    · rw [tstep]
      unfold sortedStep
      simp only [Bind.bind, Except.bind]
      rw [s1]
      simp only []
      rw [if_pos (by omega), u1]
      simp only []
      rw [show t.f.first + P.length + q.length - (t.f.first + P.length) + 1 = q.length + 1 by omega, n1]
      simp only []
      rw [show t.f.first + P.length + q.length + 1 - (t.f.first + P.length) = q.length + 1 by omega, i1]
      exact t4
    · intro t' ht
      rcases memts t' ht with ⟨rfl, hb⟩ | ⟨_, rfl⟩
      · refine ⟨⟨r3, by show 2 ≤ Rs.length; omega, fun a b ha hb => T.ag a b (memX a (.inr (.inr ha))) (memX b (.inr (.inr hb))), T.deep, .inr rfl, fun hh => (by cases hh), ?_⟩,
          W _ (.inr ⟨rfl, by show Rs.length < t.X.length; omega⟩), rfl⟩
        unfold Holds
        rw [if_pos rfl]
        refine ⟨k, hatR, ?_, fun a b ha hb => hk a b (memX a (.inr (.inr ha))) (memX b (.inr (.inr hb))), Y, y1, fun a ha => y2 a (memX a (.inr (.inr ha))),
          fun a b ha hb => y3 a b (memX a (.inr (.inr ha))) (memX b (.inr (.inr hb)))⟩
        rw [e1] at hs
        exact (List.pairwise_append.1 (List.pairwise_append.1 hs).2.1).2.1
      · have hnx : nx ≠ -3 := by
          have := trIlg_nonneg (n := q.length + 1) (by omega) (by omega)
          omega
        refine ⟨⟨r2, by show 2 ≤ (q ++ [z]).length; simp; omega, hag, by show h ≤ t.f.d + h; omega, ?_, fun _ => ?_, ?_⟩, W _ (.inl (by show t.f.d < t.f.d + h; omega)), rfl⟩
        · have := trIlg_nonneg (n := q.length + 1) (by omega) (by omega)
          show -1 ≤ nx ∨ nx = -3
          omega
        · have := T.deep
          show 2 * h ≤ t.f.d + h
          omega
        · unfold Holds
          rw [if_neg hnx]
          exact hatg
    · refine List.Pairwise.perm ?_ t1.symm (fun h => by unfold Apart at *; omega)
      refine List.Pairwise.filter _ ?_
      cases fl0
      · simp [Apart]
      · simp
    · rw [costs_perm t1]
      have hm1 := mul_less (a := q.length + 1) (q := w.length + 1 - t.f.d) (q' := w.length + 1 - (t.f.d + h)) (by omega)
      have hm2 : t.X.length * (w.length + 1 - t.f.d) = P.length * (w.length + 1 - t.f.d) + (q.length + 1) * (w.length + 1 - t.f.d) + Rs.length * (w.length + 1 - t.f.d) := by
        rw [← Nat.add_mul, ← Nat.add_mul]
        congr 1
        omega
      have hm3 := mul_less (a := q.length + 1) (q := w.length + 1 - t.f.d) (q' := 0) (by omega)
      have hc0 : cost w t = 8 * (t.X.length * (w.length + 1 - t.f.d)) := by unfold cost phase; rw [if_pos h3]; rfl
      have hc1 : cost w ⟨⟨t.f.d, t.f.first + P.length + q.length + 1, t.f.last, -3, t.f.trlink⟩, Rs, t.n⟩ = 8 * (Rs.length * (w.length + 1 - t.f.d)) := rfl
      have hc2 : cost w ⟨⟨t.f.d + h, t.f.first + P.length, t.f.first + P.length + q.length + 1, nx, t.f.trlink⟩, q ++ [z], 0⟩ ≤ 8 * ((q.length + 1) * (w.length + 1 - (t.f.d + h))) + 4 := by
        unfold cost phase
        simp only [List.length_append, List.length_singleton]
        split
        · omega
        · split <;> omega
      cases fl0 with
      | true =>
        have : costs w ([(⟨⟨t.f.d, t.f.first + P.length + q.length + 1, t.f.last, -3, t.f.trlink⟩, Rs, t.n⟩ : Task)].filter big) ≤ 8 * (Rs.length * (w.length + 1 - t.f.d)) - 7 := by
          rw [List.filter_cons]
          split
          · simp only [List.filter_nil, costs]
            rw [hc1]
            omega
          · simp only [List.filter_nil, costs]
            omega
        simp only [if_true]
        omega
      | false =>
        simp only [Bool.false_eq_true, if_false]
        rw [costs_two, hc1]
        split <;> split <;> omega
    · intro x' fl D
      have hbg : big ⟨⟨t.f.d + h, t.f.first + P.length, t.f.first + P.length + q.length + 1, nx, t.f.trlink⟩, q ++ [z], 0⟩ = true := decide_eq_true (by show 1 < t.f.first + P.length + q.length + 1 - (t.f.first + P.length); omega)
      refine D.parts (a := t.f.first + P.length) (b := t.f.first + P.length + q.length + 1) (L := P) (E := q ++ [z]) (G := Rs) (by rw [e1]) r4 (hu.mono (by omega) (by omega)) ?_ ?_ ?_ ?_ t2 t3
      · intro t' ht
        rcases memts t' ht with ⟨rfl, hb⟩ | ⟨_, rfl⟩
        · exact ⟨by show t.f.first ≤ t.f.first + P.length + q.length + 1; omega, Nat.le_refl _⟩
        · exact ⟨by show t.f.first ≤ t.f.first + P.length; omega, by show t.f.first + P.length + q.length + 1 ≤ t.f.last; omega⟩
      · refine .inr ⟨fun t' ht => ?_, fun y hy => T.cls.lt (memX y (.inl hy)), single_res hatP vP⟩
        rcases memts t' ht with ⟨rfl, hb⟩ | ⟨_, rfl⟩
        · exact .inr (by show t.f.first + P.length ≤ t.f.first + P.length + q.length + 1; omega)
        · exact .inr (Nat.le_refl _)
      · cases fl0 with
        | false =>
          refine .inl ⟨⟨⟨t.f.d + h, t.f.first + P.length, t.f.first + P.length + q.length + 1, nx, t.f.trlink⟩, q ++ [z], 0⟩, t1.mem_iff.2 ?_, rfl, rfl, rfl⟩
          simp only [Bool.false_eq_true, if_false, List.mem_filter]
          exact ⟨by simp, hbg⟩
        | true =>
          refine .inr ⟨fun t' ht => ?_, fun y hy => T.cls.lt (hgX y hy), r2.res hatg (fun a b ha hb => (hag a b ha hb).mono (by have := T.deep; omega)) (fun h => (by cases h))⟩
          rcases memts t' ht with ⟨rfl, hb⟩ | ⟨hf, _⟩
          · exact .inr (Nat.le_refl _)
          · cases hf
      · refine part_of (t := ⟨⟨t.f.d, t.f.first + P.length + q.length + 1, t.f.last, -3, t.f.trlink⟩, Rs, t.n⟩) ?_ ?_ r3 ?_
        · intro hb
          refine t1.mem_iff.2 (List.mem_filter.2 ⟨?_, hb⟩)
          cases fl0 <;> simp
        · intro hb t' ht
          rcases memts t' ht with ⟨rfl, hb'⟩ | ⟨_, rfl⟩
          · exact absurd hb' (of_decide_eq_false hb)
          · exact .inl (Nat.le_refl _)
        · intro hb
          have : ¬ 1 < t.f.last - (t.f.first + P.length + q.length + 1) := of_decide_eq_false hb
          match Rs, hatR, hXlen with
          | [], _, _ => exact at_nil
          | [r], hatR, _ => exact hatR
          | _ :: _ :: _, _, hXlen => simp at hXlen; omega

end Tr

end Dss
end Detools
