import Verif.Proofs.SsSwap
/-
ss_swapmerge merges two sorted lists.
-/
namespace Detools
namespace Dss
open Sais

section
variable {k : Nat → List Nat}

theorem joinB_cons_append {x : List Nat} {l r : List Nat} (h : l ≠ []) : joinB k x (l ++ r) = joinB k x l := by
  cases l with
  | nil => exact absurd rfl h
  | cons s l => rfl

theorem joinB_append_left {l r y : List Nat} (h : r ≠ []) : joinB k (l ++ r) y = joinB k r y := by
  obtain ⟨p, hp⟩ : ∃ p, r.getLast? = some p := by
    cases h' : r.getLast? with
    | none => exact absurd (List.getLast?_eq_none_iff.1 h') h
    | some p => exact ⟨p, rfl⟩
  unfold joinB
  rw [List.getLast?_append, hp]
  rfl

theorem joinB_true {x y : List Nat} {p q : Nat} (hp : x.getLast? = some p) (hq : y.head? = some q) (h : k p = k q) : joinB k x y = true := by
  rw [joinB_some hp hq, decide_eq_true h]

theorem joinB_false_of {x y : List Nat} (h : ∀ p, p ∈ x → ∀ q, q ∈ y → k p ≠ k q) : joinB k x y = false := by
  cases hx : x.getLast? with
  | none => rw [List.getLast?_eq_none_iff.1 hx]; rfl
  | some p =>
    cases y with
    | nil => exact joinB_nil_right _
    | cons q y =>
      rw [joinB_some hx rfl, decide_eq_false (h p (List.mem_of_getLast? hx) q (List.mem_cons_self ..))]

theorem marks_three {L g R : List Nat} {b : Bool} (hL : L ≠ []) : invHead b (marks k L) ++ (invHead (joinB k L g) (marks k g) ++ invHead (joinB k (L ++ g) R) (marks k R)) =
    invHead b (marks k (L ++ (g ++ R))) := by
  have h : marks k L ≠ [] := mt marks_nil.1 hL
  rw [← List.append_assoc L, marks_join (L ++ g), marks_join L, List.append_assoc, invHead_append h]

end

theorem exists_last {l : List Nat} (h : l ≠ []) : ∃ p, l.getLast? = some p := by
  cases h' : l.getLast? with
  | none => exact absurd (List.getLast?_eq_none_iff.1 h') h
  | some p => exact ⟨p, rfl⟩

theorem ne_of_perm {α : Type} {x y : List α} (hp : x.Perm y) (h : y ≠ []) : x ≠ [] := fun h0 => by
  rw [h0] at hp
  exact h hp.symm.eq_nil

section
variable {e : SsText} {P : Nat → Nat} {m : Nat} {d buf bufsize : Nat}

theorem skipUp_ok {B : List Int} {v : Int} (hv : 0 ≤ v) : ∀ (g : List Int) (A : List Int) (todo r : Nat), (∀ x, x ∈ g → x < 0) → g.length < todo → r = A.length →
    skipUp (A ++ (g ++ v :: B)) todo r = .ok (A.length + g.length)
  | [], A, todo, r, _, ht, hr => by
    obtain ⟨t, rfl⟩ : ∃ t, todo = t + 1 := ⟨todo - 1, by rw [List.length_nil] at ht; omega⟩
    simp only [skipUp, Bind.bind, Except.bind]
    rw [List.nil_append, rd_mid hr]
    simp only []
    rw [if_neg (by omega), hr]
    rfl
  | y :: g, A, todo, r, hg, ht, hr => by
    rw [List.length_cons] at ht
    obtain ⟨t, rfl⟩ : ∃ t, todo = t + 1 := ⟨todo - 1, by omega⟩
    simp only [skipUp, Bind.bind, Except.bind]
    rw [List.cons_append, rd_mid hr]
    simp only []
    rw [if_pos (hg y (List.mem_cons_self ..))]
    have e1 : A ++ y :: (g ++ v :: B) = (A ++ [y]) ++ (g ++ v :: B) := by simp
    rw [e1, skipUp_ok hv g (A ++ [y]) t (r + 1) (fun x hx => hg x (List.mem_cons_of_mem _ hx)) (by omega) (by simp; omega)]
    congr 1
    simp
    omega

/-- What is left to show of a part that is split. -/
theorem part_split {l1 l2 L g R : List Nat} {ck : Bits} {p q : Nat} {A M J K B G : List Int} {s s1 : List Part} {f f1 : Part} {a a1 : List Int} {bR : Bool} {C : Nat}
    (hs : swapmergeStep e d buf bufsize f s a = .ok (some (f1, s1), a1)) (hL : L ≠ []) (hR : R ≠ []) (hp : (L ++ (g ++ R)).Perm (l1 ++ l2))
    (sL : Srt (key e P) L) (sg : ∀ x, x ∈ g → ∀ y, y ∈ g → key e P x = key e P y) (sR : Srt (key e P) R)
    (o1 : ∀ x, x ∈ L → ∀ y, y ∈ g ++ R → ¬ Lex (key e P y) (key e P x)) (o2 : ∀ x, x ∈ g → ∀ y, y ∈ R → ¬ Lex (key e P y) (key e P x)) (hK : K.Perm J)
    (hG : G = invHead (joinB (key e P) L g) (marks (key e P) g)) (hb : bR = joinB (key e P) (L ++ g) R)
    (hr : SmRuns e d buf bufsize f1 s1 a1 s (A ++ (invHead (ck.b1 || (ck.b2 && joinB (key e P) [p] L)) (marks (key e P) L) ++ (G ++ (invHead bR (marks (key e P) R) ++
      (invHead (ck.b4 && joinB (key e P) R [q]) M ++ (K ++ B)))))) C) :
    ∃ (l' : List Nat) (K : List Int), l'.Perm (l1 ++ l2) ∧ Srt (key e P) l' ∧ K.Perm J ∧ SmRuns e d buf bufsize f s a s
        (A ++ (invHead (false || ck.b1 || (ck.b2 && joinB (key e P) [p] l')) (marks (key e P) l') ++ (invHead (ck.b4 && joinB (key e P) l' [q]) M ++ (K ++ B)))) (C + 1) := by
  refine ⟨L ++ (g ++ R), K, hp, ?_, hK, SmRuns.step hs ?_⟩
  · refine Srt.append.2 ⟨sL, Srt.append.2 ⟨?_, sR, o2⟩, o1⟩
    refine List.Pairwise.imp_of_mem (R := fun _ _ => True) ?_ (List.pairwise_of_forall (fun _ _ => trivial))
    intro x y hx hy _ h
    rw [sg x hx y hy] at h
    exact h.irrefl
  · rw [joinB_cons_append hL, ← List.append_assoc L, joinB_append_left hR, List.append_assoc, Bool.false_or, ← marks_three hL, ← hG, ← hb]
    simpa using hr

theorem swapmergeStep_swap {f f1 : Part} {s s1 : List Part} {a a1 a2 : List Int} {c l r : Nat} {nx : Bits} (h1 : bufsize < f.last - f.middle) (h2 : bufsize < f.middle - f.first)
    (hs : swapSearch e d f.middle a (min (f.middle - f.first) (f.last - f.middle) + 1) 0 (min (f.middle - f.first) (f.last - f.middle)) (min (f.middle - f.first) (f.last - f.middle) / 2) = .ok c)
    (hc : 0 < c) (hb : blockswap c (f.middle - c) f.middle a = .ok a1) (hn : swapNext f (f.middle - c) (f.middle + c) a1 = .ok (l, r, nx, a2))
    (hp : swapPush f (f.middle - c) (f.middle + c) l r nx s = .ok (f1, s1)) : swapmergeStep e d buf bufsize f s a = .ok (some (f1, s1), a2) := by
  unfold swapmergeStep
  rw [if_neg (by omega), if_neg (by omega)]
  simp only [Bind.bind, Except.bind]
  rw [hs]
  simp only []
  rw [if_pos hc]
  unfold swapStep
  simp only [Bind.bind, Except.bind]
  rw [hb]
  simp only []
  rw [hn]
  simp only []
  rw [hp]

/-- A part that is merged at once. -/
theorem part_small (X : Pos e P m) {U l1 l2 : List Nat} {β : Bool} (hU : Seg e P m d U) (hl : ∀ x, x ∈ l1 ++ l2 → x ∈ U) (hne : l1 ++ l2 ≠ []) (s1 : Srt (key e P) l1) (s2 : Srt (key e P) l2)
    (hβ : β = true → l2 = []) (hsm : l2.length ≤ bufsize ∨ l1.length ≤ bufsize) : PartOk e P d buf bufsize U l1 l2 β 1 := by
  intro k ck p q A M J B s first middle last hf hm hlast hbuf hJ hk hs hb h2 h4
  by_cases he : l1 = [] ∨ l2 = []
  · refine ⟨l1 ++ l2, J, .refl _, ?_, .refl _, SmRuns.done ?_⟩
    · rcases he with h | h
      · rw [h]; exact s2
      · rw [h, List.append_nil]; exact s1
    · have hstep : swapmergeStep e d buf bufsize ⟨first, middle, last, ck⟩ s (A ++ (invHead β (marks (key e P) l1) ++ (marks (key e P) l2 ++ (M ++ (J ++ B))))) =
          (mergeCheck e d ⟨first, middle, last, ck⟩ (A ++ (invHead β (marks (key e P) l1) ++ (marks (key e P) l2 ++ (M ++ (J ++ B)))))).bind fun a => .ok (none, a) := by
        unfold swapmergeStep
        by_cases h3 : last - middle ≤ bufsize
        · simp only []
          rw [if_pos h3]
          have : (decide (first < middle) && decide (middle < last)) = false := by
            rcases he with h | h
            · rw [h, List.length_nil] at hm
              rw [decide_eq_false (by omega)]
              rfl
            · rw [h, List.length_nil] at hlast
              rw [decide_eq_false (p := middle < last) (by omega), Bool.and_false]
          rw [this]
          rfl
        · simp only []
          rw [if_neg h3, if_pos (by omega)]
          have : decide (first < middle) = false := by
            rcases he with h | h
            · rw [h, List.length_nil] at hm
              rw [decide_eq_false (by omega)]
            · rw [h, List.length_nil] at hlast
              omega
          rw [this]
          rfl
      rw [hstep]
      have e1 : invHead β (marks (key e P) l1) ++ (marks (key e P) l2 ++ (M ++ (J ++ B))) = invHead β (marks (key e P) (l1 ++ l2)) ++ (M ++ (J ++ B)) := by
        rcases he with h | h
        · subst h
          have hβ' : β = false := by
            cases h' : β with
            | false => rfl
            | true => rw [hβ h'] at hne; exact absurd rfl hne
          rw [hβ', invHead_false, invHead_false]
          rfl
        · rw [h, List.append_nil]
          rfl
      rw [e1, mergeCheck_ok X (p := p) (q := q) hU hl hne hf (by rw [List.length_append]; omega) hb h2 h4]
      rfl
  · have n1 : l1 ≠ [] := fun h => he (.inl h)
    have n2 : l2 ≠ [] := fun h => he (.inr h)
    have p1 := List.length_pos_iff.2 n1
    have p2 := List.length_pos_iff.2 n2
    have hβ' : β = false := by
      cases h' : β with
      | false => rfl
      | true => exact absurd (hβ h') n2
    rw [hβ', invHead_false]
    have hseg := hU.subset hl
    -- the merge
    obtain ⟨l', K, hp, hs', hK, hstep⟩ : ∃ l' K, l'.Perm (l1 ++ l2) ∧ Srt (key e P) l' ∧ K.Perm J ∧
        swapmergeStep e d buf bufsize ⟨first, middle, last, ck⟩ s (A ++ (marks (key e P) l1 ++ (marks (key e P) l2 ++ (M ++ (J ++ B))))) =
          (mergeCheck e d ⟨first, middle, last, ck⟩ (A ++ (marks (key e P) l' ++ (M ++ (K ++ B))))).bind fun a => .ok (none, a) := by
      unfold swapmergeStep
      simp only []
      by_cases h3 : last - middle ≤ bufsize
      · rw [if_pos h3]
        obtain ⟨J1, J2, rfl, hJ1⟩ : ∃ J1 J2, J = J1 ++ J2 ∧ J1.length = l2.length := ⟨J.take l2.length, J.drop l2.length, (List.take_append_drop _ _).symm, by rw [List.length_take]; omega⟩
        obtain ⟨o, K, ⟨l', g1, g2, g3⟩, g4, g5⟩ := ssMergebackward_ok X (M := M) (J := J1) (B := J2 ++ B) n1 n2 hseg s1 s2 hf hm hlast hbuf hJ1
        refine ⟨l', K ++ J2, g1, g2, g4.append_right _, ?_⟩
        rw [decide_eq_true (by omega : first < middle), decide_eq_true (by omega : middle < last)]
        unfold bwdIf
        rw [Bool.and_self, if_pos rfl]
        simp only []
        rw [List.append_assoc, g5, g3, List.append_assoc]
        rfl
      · rw [if_neg h3, if_pos (by omega)]
        obtain ⟨J1, J2, rfl, hJ1⟩ : ∃ J1 J2, J = J1 ++ J2 ∧ J1.length = l1.length := ⟨J.take l1.length, J.drop l1.length, (List.take_append_drop _ _).symm, by rw [List.length_take]; omega⟩
        obtain ⟨o, K, ⟨l', g1, g2, g3⟩, g4, g5⟩ := ssMergeforward_ok X (M := M) (J := J1) (B := J2 ++ B) n1 n2 hseg s1 s2 hf hm hlast hbuf hJ1
        refine ⟨l', K ++ J2, g1, g2, g4.append_right _, ?_⟩
        rw [decide_eq_true (by omega : first < middle)]
        unfold fwdIf
        rw [if_pos rfl]
        simp only []
        rw [List.append_assoc, g5, g3, List.append_assoc]
        rfl
    refine ⟨l', K, hp, hs', hK, SmRuns.done ?_⟩
    rw [hstep]
    have := mergeCheck_ok X (p := p) (q := q) (middle := middle) (β := false) (ck := ck) (M := M) (R := K ++ B) hU (fun x hx => hl x (hp.subset hx)) (ne_of_perm hp hne) hf
      (last := last) (by rw [hp.length_eq, List.length_append]; omega) (fun h => by cases h) h2 h4
    rw [invHead_false] at this
    rw [this]
    rfl

/-- The two lists are in order already. -/
theorem part_order (X : Pos e P m) {U l1 l2 : List Nat} {ck : Bits} {p q : Nat} {A M J B : List Int} {s : List Part} {first middle last : Nat} (hU : Seg e P m d U)
    (hl : ∀ x, x ∈ l1 ++ l2 → x ∈ U) (n1 : l1 ≠ []) (n2 : l2 ≠ []) (s1 : Srt (key e P) l1) (s2 : Srt (key e P) l2) (ho : ∀ x, x ∈ l1 → ∀ y, y ∈ l2 → ¬ Lex (key e P y) (key e P x))
    (hf : first = A.length) (hm : middle = first + l1.length) (hlast : last = middle + l2.length) (hb1 : bufsize < last - middle) (hb2 : bufsize < middle - first)
    (h2 : ck.b1 = false → ck.b2 = true → p ∈ U ∧ ∃ (A0 : List Int) (v : Int), A = A0 ++ [v] ∧ (v = (p : Int) ∨ v = inv p)) (h4 : ck.b4 = true → q ∈ U ∧ ∃ M1 : List Int, M = (q : Int) :: M1)
    (hs : swapSearch e d middle (A ++ (marks (key e P) l1 ++ (marks (key e P) l2 ++ (M ++ (J ++ B))))) (min (middle - first) (last - middle) + 1) 0 (min (middle - first) (last - middle))
      (min (middle - first) (last - middle) / 2) = .ok 0) :
    ∃ (l' : List Nat) (K : List Int), l'.Perm (l1 ++ l2) ∧ Srt (key e P) l' ∧ K.Perm J ∧
      SmRuns e d buf bufsize ⟨first, middle, last, ck⟩ s (A ++ (marks (key e P) l1 ++ (marks (key e P) l2 ++ (M ++ (J ++ B))))) s
        (A ++ (invHead (false || ck.b1 || (ck.b2 && joinB (key e P) [p] l')) (marks (key e P) l') ++ (invHead (ck.b4 && joinB (key e P) l' [q]) M ++ (K ++ B)))) 1 := by
  refine ⟨l1 ++ l2, J, .refl _, Srt.append.2 ⟨s1, s2, ho⟩, .refl _, SmRuns.done ?_⟩
  unfold swapmergeStep
  simp only []
  rw [if_neg (by omega), if_neg (by omega)]
  simp only [Bind.bind, Except.bind]
  rw [hs]
  simp only []
  rw [if_neg (by decide)]
  obtain ⟨pl, hpl⟩ := exists_last n1
  have hml : (A ++ marks (key e P) l1).length = middle := by rw [List.length_append, marks_length]; omega
  have e1 : A ++ (marks (key e P) l1 ++ (marks (key e P) l2 ++ (M ++ (J ++ B)))) = (A ++ marks (key e P) l1) ++ (marks (key e P) l2 ++ (M ++ (J ++ B))) := by simp
  have hc : sameAsBefore true e d middle (A ++ (marks (key e P) l1 ++ (marks (key e P) l2 ++ (M ++ (J ++ B))))) = .ok (joinB (key e P) l1 l2) := by
    obtain ⟨A0, v, hA0, hv⟩ := last_marks (e := e) (P := P) (b := false) (A := A) hpl
    rw [invHead_false] at hA0
    cases l2 with
    | nil => exact absurd rfl n2
    | cons r l2 =>
      rw [sameAsBefore_ok X (p := pl) (q := r) hU (hl pl (List.mem_append_left _ (List.mem_of_getLast? hpl))) (hl r (List.mem_append_right _ (List.mem_cons_self ..)))
        (by
          rw [e1, hA0]
          refine getIdx_snoc ?_ hv
          rw [← hml, hA0]
          simp) (by rw [e1]; exact getNo_mid hml.symm), joinB_some hpl rfl]
  rw [hc]
  simp only []
  have hmn : marks (key e P) l2 ≠ [] := mt marks_nil.1 n2
  rw [e1, invIf_ok hml.symm (fun _ h => hmn (List.append_eq_nil_iff.1 h).1), invHead_append hmn]
  simp only []
  have e2 : A ++ marks (key e P) l1 ++ (invHead (joinB (key e P) l1 l2) (marks (key e P) l2) ++ (M ++ (J ++ B))) = A ++ (invHead false (marks (key e P) (l1 ++ l2)) ++ (M ++ (J ++ B))) := by
    rw [invHead_false, marks_join l1 l2]; simp
  rw [e2, mergeCheck_ok X (p := p) (q := q) hU hl (by simp [n1]) hf (by rw [List.length_append]; omega) (fun h => by cases h) h2 h4]

/-! ### What is found at `rm` -/

theorem swapNext_end {f : Part} {lm rm : Nat} {a : List Int} (h : f.last ≤ rm) : swapNext f lm rm a = .ok (f.middle, f.middle, ⟨false, false, false⟩, a) := by
  unfold swapNext
  rw [if_neg (by omega)]

theorem swapNext_neg {f : Part} {lm rm : Nat} {A R : List Int} {v : Nat} (h : rm < f.last) (hr : rm = A.length) (hl : f.first = lm) :
    swapNext f lm rm (A ++ inv v :: R) = .ok (f.middle, f.middle, ⟨true, false, false⟩, A ++ (v : Int) :: R) := by
  unfold swapNext
  rw [if_pos h]
  simp only [Bind.bind, Except.bind]
  rw [rd_mid hr]
  simp only []
  rw [if_pos (inv_neg v), wr_mid hr]
  simp only []
  rw [if_neg (by omega), inv_inv]

theorem swapNext_back {f : Part} {lm rm : Nat} {A R Y : List Int} {v g0 : Nat} {gs : List Nat} (h : rm < f.last) (hm : f.middle = A.length + 1 + gs.length) (hr : rm = f.middle + Y.length) (hl : f.first < lm) :
    swapNext f lm rm (A ++ (g0 : Int) :: (gs.map (fun s : Nat => inv s) ++ (Y ++ inv v :: R))) =
      .ok (A.length, f.middle, ⟨true, false, true⟩, A ++ (g0 : Int) :: (gs.map (fun s : Nat => inv s) ++ (Y ++ (v : Int) :: R))) := by
  unfold swapNext
  rw [if_pos h]
  simp only [Bind.bind, Except.bind]
  have e1 : ∀ w : Int, A ++ (g0 : Int) :: (gs.map (fun s : Nat => inv s) ++ (Y ++ w :: R)) = (A ++ (g0 : Int) :: (gs.map (fun s : Nat => inv s) ++ Y)) ++ w :: R := fun w => by simp
  have hr' : rm = (A ++ (g0 : Int) :: (gs.map (fun s : Nat => inv s) ++ Y)).length := by simp; omega
  rw [e1, rd_mid hr']
  simp only []
  rw [if_pos (inv_neg v), wr_mid hr']
  simp only []
  rw [if_pos hl, inv_inv, ← e1]
  have := skipBack_ok (gs.map (fun s : Nat => inv s)).reverse A (Y ++ (v : Int) :: R) (g0 : Int) f.middle (Int.natCast_nonneg _) (fun x hx => map_inv_neg x (List.mem_reverse.1 hx))
    (by rw [List.length_reverse, List.length_map]; exact hm)
  rw [List.reverse_reverse] at this
  rw [this]

theorem swapNext_zero {f : Part} {lm rm : Nat} {A R : List Int} {v : Nat} (h : rm < f.last) (hr : rm = A.length) (hl : f.first = lm) :
    swapNext f lm rm (A ++ (v : Int) :: R) = .ok (f.middle, f.middle, ⟨false, false, false⟩, A ++ (v : Int) :: R) := by
  unfold swapNext
  rw [if_pos h]
  simp only [Bind.bind, Except.bind]
  rw [rd_mid hr]
  simp only []
  rw [if_neg (by omega), if_neg (by omega)]

theorem swapNext_up {f : Part} {lm rm : Nat} {A Y R : List Int} {v : Nat} {g : List Nat} (h : rm < f.last) (hm : f.middle = A.length) (hr : rm = f.middle + g.length + Y.length) (hl : f.first < lm)
    (hY : ∀ u, Y.head? = some u → 0 ≤ u) :
    swapNext f lm rm (A ++ (g.map (fun s : Nat => inv s) ++ (Y ++ (v : Int) :: R))) =
      .ok (f.middle, f.middle + g.length, ⟨false, true, false⟩, A ++ (g.map (fun s : Nat => inv s) ++ (Y ++ (v : Int) :: R))) := by
  unfold swapNext
  rw [if_pos h]
  simp only [Bind.bind, Except.bind]
  have e1 : A ++ (g.map (fun s : Nat => inv s) ++ (Y ++ (v : Int) :: R)) = (A ++ (g.map (fun s : Nat => inv s) ++ Y)) ++ (v : Int) :: R := by simp
  rw [e1, rd_mid (by simp; omega)]
  simp only []
  rw [if_neg (by omega), if_pos hl, ← e1]
  have hlen : (g.map fun s : Nat => inv s).length < (A ++ (g.map (fun s : Nat => inv s) ++ (Y ++ (v : Int) :: R))).length - f.middle := by simp; omega
  cases Y with
  | nil =>
    rw [List.nil_append] at hlen ⊢
    rw [skipUp_ok (Int.natCast_nonneg v) _ A _ _ map_inv_neg hlen hm, List.length_map, hm]
  | cons u Y =>
    rw [List.cons_append] at hlen ⊢
    rw [skipUp_ok (hY u rfl) _ A _ _ map_inv_neg hlen hm, List.length_map, hm]

/-- The two parts are merged, and then the part is. -/
theorem part_combine {U l1 l2 gg la lb lc ld : List Nat} {β : Bool} {CL CR : Nat} (hL : PartOk e P d buf bufsize U la lb false CL) (hR : PartOk e P d buf bufsize U lc ld β CR)
    {k : Nat} {ck nx : Bits} {p q g pg : Nat} {A G M J B a : List Int} {s : List Part} {first lm l r rm middle last : Nat}
    (hf : first = A.length) (hlm : lm = first + la.length) (hl : l = lm + lb.length) (hr : r = l + G.length) (hrm : rm = r + lc.length) (hlast : last = rm + ld.length)
    (hbuf : buf = last + M.length) (hJ : J.length = bufsize) (hk : la.length + lb.length + (lc.length + ld.length) < 2 ^ k) (hs : k + s.length ≤ 32)
    (hneL : la ++ lb ≠ []) (hneR : lc ++ ld ≠ []) (hlU : ∀ x, x ∈ la ++ lb ++ (lc ++ ld) → x ∈ U)
    (h2 : ck.b1 = false → ck.b2 = true → p ∈ U ∧ ∃ (A0 : List Int) (v : Int), A = A0 ++ [v] ∧ (v = (p : Int) ∨ v = inv p))
    (h4 : ck.b4 = true → q ∈ U ∧ ∃ M1 : List Int, M = (q : Int) :: M1)
    (hn1 : nx.b1 = true → β = false) (hn4 : nx.b4 = true → nx.b2 = false ∧ g ∈ U ∧ ∃ G1 : List Int, G = (g : Int) :: G1)
    (hn2 : nx.b2 = true → β = false ∧ middle = l ∧ nx.b1 = false ∧ nx.b4 = false ∧ (G ≠ [] → pg ∈ U ∧ ∃ (G0 : List Int) (v : Int), G = G0 ++ [v] ∧ (v = (pg : Int) ∨ v = inv pg)))
    (hstep : ∀ f1 s1, swapPush ⟨first, middle, last, ck⟩ lm rm l r nx s = .ok (f1, s1) → swapmergeStep e d buf bufsize ⟨first, middle, last, ck⟩ s a =
      .ok (some (f1, s1), A ++ (marks (key e P) la ++ (marks (key e P) lb ++ (G ++ (invHead β (marks (key e P) lc) ++ (marks (key e P) ld ++ (M ++ (J ++ B)))))))))
    (hp : (la ++ lb ++ (gg ++ (lc ++ ld))).Perm (l1 ++ l2)) (sg : ∀ x, x ∈ gg → ∀ y, y ∈ gg → key e P x = key e P y)
    (o1 : ∀ x, x ∈ la ++ lb → ∀ y, y ∈ gg ++ (lc ++ ld) → ¬ Lex (key e P y) (key e P x)) (o2 : ∀ x, x ∈ gg → ∀ y, y ∈ lc ++ ld → ¬ Lex (key e P y) (key e P x))
    (hfin : ∀ (L R : List Nat) (pL r0 : Nat) (R' : List Nat), L.Perm (la ++ lb) → Srt (key e P) L → R.Perm (lc ++ ld) → Srt (key e P) R → L.getLast? = some pL → R = r0 :: R' →
      invHead (nx.b4 && joinB (key e P) L [g]) G = invHead (joinB (key e P) L gg) (marks (key e P) gg) ∧
      (β || nx.b1 || (nx.b2 && joinB (key e P) (if G = [] then L else [pg]) R)) = joinB (key e P) (L ++ gg) R) :
    ∃ (l' : List Nat) (K : List Int), l'.Perm (l1 ++ l2) ∧ Srt (key e P) l' ∧ K.Perm J ∧ SmRuns e d buf bufsize ⟨first, middle, last, ck⟩ s a s
        (A ++ (invHead (false || ck.b1 || (ck.b2 && joinB (key e P) [p] l')) (marks (key e P) l') ++ (invHead (ck.b4 && joinB (key e P) l' [q]) M ++ (K ++ B)))) (CL + CR + 1) := by
  obtain ⟨f1, s1', L, R, K, g1, g2, g3, g4, g5, g6, g7⟩ := swapPush_ok hL hR (B := B) hf hlm hl hr hrm hlast hbuf hJ hk hs hneL hneR hlU h2 h4 hn1 hn4 hn2
  have hLne := ne_of_perm g1 hneL
  have hRne := ne_of_perm g3 hneR
  obtain ⟨pL, hpL⟩ := exists_last hLne
  obtain ⟨r0, R', hRc⟩ : ∃ r0 R', R = r0 :: R' := by
    cases h : R with
    | nil => exact absurd h hRne
    | cons r0 R' => exact ⟨r0, R', rfl⟩
  obtain ⟨f1', f2'⟩ := hfin L R pL r0 R' g1 g2 g3 g4 hpL hRc
  refine part_split (g := gg) (hstep _ _ g6) hLne hRne ((g1.append (g3.append_left _)).trans hp) g2 sg g4 (fun x hx y hy => ?_) (fun x hx y hy => o2 x hx y (g3.subset hy)) g5 f1' f2' g7
  refine o1 x (g1.subset hx) y ?_
  rcases List.mem_append.1 hy with h | h
  · exact List.mem_append_left _ h
  · exact List.mem_append_right _ (g3.subset h)

/-! ### A part -/

theorem part_ok (X : Pos e P m) {U : List Nat} (hU : Seg e P m d U) : ∀ (n : Nat) (l1 l2 : List Nat) (β : Bool), l1.length + l2.length ≤ n → l1 ++ l2 ≠ [] → (∀ x, x ∈ l1 ++ l2 → x ∈ U) →
    Srt (key e P) l1 → Srt (key e P) l2 → (β = true → l2 = []) → PartOk e P d buf bufsize U l1 l2 β (2 * (l1.length + l2.length) - 1)
  | 0, l1, l2, β, hn, hne, _, _, _, _ => by
    refine absurd ?_ hne
    rw [List.length_eq_zero_iff.1 (by omega : l1.length = 0), List.length_eq_zero_iff.1 (by omega : l2.length = 0)]
    rfl
  | n + 1, l1, l2, β, hn, hne, hl, s1, s2, hβ => by
    have hpos := List.length_pos_iff.2 hne
    rw [List.length_append] at hpos
    by_cases hsm : l2.length ≤ bufsize ∨ l1.length ≤ bufsize
    · intro k ck p q A M J B s first middle last hf hm hlast hbuf hJ hk hs hb h2 h4
      obtain ⟨l', K, g1, g2, g3, g4⟩ := part_small X hU hl hne s1 s2 hβ hsm k ck p q A M J B s first middle last hf hm hlast hbuf hJ hk hs hb h2 h4
      exact ⟨l', K, g1, g2, g3, g4.mono (by omega)⟩
    · intro k ck p q A M J B s first middle last hf hm hlast hbuf hJ hk hs hb h2 h4
      have n1 : l1 ≠ [] := fun h => by rw [h] at hsm; simp at hsm
      have n2 : l2 ≠ [] := fun h => by rw [h] at hsm; simp at hsm
      have hβ' : β = false := by
        cases h' : β with
        | false => rfl
        | true => exact absurd (hβ h') n2
      subst hβ'
      rw [invHead_false]
      have hml : (A ++ marks (key e P) l1).length = middle := by rw [List.length_append, marks_length]; omega
      obtain ⟨la, lb, lc, ld, hl1, hl2, hlen, hsearch, hcb, had⟩ := swapSearch_parts X (hU.subset hl) s1 s2 (middle := middle) (a := A ++ (marks (key e P) l1 ++ (marks (key e P) l2 ++ (M ++ (J ++ B)))))
        (fun j r hj hr => getIdx_marks (by omega) hr)
        (fun j r hr => by
          rw [← List.append_assoc]
          exact getIdx_marks (by omega) hr)
      rw [show l1.length = middle - first by omega, show l2.length = last - middle by omega] at hsearch
      by_cases hc0 : lc.length = 0
      · rw [hc0] at hsearch
        obtain ⟨l', K, g1, g2, g3, g4⟩ := part_order (buf := buf) (bufsize := bufsize) (s := s) X hU hl n1 n2 s1 s2 (by
          rw [List.length_eq_zero_iff.1 hc0, List.nil_append] at hl2
          rw [List.length_eq_zero_iff.1 (by omega : lb.length = 0), List.append_nil] at hl1
          rw [hl1, hl2]
          exact had) hf hm hlast (by omega) (by omega) h2 h4 hsearch
        exact ⟨l', K, g1, g2, g3, g4.mono (by omega)⟩
      · have hlb : lb ≠ [] := fun h => by rw [h, List.length_nil] at hlen; omega
        have hlc : lc ≠ [] := fun h => by rw [h, List.length_nil] at hc0; omega
        subst hl1
        subst hl2
        have t1 := Srt.append.1 s1
        have t2 := Srt.append.1 s2
        have hblk : blockswap lc.length (middle - lc.length) middle (A ++ (marks (key e P) (la ++ lb) ++ (marks (key e P) (lc ++ ld) ++ (M ++ (J ++ B))))) =
            .ok (A ++ (marks (key e P) la ++ (marks (key e P) lc ++ (invHead (joinB (key e P) la lb) (marks (key e P) lb) ++ (invHead (joinB (key e P) lc ld) (marks (key e P) ld) ++ (M ++ (J ++ B))))))) := by
          rw [marks_join la lb, marks_join lc ld]
          have := blockswap_ok (invHead (joinB (key e P) la lb) (marks (key e P) lb)) (marks (key e P) lc) (A ++ marks (key e P) la) []
            (invHead (joinB (key e P) lc ld) (marks (key e P) ld) ++ (M ++ (J ++ B))) (middle - lc.length) middle (by rw [invHead_length, marks_length, marks_length, hlen])
            (by rw [List.length_append] at hm ⊢; rw [marks_length]; omega) (by rw [List.length_append, invHead_length, marks_length, marks_length, List.length_nil]; rw [List.length_append] at hm; omega)
          rw [invHead_length, marks_length, hlen] at this
          simpa using this
        -- the order of the new parts
        have hord : ∀ x, x ∈ la ++ lc → ∀ y, y ∈ lb ++ ld → ¬ Lex (key e P y) (key e P x) := fun x hx y hy => by
          rcases List.mem_append.1 hx with h | h <;> rcases List.mem_append.1 hy with h' | h'
          · exact t1.2.2 x h y h'
          · exact had x h y h'
          · exact (hcb x h y h').asymm
          · exact t2.2.2 x h y h'
        have hp0 : (la ++ lc ++ (lb ++ ld)).Perm (la ++ lb ++ (lc ++ ld)) := by
          rw [List.append_assoc, List.append_assoc]
          refine List.Perm.append_left _ ?_
          rw [← List.append_assoc, ← List.append_assoc]
          exact List.Perm.append_right _ List.perm_append_comm
        simp only [List.length_append] at hm hlast hn hpos hk hsm
        have mA : ∀ {x}, x ∈ la → x ∈ U := fun h => hl _ (by simp [h])
        have mB : ∀ {x}, x ∈ lb → x ∈ U := fun h => hl _ (by simp [h])
        have mC : ∀ {x}, x ∈ lc → x ∈ U := fun h => hl _ (by simp [h])
        have mD : ∀ {x}, x ∈ ld → x ∈ U := fun h => hl _ (by simp [h])
        obtain ⟨pc, hpc⟩ := exists_last hlc
        obtain ⟨b0, lb', hlbc⟩ : ∃ b0 lb', lb = b0 :: lb' := by
          cases h : lb with
          | nil => exact absurd h hlb
          | cons b0 lb' => exact ⟨b0, lb', rfl⟩
        have hb0 : b0 ∈ lb := by rw [hlbc]; exact List.mem_cons_self ..
        have hfb : middle - lc.length = first + la.length := by omega
        cases hld : ld with
        | nil =>
          subst hld
          simp only [List.length_nil] at hlast hn hpos hk hsm
          have hL := part_ok X hU n la lc false (by omega) (by simp [hlc]) (fun x hx => (List.mem_append.1 hx).elim mA mC) t1.1 t2.1 (fun h => by cases h)
          have hR := part_ok X hU n lb [] (joinB (key e P) la lb) (by rw [List.length_nil]; omega) (by simp [hlb]) (fun x hx => mB (by simpa using hx)) t1.2.1 List.Pairwise.nil (fun _ => rfl)
          obtain ⟨l', K', i1, i2, i3, i4⟩ := part_combine (l1 := la ++ lb) (l2 := lc ++ []) (gg := []) hL hR (k := k) (ck := ck) (nx := ⟨false, false, false⟩) (p := p) (q := q) (g := 0) (pg := 0)
            (A := A) (G := []) (M := M) (J := J) (B := B) (s := s) (first := first) (lm := middle - lc.length) (l := middle) (r := middle) (rm := middle + lc.length) (middle := middle) (last := last)
            hf hfb (by omega) rfl (by omega) (by simp; omega) hbuf hJ (by simp; omega) hs (by simp [hlc]) (by simp [hlb])
            (fun x hx => by
              rcases List.mem_append.1 hx with h | h
              · exact (List.mem_append.1 h).elim mA mC
              · exact mB (by simpa using h)) h2 h4 (fun h => by cases h) (fun h => by cases h) (fun h => by cases h)
            (fun f1 s1 hp => by
              have := swapmergeStep_swap (e := e) (d := d) (buf := buf) (bufsize := bufsize) (f := ⟨first, middle, last, ck⟩) (s := s) (by show bufsize < last - middle; omega) (by show bufsize < middle - first; omega)
                hsearch (by omega) hblk (swapNext_end (by show last ≤ middle + lc.length; omega)) hp
              rw [this, show marks (key e P) [] = [] from rfl, invHead_nil]
              rfl)
            hp0 (fun x hx => by cases hx) (fun x hx y hy => hord x hx y (by simpa using hy)) (fun x hx => by cases hx)
            (fun L R pL r0 R' g1 g2 g3 g4 hpL hRc => by
              refine ⟨by rw [invHead_nil]; exact (invHead_nil _).symm, ?_⟩
              rw [Bool.false_and, Bool.or_false, Bool.or_false, List.append_nil]
              have hr0 : key e P r0 = key e P b0 := g4.head_key (by rw [hRc]; rfl) (g3.symm.subset (by rw [hlbc]; simp)) (fun y hy => t1.2.1.head_le (by rw [hlbc]; rfl) y (by simpa using g3.subset hy))
              rw [joinB_some hpL (by rw [hRc]; rfl), hr0]
              by_cases hla : la = []
              · rw [hla, joinB_nil_left, decide_eq_false]
                intro h
                have hpLc : pL ∈ lc := by
                  have := g1.subset (List.mem_of_getLast? hpL)
                  rw [hla] at this
                  exact this
                have := hcb pL hpLc b0 hb0
                rw [h] at this
                exact this.irrefl
              · obtain ⟨pa, hpa⟩ := exists_last hla
                rw [joinB_some hpa (by rw [hlbc]; rfl), decide_eq_decide]
                constructor
                · intro h
                  have : key e P pL = key e P pa := g2.last_key hpL (g1.symm.subset (List.mem_append_left _ (List.mem_of_getLast? hpa))) (fun y hy => by
                    rcases List.mem_append.1 (g1.subset hy) with h' | h'
                    · exact t1.1.le_last hpa y h'
                    · rw [h]
                      exact (hcb y h' b0 hb0).asymm)
                  rw [this, h]
                · intro h
                  rcases List.mem_append.1 (g1.subset (List.mem_of_getLast? hpL)) with h' | h'
                  · refine antisymm_key ?_ (t1.2.2 pa (List.mem_of_getLast? hpa) b0 hb0)
                    rw [← h]
                    exact t1.1.le_last hpa pL h'
                  · have := hcb pL h' b0 hb0
                    rw [h] at this
                    exact absurd this (fun x => x.irrefl))
          exact ⟨l', K', i1, i2, i3, i4.mono (by simp; omega)⟩
        | cons d0 ld' =>
          have hd0 : d0 ∈ ld := by rw [hld]; exact List.mem_cons_self ..
          have hldne : ld ≠ [] := by rw [hld]; simp
          have hldp := List.length_pos_iff.2 hldne
          have hdh : ld.head? = some d0 := by rw [hld]; rfl
          rw [← hld]
          have hR := part_ok X hU n lb ld false (by omega) (by simp [hlb]) (fun x hx => (List.mem_append.1 hx).elim mB mD) t1.2.1 t2.2.1 (fun h => by cases h)
          have hDe : ∀ Z : List Int, marks (key e P) ld ++ Z = (d0 : Int) :: (marksFrom (key e P) d0 ld' ++ Z) := fun Z => by rw [hld]; rfl
          have hDi : ∀ Z : List Int, invHead true (marks (key e P) ld) ++ Z = inv d0 :: (marksFrom (key e P) d0 ld' ++ Z) := fun Z => by rw [hld]; rfl
          have hDl : (marks (key e P) ld).length = ld.length := marks_length _
          have hBl : (marks (key e P) lb).length = lb.length := marks_length _
          have hCl : (marks (key e P) lc).length = lc.length := marks_length _
          have hAl : (marks (key e P) la).length = la.length := marks_length _
          by_cases hj2 : key e P pc = key e P d0
          · -- a group of the right list is split
            have j2 : joinB (key e P) lc ld = true := joinB_true hpc hdh hj2
            have hlt : ∀ y, y ∈ lb → Lex (key e P d0) (key e P y) := fun y hy => by
              rw [← hj2]
              exact hcb pc (List.mem_of_getLast? hpc) y hy
            have j1 : joinB (key e P) la lb = false := joinB_false_of (fun x hx y hy h => by
              have := had x hx d0 hd0
              rw [h] at this
              exact this (hlt y hy))
            rw [j1, j2, invHead_false] at hblk
            have hr0 : ∀ {R : List Nat} {r0 : Nat} {R' : List Nat}, R.Perm (lb ++ ld) → Srt (key e P) R → R = r0 :: R' → key e P r0 = key e P d0 := fun {R r0 R'} g3 g4 hRc =>
              g4.head_key (by rw [hRc]; rfl) (g3.symm.subset (List.mem_append_right _ hd0)) (fun y hy => by
                rcases List.mem_append.1 (g3.subset hy) with h | h
                · exact (hlt y h).asymm
                · exact t2.2.1.head_le hdh y h)
            by_cases hla : la = []
            · subst hla
              have hL := part_ok X hU n [] lc false (by simp; omega) (by simp [hlc]) (fun x hx => mC (by simpa using hx)) List.Pairwise.nil t2.1 (fun h => by cases h)
              simp only [List.length_nil] at hfb hm hn hpos hk hsm
              obtain ⟨l', K', i1, i2, i3, i4⟩ := part_combine (l1 := [] ++ lb) (l2 := lc ++ ld) (gg := []) hL hR (k := k) (ck := ck) (nx := ⟨true, false, false⟩) (p := p) (q := q) (g := 0) (pg := 0)
                (A := A) (G := []) (M := M) (J := J) (B := B) (s := s) (first := first) (lm := middle - lc.length) (l := middle) (r := middle) (rm := middle + lc.length) (middle := middle) (last := last)
                hf hfb (by omega) rfl (by omega) (by omega) hbuf hJ (by simp; omega) hs (by simp [hlc]) (by simp [hlb])
                (fun x hx => by
                  rcases List.mem_append.1 hx with h | h
                  · exact mC (by simpa using h)
                  · exact (List.mem_append.1 h).elim mB mD) h2 h4 (fun _ => rfl) (fun h => by cases h) (fun h => by cases h)
                (fun f1 s1 hp => by
                  rw [show marks (key e P) [] = [] from rfl, hDi] at hblk
                  have e1 : ∀ v : Int, A ++ ([] ++ (marks (key e P) lc ++ (marks (key e P) lb ++ v :: (marksFrom (key e P) d0 ld' ++ (M ++ (J ++ B)))))) =
                    (A ++ (marks (key e P) lc ++ marks (key e P) lb)) ++ v :: (marksFrom (key e P) d0 ld' ++ (M ++ (J ++ B))) := fun v => by simp
                  rw [e1] at hblk
                  have := swapmergeStep_swap (e := e) (d := d) (buf := buf) (bufsize := bufsize) (f := ⟨first, middle, last, ck⟩) (s := s) (by show bufsize < last - middle; omega) (by show bufsize < middle - first; omega)
                    hsearch (by omega) hblk (swapNext_neg (by show middle + lc.length < last; omega) (by simp only [List.length_append, hBl, hCl]; omega) (by show first = middle - lc.length; omega)) hp
                  rw [this, ← e1, invHead_false, hDe]
                  rfl)
                hp0 (fun x hx => by cases hx) (fun x hx y hy => hord x hx y (by simpa using hy)) (fun x hx => by cases hx)
                (fun L R pL r0 R' g1 g2 g3 g4 hpL hRc => by
                  refine ⟨by rw [invHead_nil]; exact (invHead_nil _).symm, ?_⟩
                  rw [List.append_nil]
                  have hpL' : key e P pL = key e P pc := g2.last_key hpL (g1.symm.subset (List.mem_of_getLast? hpc)) (fun y hy => t2.1.le_last hpc y (g1.subset hy))
                  rw [joinB_true hpL (q := r0) (by rw [hRc]; rfl) (by rw [hpL', hj2, hr0 g3 g4 hRc])]
                  rfl)
              exact ⟨l', K', i1, i2, i3, i4.mono (by simp; omega)⟩
            · have hlap := List.length_pos_iff.2 hla
              obtain ⟨lc', g0, gs, hlc', hg1, hg2, hg3, hg4⟩ := lastGroup lc.length lc rfl hlc t2.1
              have hlcl : lc.length = lc'.length + 1 + gs.length := by rw [hlc']; simp; omega
              have hCl' : (marks (key e P) lc').length = lc'.length := marks_length _
              have mC' : ∀ {x}, x ∈ lc' → x ∈ lc := fun h => by rw [hlc']; exact List.mem_append_left _ h
              have mG : ∀ {x}, x ∈ g0 :: gs → x ∈ lc := fun h => by rw [hlc']; exact List.mem_append_right _ h
              have kG : ∀ x, x ∈ g0 :: gs → key e P x = key e P g0 := fun x hx => by
                rcases List.mem_cons.1 hx with h | h
                · rw [h]
                · exact hg1 x h
              obtain ⟨pgl, hpgl⟩ := exists_last (l := g0 :: gs) (by simp)
              have hg0 : key e P g0 = key e P d0 := by
                rw [hlc', List.getLast?_append, hpgl] at hpc
                injection hpc with hpc
                rw [← hj2, ← hpc]
                exact (kG pgl (List.mem_of_getLast? hpgl)).symm
              have hL := part_ok X hU n la lc' false (by omega) (by simp [hla]) (fun x hx => (List.mem_append.1 hx).elim mA (fun h => mC (mC' h))) t1.1 hg3 (fun h => by cases h)
              obtain ⟨l', K', i1, i2, i3, i4⟩ := part_combine (l1 := la ++ lb) (l2 := lc ++ ld) (gg := g0 :: gs) hL hR (k := k) (ck := ck) (nx := ⟨true, false, true⟩) (p := p) (q := q) (g := g0) (pg := 0)
                (A := A) (G := (g0 : Int) :: gs.map (fun s : Nat => inv s)) (M := M) (J := J) (B := B) (s := s) (first := first) (lm := middle - lc.length) (l := (A ++ (marks (key e P) la ++ marks (key e P) lc')).length)
                (r := middle) (rm := middle + lc.length) (middle := middle) (last := last)
                hf hfb (by simp only [List.length_append, hAl, hCl']; omega) (by simp only [List.length_append, hAl, hCl', List.length_cons, List.length_map]; omega) (by omega) (by omega) hbuf hJ (by omega) hs (by simp [hla]) (by simp [hlb])
                (fun x hx => by
                  rcases List.mem_append.1 hx with h | h
                  · exact (List.mem_append.1 h).elim mA (fun h => mC (mC' h))
                  · exact (List.mem_append.1 h).elim mB mD) h2 h4 (fun _ => rfl) (fun _ => ⟨rfl, mC (mG (List.mem_cons_self ..)), _, rfl⟩) (fun h => by cases h)
                (fun f1 s1 hp => by
                  rw [hDi, hg4] at hblk
                  have e1 : ∀ v : Int, A ++ (marks (key e P) la ++ (marks (key e P) lc' ++ (g0 : Int) :: gs.map (fun s : Nat => inv s) ++ (marks (key e P) lb ++ v :: (marksFrom (key e P) d0 ld' ++ (M ++ (J ++ B)))))) =
                    (A ++ (marks (key e P) la ++ marks (key e P) lc')) ++ (g0 : Int) :: (gs.map (fun s : Nat => inv s) ++ (marks (key e P) lb ++ v :: (marksFrom (key e P) d0 ld' ++ (M ++ (J ++ B))))) := fun v => by simp
                  rw [e1] at hblk
                  have := swapmergeStep_swap (e := e) (d := d) (buf := buf) (bufsize := bufsize) (f := ⟨first, middle, last, ck⟩) (s := s) (by show bufsize < last - middle; omega) (by show bufsize < middle - first; omega)
                    hsearch (by omega) hblk (swapNext_back (by show middle + lc.length < last; omega) (by show middle = _; simp only [List.length_append, hAl, hCl']; omega)
                      (by show middle + lc.length = middle + _; rw [hBl, hlen]) (by show first < middle - lc.length; omega)) hp
                  rw [this, ← e1, invHead_false, hDe]
                  simp)
                (by
                  refine List.Perm.trans ?_ hp0
                  rw [hlc']
                  simp only [List.append_assoc]
                  exact .refl _)
                (fun x hx y hy => by rw [kG x hx, kG y hy])
                (fun x hx y hy => by
                  rcases List.mem_append.1 hx with hx' | hx' <;> rcases List.mem_append.1 hy with hy' | hy'
                  · rw [kG y hy', hg0]; exact had x hx' d0 hd0
                  · exact hord x (List.mem_append_left _ hx') y hy'
                  · rw [kG y hy']; exact (hg2 x hx').asymm
                  · exact hord x (List.mem_append_right _ (mC' hx')) y hy')
                (fun x hx y hy => hord x (List.mem_append_right _ (mG hx)) y hy)
                (fun L R pL r0 R' g1 g2 g3 g4 hpL hRc => by
                  refine ⟨?_, ?_⟩
                  · rw [marks_group hg1]
                    rfl
                  · rw [joinB_append_left (by simp), joinB_true hpgl (q := r0) (by rw [hRc]; rfl) (by rw [kG pgl (List.mem_of_getLast? hpgl), hg0, hr0 g3 g4 hRc])]
                    rfl)
              exact ⟨l', K', i1, i2, i3, i4.mono (by simp only [List.length_append]; omega)⟩
          · have j2 : joinB (key e P) lc ld = false := by rw [joinB_some hpc hdh, decide_eq_false hj2]
            rw [j2, invHead_false] at hblk
            by_cases hla : la = []
            · subst hla
              have hL := part_ok X hU n [] lc false (by simp; omega) (by simp [hlc]) (fun x hx => mC (by simpa using hx)) List.Pairwise.nil t2.1 (fun h => by cases h)
              simp only [List.length_nil] at hfb hm hn hpos hk hsm
              rw [joinB_nil_left, invHead_false] at hblk
              obtain ⟨l', K', i1, i2, i3, i4⟩ := part_combine (l1 := [] ++ lb) (l2 := lc ++ ld) (gg := []) hL hR (k := k) (ck := ck) (nx := ⟨false, false, false⟩) (p := p) (q := q) (g := 0) (pg := 0)
                (A := A) (G := []) (M := M) (J := J) (B := B) (s := s) (first := first) (lm := middle - lc.length) (l := middle) (r := middle) (rm := middle + lc.length) (middle := middle) (last := last)
                hf hfb (by omega) rfl (by omega) (by omega) hbuf hJ (by simp; omega) hs (by simp [hlc]) (by simp [hlb])
                (fun x hx => by
                  rcases List.mem_append.1 hx with h | h
                  · exact mC (by simpa using h)
                  · exact (List.mem_append.1 h).elim mB mD) h2 h4 (fun _ => rfl) (fun h => by cases h) (fun h => by cases h)
                (fun f1 s1 hp => by
                  rw [show marks (key e P) [] = [] from rfl, hDe] at hblk
                  have e1 : ∀ v : Int, A ++ ([] ++ (marks (key e P) lc ++ (marks (key e P) lb ++ v :: (marksFrom (key e P) d0 ld' ++ (M ++ (J ++ B)))))) =
                    (A ++ (marks (key e P) lc ++ marks (key e P) lb)) ++ v :: (marksFrom (key e P) d0 ld' ++ (M ++ (J ++ B))) := fun v => by simp
                  rw [e1] at hblk
                  have := swapmergeStep_swap (e := e) (d := d) (buf := buf) (bufsize := bufsize) (f := ⟨first, middle, last, ck⟩) (s := s) (by show bufsize < last - middle; omega) (by show bufsize < middle - first; omega)
                    hsearch (by omega) hblk (swapNext_zero (by show middle + lc.length < last; omega) (by simp only [List.length_append, hBl, hCl]; omega) (by show first = middle - lc.length; omega)) hp
                  rw [this, ← e1, invHead_false, hDe]
                  rfl)
                hp0 (fun x hx => by cases hx) (fun x hx y hy => hord x hx y (by simpa using hy)) (fun x hx => by cases hx)
                (fun L R pL r0 R' g1 g2 g3 g4 hpL hRc => by
                  refine ⟨by rw [invHead_nil]; exact (invHead_nil _).symm, ?_⟩
                  rw [List.append_nil]
                  have hpL' : key e P pL = key e P pc := g2.last_key hpL (g1.symm.subset (List.mem_of_getLast? hpc)) (fun y hy => t2.1.le_last hpc y (g1.subset hy))
                  rw [joinB_some hpL (q := r0) (by rw [hRc]; rfl), decide_eq_false]
                  · rfl
                  · intro h
                    rw [hpL'] at h
                    rcases List.mem_append.1 (g3.subset (by rw [hRc]; exact List.mem_cons_self ..) : r0 ∈ lb ++ ld) with h' | h'
                    · have := hcb pc (List.mem_of_getLast? hpc) r0 h'
                      rw [h] at this
                      exact this.irrefl
                    · have a1 := t2.2.2 pc (List.mem_of_getLast? hpc) d0 hd0
                      have a2 := t2.2.1.head_le hdh r0 h'
                      rw [← h] at a2
                      exact hj2 (antisymm_key a2 a1))
              exact ⟨l', K', i1, i2, i3, i4.mono (by simp; omega)⟩
            · have hlap := List.length_pos_iff.2 hla
              obtain ⟨pa, hpa⟩ := exists_last hla
              have hL := part_ok X hU n la lc false (by omega) (by simp [hla]) (fun x hx => (List.mem_append.1 hx).elim mA mC) t1.1 t2.1 (fun h => by cases h)
              obtain ⟨gs, lr, hlr, hg1, hg2, hg3⟩ := marksFrom_group (k := key e P) lb pa
              have hfrom : invHead (joinB (key e P) la lb) (marks (key e P) lb) = gs.map (fun s : Nat => inv s) ++ marks (key e P) lr := by
                rw [← hg3]
                have h5 := marks_join (k := key e P) la lb
                rw [marks_append_from hpa] at h5
                exact (List.append_cancel_left h5).symm
              rw [hfrom] at hblk
              have hlrl : lb.length = gs.length + lr.length := by rw [hlr]; simp
              have mR : ∀ {x}, x ∈ lr → x ∈ lb := fun h => by rw [hlr]; exact List.mem_append_right _ h
              have mG : ∀ {x}, x ∈ gs → x ∈ lb := fun h => by rw [hlr]; exact List.mem_append_left _ h
              have sR : Srt (key e P) lr := by
                have := t1.2.1
                rw [hlr] at this
                exact (Srt.append.1 this).2.1
              have oR : ∀ x, x ∈ gs → ∀ y, y ∈ lr → ¬ Lex (key e P y) (key e P x) := by
                have := t1.2.1
                rw [hlr] at this
                exact (Srt.append.1 this).2.2
              have hR' := part_ok X hU n lr ld false (by omega) (by simp [hldne]) (fun x hx => (List.mem_append.1 hx).elim (fun h => mB (mR h)) mD) sR t2.2.1 (fun h => by cases h)
              have hRl : (marks (key e P) lr).length = lr.length := marks_length _
              obtain ⟨l', K', i1, i2, i3, i4⟩ := part_combine (l1 := la ++ lb) (l2 := lc ++ ld) (gg := gs) hL hR' (k := k) (ck := ck) (nx := ⟨false, true, false⟩) (p := p) (q := q) (g := 0) (pg := gs.getLast?.getD 0)
                (A := A) (G := gs.map (fun s : Nat => inv s)) (M := M) (J := J) (B := B) (s := s) (first := first) (lm := middle - lc.length) (l := middle)
                (r := middle + gs.length) (rm := middle + lc.length) (middle := middle) (last := last)
                hf hfb (by omega) (by rw [List.length_map]) (by omega) (by omega) hbuf hJ (by omega) hs (by simp [hla]) (by simp [hldne])
                (fun x hx => by
                  rcases List.mem_append.1 hx with h | h
                  · exact (List.mem_append.1 h).elim mA mC
                  · exact (List.mem_append.1 h).elim (fun h => mB (mR h)) mD) h2 h4 (fun h => by cases h) (fun h => by cases h)
                (fun _ => ⟨rfl, rfl, rfl, rfl, fun hG => by
                  have hgs : gs ≠ [] := fun h => hG (by rw [h]; rfl)
                  obtain ⟨pg, hpg⟩ := exists_last hgs
                  rw [hpg]
                  refine ⟨mB (mG (List.mem_of_getLast? hpg)), ?_⟩
                  obtain ⟨g', v, h1, h2⟩ := length_snoc (n := gs.length - 1) (l := gs) (by have := List.length_pos_iff.2 hgs; omega)
                  rw [h1, List.getLast?_append] at hpg
                  injection hpg with hpg
                  exact ⟨g'.map fun s : Nat => inv s, inv v, by rw [h1]; simp, .inr (by rw [← hpg]; rfl)⟩⟩)
                (fun f1 s1 hp => by
                  rw [hDe] at hblk
                  have e1 : ∀ v : Int, A ++ (marks (key e P) la ++ (marks (key e P) lc ++ (gs.map (fun s : Nat => inv s) ++ marks (key e P) lr ++ v :: (marksFrom (key e P) d0 ld' ++ (M ++ (J ++ B)))))) =
                    (A ++ (marks (key e P) la ++ marks (key e P) lc)) ++ (gs.map (fun s : Nat => inv s) ++ (marks (key e P) lr ++ v :: (marksFrom (key e P) d0 ld' ++ (M ++ (J ++ B))))) := fun v => by simp
                  rw [e1] at hblk
                  have := swapmergeStep_swap (e := e) (d := d) (buf := buf) (bufsize := bufsize) (f := ⟨first, middle, last, ck⟩) (s := s) (by show bufsize < last - middle; omega) (by show bufsize < middle - first; omega)
                    hsearch (by omega) hblk (swapNext_up (by show middle + lc.length < last; omega) (by show middle = _; simp only [List.length_append, hAl, hCl]; omega)
                      (by show middle + lc.length = middle + _ + _; rw [hRl]; omega) (by show first < middle - lc.length; omega) marks_head_nonneg) hp
                  rw [this, ← e1, invHead_false, hDe]
                  simp)
                (by
                  refine List.Perm.trans ?_ hp0
                  rw [hlr]
                  simp only [List.append_assoc]
                  exact .refl _)
                (fun x hx y hy => by rw [hg1 x hx, hg1 y hy])
                (fun x hx y hy => hord x hx y (by
                  rw [hlr, List.append_assoc]
                  exact hy))
                (fun x hx y hy => by
                  rcases List.mem_append.1 hy with h | h
                  · exact oR x hx y h
                  · rw [hg1 x hx]
                    exact had pa (List.mem_of_getLast? hpa) y h)
                (fun L R pL r0 R' g1 g2 g3 g4 hpL hRc => by
                  by_cases hgs : gs = []
                  · subst hgs
                    refine ⟨by rw [show marks (key e P) [] = [] from rfl, invHead_nil]; exact invHead_nil _, ?_⟩
                    rw [List.append_nil]
                    rfl
                  · obtain ⟨pg, hpg⟩ := exists_last hgs
                    obtain ⟨h0, gs', hgc⟩ : ∃ h0 gs', gs = h0 :: gs' := by
                      cases h : gs with
                      | nil => exact absurd h hgs
                      | cons h0 gs' => exact ⟨h0, gs', rfl⟩
                    have hh0 : h0 ∈ gs := by rw [hgc]; exact List.mem_cons_self ..
                    refine ⟨?_, ?_⟩
                    · have hpL' : key e P pL = key e P pa := g2.last_key hpL (g1.symm.subset (List.mem_append_left _ (List.mem_of_getLast? hpa))) (fun y hy => by
                        rcases List.mem_append.1 (g1.subset hy) with h' | h'
                        · exact t1.1.le_last hpa y h'
                        · rw [← hg1 h0 hh0]
                          exact (hcb y h' h0 (mG hh0)).asymm)
                      rw [joinB_true (x := L) (y := gs) hpL (q := h0) (by rw [hgc]; rfl) (by rw [hpL', hg1 h0 hh0]), Bool.false_and, invHead_false, hgc,
                        marks_group (r := h0) (x := gs') (fun x hx => by rw [hg1 x (by rw [hgc]; exact List.mem_cons_of_mem _ hx), hg1 h0 hh0])]
                      rfl
                    · rw [if_neg (by simpa using hgs), joinB_append_left hgs, hpg]
                      unfold joinB
                      rw [hpg]
                      simp)
              exact ⟨l', K', i1, i2, i3, i4.mono (by simp only [List.length_append]; omega)⟩

/-- `ss_swapmerge` merges two sorted lists, with a buffer that comes after them. -/
theorem ssSwapmerge_ok (X : Pos e P m) {first middle last : Nat} {l1 l2 : List Nat} {A M J B : List Int} (hne : l1 ++ l2 ≠ []) (hseg : Seg e P m d (l1 ++ l2)) (s1 : Srt (key e P) l1) (s2 : Srt (key e P) l2)
    (hn : l1.length + l2.length < 2 ^ 32) (hf : first = A.length) (hm : middle = first + l1.length) (hl : last = middle + l2.length) (hb : buf = last + M.length) (hJ : J.length = bufsize) :
    ∃ (l' : List Nat) (K : List Int), l'.Perm (l1 ++ l2) ∧ Srt (key e P) l' ∧ K.Perm J ∧
      ssSwapmerge e first middle last buf bufsize d (A ++ (marks (key e P) l1 ++ (marks (key e P) l2 ++ (M ++ (J ++ B))))) = .ok (A ++ (marks (key e P) l' ++ (M ++ (K ++ B)))) := by
  obtain ⟨l', K, h1, h2, h3, c, hc, h4⟩ := part_ok (buf := buf) (bufsize := bufsize) X hseg (l1.length + l2.length) l1 l2 false (Nat.le_refl _) hne (fun _ h => h) s1 s2 (fun h => by cases h) 32 ⟨false, false, false⟩ 0 0 A M J B []
    first middle last hf hm hl hb hJ hn (by simp) (fun _ => ⟨rfl, rfl⟩) (fun _ h => by cases h) (fun h => by cases h)
  refine ⟨l', K, h1, h2, h3, ?_⟩
  have h5 := h4 (2 * (last - first) - c)
  rw [show 2 * (last - first) - c + c = 2 * (last - first) by omega] at h5
  unfold ssSwapmerge
  simpa [invHead_false, smNxt] using h5

end

end Dss
end Detools
