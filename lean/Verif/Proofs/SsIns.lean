import Verif.Proofs.SsBase
/-
sssort: insertion sort.
-/
namespace Detools
namespace Dss
open Sais

section
variable {e : SsText} {P : Nat → Nat} {m : Nat}

/-- A group moves one to the left. -/
theorem insShift_ok : ∀ (gs : List Int) (A C : List Int) (h v : Int) (todo j : Nat), j = A.length + 1 → gs.length < todo → (∀ x, x ∈ gs → x < 0) →
    (gs.length + 1 < todo → ∃ w C', C = w :: C' ∧ 0 ≤ w) →
    ∃ h', insShift todo j (A ++ h :: v :: (gs ++ C)) = .ok (j + 1 + gs.length, A ++ v :: (gs ++ h' :: C))
  | [], A, C, h, v, todo + 1, j, hj, ht, hneg, hC => by
    refine ⟨v, ?_⟩
    unfold insShift
    have e1 : A ++ h :: v :: ([] ++ C) = (A ++ [h]) ++ v :: C := by simp
    rw [e1, rd_mid (by simp [hj])]
    simp only [Bind.bind, Except.bind]
    have e2 : (A ++ [h]) ++ v :: C = A ++ h :: (v :: C) := by simp
    rw [e2, wr_mid (by omega)]
    simp only []
    by_cases h0 : 0 < todo
    · rw [if_pos h0]
      obtain ⟨w, C', rfl, hw⟩ := hC (by simp; omega)
      have e3 : A ++ v :: v :: w :: C' = (A ++ [v, v]) ++ w :: C' := by simp
      rw [e3, rd_mid (by simp [hj])]
      simp only []
      rw [if_neg (by omega)]
      simp
    · rw [if_neg h0]
      simp
  | g :: gs, A, C, h, v, todo + 1, j, hj, ht, hneg, hC => by
    unfold insShift
    have e1 : A ++ h :: v :: (g :: gs ++ C) = (A ++ [h]) ++ v :: (g :: gs ++ C) := by simp
    rw [e1, rd_mid (by simp [hj])]
    simp only [Bind.bind, Except.bind]
    have e2 : (A ++ [h]) ++ v :: (g :: gs ++ C) = A ++ h :: (v :: (g :: gs ++ C)) := by simp
    rw [e2, wr_mid (by omega)]
    simp only []
    have ht' : gs.length < todo := by simp at ht; omega
    rw [if_pos (by omega)]
    have e3 : A ++ v :: v :: (g :: gs ++ C) = (A ++ [v, v]) ++ g :: (gs ++ C) := by simp
    rw [e3, rd_mid (by simp [hj])]
    simp only []
    rw [if_pos (hneg g (List.mem_cons_self ..))]
    obtain ⟨h', ih⟩ := insShift_ok gs (A ++ [v]) C v g todo (j + 1) (by simp; omega) ht' (fun x hx => hneg x (List.mem_cons_of_mem _ hx))
      (fun k => hC (by simp; omega))
    refine ⟨h', ?_⟩
    have e4 : (A ++ [v, v]) ++ g :: (gs ++ C) = (A ++ [v]) ++ v :: g :: (gs ++ C) := by simp
    rw [e4, ih]
    simp
    omega
  | _, _, _, _, _, 0, _, _, ht, _, _ => absurd ht (by omega)

/-- All the numbers can be compared from depth `d` on. -/
structure Seg (e : SsText) (P : Nat → Nat) (m d : Nat) (xs : List Nat) : Prop where
  below : ∀ r, r ∈ xs → r + 1 < m
  long : ∀ r, r ∈ xs → d < kl P r
  same : ∀ r s, r ∈ xs → s ∈ xs → (key e P r).take d = (key e P s).take d

theorem Seg.subset {d : Nat} {xs ys : List Nat} (h : Seg e P m d xs) (hs : ∀ r, r ∈ ys → r ∈ xs) : Seg e P m d ys :=
  ⟨fun r hr => h.below r (hs r hr), fun r hr => h.long r (hs r hr), fun r s hr hs' => h.same r s (hs r hr) (hs s hs')⟩

theorem Seg.compare (X : Pos e P m) {d : Nat} {xs : List Nat} (h : Seg e P m d xs) {r s : Nat} (hr : r ∈ xs) (hs : s ∈ xs) :
    ∃ c, ssCompare e d r s = .ok c ∧ CmpIs c (key e P r) (key e P s) :=
  X.compare (h.below r hr) (h.below s hs) (Nat.le_of_lt (h.long r hr)) (h.same r s hr hs)

theorem insInner_ok (X : Pos e P m) {d v : Nat} : ∀ (fuel : Nat) (ys : List Nat) (A B : List Int) (h : Int) (j last : Nat), ys ≠ [] → ys.length ≤ fuel →
    Seg e P m d (v :: ys) → Srt (key e P) ys → j = A.length + 1 → last = j + ys.length →
    ∃ pre post h' r, ys = pre ++ post ∧ (∀ p, p ∈ pre → Lex (key e P p) (key e P v)) ∧ (∀ p, p ∈ post → ¬ Lex (key e P p) (key e P v)) ∧
      insInner e d last v fuel j (A ++ h :: (marks (key e P) ys ++ B)) = .ok (r, j + pre.length, A ++ (marks (key e P) pre ++ h' :: (marks (key e P) post ++ B))) ∧
      (r = 0 ↔ ∃ q, post.head? = some q ∧ key e P v = key e P q)
  | 0, ys, _, _, _, _, _, hne, hf, _, _, _, _ => by
    cases ys with
    | nil => exact absurd rfl hne
    | cons _ _ => exact absurd hf (by simp)
  | fuel + 1, [], _, _, _, _, _, hne, _, _, _, _, _ => absurd rfl hne
  | fuel + 1, g :: l, A, B, h, j, last, hne, hf, hseg, hsrt, hj, hl => by
    obtain ⟨c, hc, hi⟩ := hseg.compare X (List.mem_cons_self ..) (s := g) (by simp)
    obtain ⟨gs, rest, h1, h2, h3, h4⟩ := marksFrom_group (k := key e P) l g
    have hsrt' := Srt.cons.1 hsrt
    unfold insInner
    have e0 : A ++ h :: (marks (key e P) (g :: l) ++ B) = (A ++ [h]) ++ (g : Int) :: (marksFrom (key e P) g l ++ B) := by simp [marks]
    rw [e0, getNo_mid (by simp [hj])]
    simp only [Bind.bind, Except.bind]
    rw [hc]
    simp only []
    by_cases hpos : 0 < c
    · rw [if_pos hpos]
      have hlt := hi.pos.1 hpos
      have e1 : (A ++ [h]) ++ (g : Int) :: (marksFrom (key e P) g l ++ B) = A ++ h :: (g : Int) :: (gs.map (fun r : Nat => inv r) ++ (marks (key e P) rest ++ B)) := by
        rw [h4]; simp
      have hll : l.length = gs.length + rest.length := by rw [h1, List.length_append]
      have hlast : last - j = gs.length + 1 + rest.length := by rw [hl, List.length_cons]; omega
      obtain ⟨h', hsh⟩ := insShift_ok (gs.map fun r : Nat => inv r) A (marks (key e P) rest ++ B) h (g : Int) (last - j) j hj (by rw [List.length_map]; omega)
        (fun x hx => by obtain ⟨r, _, rfl⟩ := List.mem_map.1 hx; exact inv_neg r)
        (fun hk => by
          rw [List.length_map, hlast] at hk
          cases rest with
          | nil => exact absurd hk (by simp)
          | cons w rest => exact ⟨w, _, rfl, by omega⟩)
      rw [e1, hsh]
      simp only []
      rw [List.length_map]
      have hall : ∀ p, p ∈ g :: gs → Lex (key e P p) (key e P v) := fun p hp => by
        rcases List.mem_cons.1 hp with rfl | hp
        · exact hlt
        · rw [h2 p hp]; exact hlt
      have hm1 : (g : Int) :: gs.map (fun r : Nat => inv r) = marks (key e P) (g :: gs) := (marks_group h2).symm
      by_cases hend : last ≤ j + 1 + gs.length
      · rw [if_pos hend]
        have hr0 : rest = [] := List.length_eq_zero_iff.1 (by omega)
        subst hr0
        refine ⟨g :: gs, [], h', c, by rw [h1, List.append_nil]; simp, hall, fun p hp => (by cases hp), ?_, ?_⟩
        · have : A ++ (g : Int) :: (gs.map (fun r : Nat => inv r) ++ h' :: (marks (key e P) [] ++ B)) = A ++ (marks (key e P) (g :: gs) ++ h' :: (marks (key e P) [] ++ B)) := by
            rw [← hm1]; simp
          rw [this]
          simp
          omega
        · exact ⟨fun k => by omega, fun ⟨q, k, _⟩ => by cases k⟩
      · rw [if_neg hend]
        have hrest : rest ≠ [] := fun hr => by rw [hr] at hlast; simp at hlast; omega
        obtain ⟨pre, post, h'', r, i1, i2, i3, i4, i5⟩ := insInner_ok X (v := v) (d := d) fuel rest (A ++ marks (key e P) (g :: gs)) B h' (j + 1 + gs.length) last hrest
          (by rw [List.length_cons] at hf; omega) (hseg.subset (fun r hr => by
            rcases List.mem_cons.1 hr with rfl | hr
            · simp
            · rw [h1]; simp [hr])) ((Srt.append.1 (h1 ▸ hsrt'.2)).2.1) (by rw [List.length_append, marks_length, List.length_cons]; omega) (by omega)
        have hap : Apart (key e P) (g :: gs) pre := by
          refine Apart.of_lt fun p hp q hq => ?_
          have hq' : q ∈ rest := by rw [i1]; exact List.mem_append_left _ hq
          have hkp : key e P p = key e P g := by
            rcases List.mem_cons.1 hp with rfl | hp
            · rfl
            · exact h2 p hp
          cases rest with
          | nil => cases hq'
          | cons w rest =>
            have hw : Lex (key e P g) (key e P w) := lex_of_ne (hsrt'.1 w (by rw [h1]; simp)) (h3 w rfl)
            rw [hkp]
            rcases List.mem_cons.1 hq' with rfl | hq'
            · exact hw
            · exact lex_of_lt_le hw ((Srt.cons.1 (Srt.append.1 (h1 ▸ hsrt'.2)).2.1).1 q hq')
        refine ⟨g :: gs ++ pre, post, h'', r, by rw [h1, i1]; simp, fun p hp => ?_, i3, ?_, i5⟩
        · rcases List.mem_append.1 hp with hp | hp
          · exact hall p hp
          · exact i2 p hp
        · have : A ++ (g : Int) :: (gs.map (fun r : Nat => inv r) ++ h' :: (marks (key e P) rest ++ B)) = (A ++ marks (key e P) (g :: gs)) ++ h' :: (marks (key e P) rest ++ B) := by
            rw [← hm1]; simp
          rw [this, i4, marks_append hap]
          simp
          omega
    · rw [if_neg hpos]
      refine ⟨[], g :: l, h, c, rfl, fun p hp => (by cases hp), fun p hp => ?_, ?_, ?_⟩
      · have hg : ¬ Lex (key e P g) (key e P v) := fun k => hpos (hi.pos.2 k)
        rcases List.mem_cons.1 hp with rfl | hp
        · exact hg
        · exact not_lex_trans' hg (hsrt'.1 p hp)
      · simp [marks]
      · rw [hi.zero]
        exact ⟨fun k => ⟨g, rfl, k⟩, fun ⟨q, k1, k2⟩ => by injection k1 with k1; rw [k1]; exact k2⟩

theorem invIf_true {j : Nat} {A B : List Int} {v : Int} (hj : j = A.length) : invIf true j (A ++ v :: B) = .ok (A ++ inv v :: B) := by
  unfold invIf
  rw [if_pos rfl, rd_mid hj]
  simp only [Bind.bind, Except.bind]
  rw [wr_mid hj]

theorem invIf_false {j : Nat} {a : List Int} : invIf false j a = .ok a := by
  unfold invIf
  rw [if_neg (by decide)]

theorem insStep_ok (X : Pos e P m) {d v : Nat} {ys : List Nat} {A B : List Int} {i last : Nat} (hne : ys ≠ []) (hseg : Seg e P m d (v :: ys)) (hsrt : Srt (key e P) ys)
    (hi : i = A.length) (hl : last = i + 1 + ys.length) :
    ∃ zs, zs.Perm (v :: ys) ∧ Srt (key e P) zs ∧ insStep e d last i (A ++ (v : Int) :: (marks (key e P) ys ++ B)) = .ok (A ++ (marks (key e P) zs ++ B)) := by
  obtain ⟨pre, post, h', r, i1, i2, i3, i4, i5⟩ := insInner_ok X (last - i) ys A B (v : Int) (i + 1) last hne (by omega) hseg hsrt (by omega) hl
  refine ⟨pre ++ v :: post, ?_, ?_, ?_⟩
  · rw [i1]
    exact List.perm_middle
  · rw [i1] at hsrt
    obtain ⟨s1, s2, s3⟩ := Srt.append.1 hsrt
    refine s1.parts (Srt.cons.2 ⟨i3, s2⟩) (fun p hp q hq => ?_)
    rcases List.mem_cons.1 hq with rfl | hq
    · exact i2 p hp
    · exact lex_of_lt_le (i2 p hp) (i3 q hq)
  · have hap : Apart (key e P) pre (v :: post) := Apart.of_lt fun p hp q hq => by
      rcases List.mem_cons.1 hq with rfl | hq
      · exact i2 p hp
      · exact lex_of_lt_le (i2 p hp) (i3 q hq)
    unfold insStep
    rw [getNo_mid hi]
    simp only [Bind.bind, Except.bind]
    rw [i4]
    simp only []
    rw [marks_append hap]
    by_cases hr : r = 0
    · obtain ⟨q, hq1, hq2⟩ := i5.1 hr
      cases post with
      | nil => cases hq1
      | cons q' post =>
        injection hq1 with hq1
        subst hq1
        rw [decide_eq_true hr]
        have e1 : A ++ (marks (key e P) pre ++ h' :: (marks (key e P) (q' :: post) ++ B)) = (A ++ marks (key e P) pre ++ [h']) ++ (q' : Int) :: (marksFrom (key e P) q' post ++ B) := by
          simp [marks]
        rw [e1, invIf_true (by simp [marks_length]; omega)]
        simp only []
        have e2 : (A ++ marks (key e P) pre ++ [h']) ++ inv (q' : Int) :: (marksFrom (key e P) q' post ++ B) =
            (A ++ marks (key e P) pre) ++ h' :: (inv (q' : Int) :: (marksFrom (key e P) q' post ++ B)) := by simp
        rw [e2, wr_mid (by simp [marks_length]; omega)]
        simp [marks, marksFrom, hq2]
    · rw [decide_eq_false hr, invIf_false]
      simp only []
      have e2 : A ++ (marks (key e P) pre ++ h' :: (marks (key e P) post ++ B)) = (A ++ marks (key e P) pre) ++ h' :: (marks (key e P) post ++ B) := by simp
      rw [e2, wr_mid (by simp [marks_length]; omega)]
      have hv : Apart (key e P) [v] post := fun p q hp hq he => by
        injection hp with hp
        subst hp
        exact hr (i5.2 ⟨q, hq, he⟩)
      have e3 : marks (key e P) (v :: post) = (v : Int) :: marks (key e P) post := by
        have := marks_append hv
        rw [List.singleton_append] at this
        rw [this]
        rfl
      rw [e3]
      simp

theorem insLoop_ok (X : Pos e P m) {d first last : Nat} {A B : List Int} (hf : first = A.length) : ∀ (xs ys : List Nat), ys ≠ [] → Seg e P m d (xs ++ ys) → Srt (key e P) ys →
    last = first + xs.length + ys.length →
    ∃ zs, zs.Perm (xs ++ ys) ∧ Srt (key e P) zs ∧ downLoop (fun k a => insStep e d last (first + k) a) xs.length (A ++ (xs.map Int.ofNat ++ (marks (key e P) ys ++ B))) =
      .ok (A ++ (marks (key e P) zs ++ B)) := by
  intro xs
  induction hn : xs.length generalizing xs with
  | zero =>
    intro ys hne hseg hsrt hl
    have : xs = [] := List.length_eq_zero_iff.1 hn
    subst this
    exact ⟨ys, .refl _, hsrt, rfl⟩
  | succ n ih =>
    intro ys hne hseg hsrt hl
    obtain ⟨xs', v, rfl⟩ : ∃ xs' v, xs = xs' ++ [v] := ⟨xs.dropLast, xs.getLast (by intro h; rw [h] at hn; cases hn), (List.dropLast_concat_getLast _).symm⟩
    have hn' : xs'.length = n := by simpa using hn
    obtain ⟨zs, z1, z2, z3⟩ := insStep_ok X (d := d) (v := v) (ys := ys) (A := A ++ xs'.map Int.ofNat) (B := B) (i := first + n) (last := last) hne
      (hseg.subset (fun r hr => by
        rcases List.mem_cons.1 hr with rfl | hr
        · simp
        · simp [hr])) hsrt (by simp [hf, hn']) (by omega)
    obtain ⟨ws, w1, w2, w3⟩ := ih xs' hn' zs (fun h => by rw [h] at z1; exact absurd z1.length_eq (by simp)) (hseg.subset (fun r hr => by
      rcases List.mem_append.1 hr with hr | hr
      · simp [hr]
      · rcases List.mem_cons.1 (z1.subset hr) with rfl | hr
        · simp
        · simp [hr])) z2 (by rw [z1.length_eq, List.length_cons]; omega)
    refine ⟨ws, ?_, w2, ?_⟩
    · rw [List.append_assoc]
      exact w1.trans (z1.append_left xs')
    · unfold downLoop
      have e1 : A ++ ((xs' ++ [v]).map Int.ofNat ++ (marks (key e P) ys ++ B)) = (A ++ xs'.map Int.ofNat) ++ (v : Int) :: (marks (key e P) ys ++ B) := by simp
      rw [e1, z3]
      simp only [Bind.bind, Except.bind]
      rw [List.append_assoc]
      exact w3

/-- `ss_insertionsort` sorts. -/
theorem ssInsertionsort_ok (X : Pos e P m) {d first last : Nat} {A B : List Int} {xs : List Nat} (hf : first = A.length) (hl : last = first + xs.length) (hseg : Seg e P m d xs) :
    ∃ o, Sorted (key e P) xs o ∧ ssInsertionsort e first last d (A ++ (xs.map Int.ofNat ++ B)) = .ok (A ++ (o ++ B)) := by
  cases hx : xs.reverse with
  | nil =>
    have : xs = [] := List.reverse_eq_nil_iff.1 hx
    subst this
    refine ⟨[], Sorted.nil, ?_⟩
    unfold ssInsertionsort
    rw [show last - 1 - first = 0 by simp at hl; omega]
    rfl
  | cons v ys =>
    have hxs : xs = ys.reverse ++ [v] := by rw [← List.reverse_reverse xs, hx, List.reverse_cons]
    obtain ⟨zs, z1, z2, z3⟩ := insLoop_ok X (A := A) (B := B) hf ys.reverse [v] (last := last) (by simp) (hxs ▸ hseg) (List.pairwise_singleton _ _)
      (by rw [hl, hxs, List.length_append]; omega)
    refine ⟨_, ⟨zs, hxs ▸ z1, z2, rfl⟩, ?_⟩
    unfold ssInsertionsort
    have hk : last - 1 - first = ys.reverse.length := by rw [hl, hxs, List.length_append, List.length_singleton]; omega
    rw [hk, hxs, ← z3]
    simp [marks, marksFrom]

end

end Dss
end Detools
