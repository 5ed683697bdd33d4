import Verif.Proofs.SsBwd
/-
ss_swapmerge: checks at the ends of a part, the search, and the order in which two parts are
merged.
-/
namespace Detools
namespace Dss
open Sais

/-- The first element is complemented. -/
def invHead : Bool → List Int → List Int
  | true, v :: l => inv v :: l
  | _, l => l

theorem invHead_false (l : List Int) : invHead false l = l := by cases l <;> rfl

theorem invHead_nil (b : Bool) : invHead b [] = [] := by cases b <;> rfl

theorem invHead_length (b : Bool) (l : List Int) : (invHead b l).length = l.length := by
  cases b <;> cases l <;> rfl

theorem invHead_append {b : Bool} {x y : List Int} (h : x ≠ []) : invHead b (x ++ y) = invHead b x ++ y := by
  cases x with
  | nil => exact absurd rfl h
  | cons v x => cases b <;> rfl

/-- The keys at the boundary are the same. -/
def joinB (k : Nat → List Nat) (x y : List Nat) : Bool :=
  match x.getLast?, y.head? with
  | some p, some q => decide (k p = k q)
  | _, _ => false

section
variable {k : Nat → List Nat}

theorem joinB_some {x y : List Nat} {p q : Nat} (hp : x.getLast? = some p) (hq : y.head? = some q) : joinB k x y = decide (k p = k q) := by
  unfold joinB
  rw [hp, hq]

theorem joinB_nil_left (y : List Nat) : joinB k [] y = false := rfl

theorem joinB_nil_right (x : List Nat) : joinB k x [] = false := by
  unfold joinB
  cases x.getLast? <;> rfl

theorem marks_join (x y : List Nat) : marks k (x ++ y) = marks k x ++ invHead (joinB k x y) (marks k y) := by
  cases hx : x.getLast? with
  | none =>
    rw [List.getLast?_eq_none_iff.1 hx, joinB_nil_left, invHead_false]
    rfl
  | some p =>
    rw [marks_append_from hx]
    congr 1
    cases y with
    | nil => rw [joinB_nil_right]; rfl
    | cons q y =>
      rw [joinB_some hx rfl]
      by_cases h : k p = k q
      · rw [decide_eq_true h]
        show (if k p = k q then inv q else (q : Int)) :: _ = _
        rw [if_pos h]
        rfl
      · rw [decide_eq_false h]
        show (if k p = k q then inv q else (q : Int)) :: _ = _
        rw [if_neg h]
        rfl

theorem invHead_marks_get {b : Bool} {l : List Nat} {i r : Nat} (h : l[i]? = some r) : (invHead b (marks k l))[i]? = some (r : Int) ∨ (invHead b (marks k l))[i]? = some (inv r) := by
  cases b with
  | false =>
    rw [invHead_false]
    exact marks_get h
  | true =>
    cases l with
    | nil => cases h
    | cons s l =>
      cases i with
      | zero =>
        injection h with h
        subst h
        exact .inr rfl
      | succ i => exact marksFrom_get l s i r h

theorem antisymm_key {a b : List Nat} (h1 : ¬ Lex a b) (h2 : ¬ Lex b a) : a = b := by
  rcases Lex.tri a b with h | h | h
  · exact absurd h h1
  · exact h
  · exact absurd h h2

theorem Srt.le_last {l : List Nat} (h : Srt k l) {p : Nat} (hp : l.getLast? = some p) : ∀ y, y ∈ l → ¬ Lex (k p) (k y) := fun y hy => by
  obtain ⟨i, hi⟩ := List.mem_iff_getElem?.1 hy
  rw [List.getLast?_eq_getElem?] at hp
  exact h.get (by have := (List.getElem?_eq_some_iff.1 hi).1; omega) hi hp

theorem Srt.head_le {l : List Nat} (h : Srt k l) {p : Nat} (hp : l.head? = some p) : ∀ y, y ∈ l → ¬ Lex (k y) (k p) := fun y hy => by
  obtain ⟨i, hi⟩ := List.mem_iff_getElem?.1 hy
  rw [List.head?_eq_getElem?] at hp
  exact h.get (by omega) hp hi

theorem Srt.last_key {l : List Nat} (h : Srt k l) {p x : Nat} (hp : l.getLast? = some p) (hx : x ∈ l) (hm : ∀ y, y ∈ l → ¬ Lex (k x) (k y)) : k p = k x :=
  antisymm_key (h.le_last hp x hx) (hm p (List.mem_of_getLast? hp))

theorem Srt.head_key {l : List Nat} (h : Srt k l) {p x : Nat} (hp : l.head? = some p) (hx : x ∈ l) (hm : ∀ y, y ∈ l → ¬ Lex (k y) (k x)) : k p = k x :=
  antisymm_key (hm p (List.mem_of_mem_head? hp)) (h.head_le hp x hx)

end

theorem invIf_ok {b : Bool} {j : Nat} {A Z : List Int} (hj : j = A.length) (hb : b = true → Z ≠ []) : invIf b j (A ++ Z) = .ok (A ++ invHead b Z) := by
  cases b with
  | false => rw [invIf_false, invHead_false]
  | true =>
    cases Z with
    | nil => exact absurd rfl (hb rfl)
    | cons v Z => exact invIf_true hj

section
variable {e : SsText} {P : Nat → Nat} {m : Nat}

theorem sameAsBefore_false {d p : Nat} {a : List Int} : sameAsBefore false e d p a = .ok false := by
  unfold sameAsBefore
  rw [if_neg (by decide)]

theorem sameAsBefore_ok (X : Pos e P m) {d i p q : Nat} {U : List Nat} {a : List Int} (hU : Seg e P m d U) (hp : p ∈ U) (hq : q ∈ U) (h1 : getIdx a (i - 1) = .ok p) (h2 : getNo a i = .ok q) :
    sameAsBefore true e d i a = .ok (decide (key e P p = key e P q)) := by
  unfold sameAsBefore
  rw [if_pos rfl, h1]
  simp only [Bind.bind, Except.bind]
  rw [h2]
  simp only []
  obtain ⟨c, hc, hci⟩ := hU.compare X hp hq
  rw [hc]
  simp only []
  congr 1
  rw [decide_eq_decide]
  exact hci.zero

theorem getIdx_snoc {A R : List Int} {v : Int} {p i : Nat} (hi : i = A.length + 1) (hv : v = (p : Int) ∨ v = inv p) : getIdx ((A ++ [v]) ++ R) (i - 1) = .ok p := by
  refine getIdx_ok ?_
  have : ((A ++ [v]) ++ R)[i - 1]? = some v := by
    rw [hi, Nat.add_sub_cancel, List.append_assoc, List.getElem?_append_right (Nat.le_refl _), Nat.sub_self]
    rfl
  rw [this]
  rcases hv with h | h
  · exact .inl (by rw [h])
  · exact .inr (by rw [h])

theorem mergeCheck_ok (X : Pos e P m) {d first middle last p q : Nat} {U l : List Nat} {β : Bool} {ck : Bits} {A M R : List Int} (hU : Seg e P m d U) (hl : ∀ x, x ∈ l → x ∈ U) (hne : l ≠ [])
    (hf : first = A.length) (hlast : last = first + l.length) (hβ : β = true → ck.b1 = false ∧ ck.b2 = false)
    (h2 : ck.b1 = false → ck.b2 = true → p ∈ U ∧ ∃ (A0 : List Int) (v : Int), A = A0 ++ [v] ∧ (v = (p : Int) ∨ v = inv p))
    (h4 : ck.b4 = true → q ∈ U ∧ ∃ M1 : List Int, M = (q : Int) :: M1) :
    mergeCheck e d ⟨first, middle, last, ck⟩ (A ++ (invHead β (marks (key e P) l) ++ (M ++ R))) =
      .ok (A ++ (invHead (β || ck.b1 || (ck.b2 && joinB (key e P) [p] l)) (marks (key e P) l) ++ (invHead (ck.b4 && joinB (key e P) l [q]) M ++ R))) := by
  have hml : marks (key e P) l ≠ [] := mt marks_nil.1 hne
  have hpos : l.length ≠ 0 := fun h => hne (List.length_eq_zero_iff.1 h)
  unfold mergeCheck
  simp only [Bind.bind, Except.bind]
  -- the first check
  have c1 : sameAsBefore (!ck.b1 && ck.b2) e d first (A ++ (invHead β (marks (key e P) l) ++ (M ++ R))) = .ok ((!ck.b1 && ck.b2) && joinB (key e P) [p] l) := by
    by_cases hc : (!ck.b1 && ck.b2) = true
    · rw [hc]
      rw [Bool.and_eq_true, Bool.not_eq_true'] at hc
      obtain ⟨hpU, A0, v, hA, hv⟩ := h2 hc.1 hc.2
      have hβ' : β = false := by
        cases hb : β with
        | false => rfl
        | true => rw [(hβ hb).2] at hc; exact absurd hc.2 (by decide)
      cases l with
      | nil => exact absurd rfl hne
      | cons s l =>
        rw [sameAsBefore_ok X (p := p) (q := s) hU hpU (hl s (List.mem_cons_self ..)) (by rw [hA]; exact getIdx_snoc (by rw [hf, hA]; simp) hv)
          (by rw [hβ', invHead_false]; exact getNo_mid hf), joinB_some (p := p) (q := s) rfl rfl]
        rfl
    · rw [Bool.not_eq_true] at hc
      rw [hc, sameAsBefore_false]
      rfl
  rw [c1]
  simp only []
  have hsplit : ∀ b : Bool, (b = true → β = false) → invIf b first (A ++ (invHead β (marks (key e P) l) ++ (M ++ R))) = .ok (A ++ (invHead (β || b) (marks (key e P) l) ++ (M ++ R))) := by
    intro b hb
    cases b with
    | false => rw [invIf_false, Bool.or_false]
    | true =>
      rw [hb rfl, invHead_false, invIf_ok hf (fun _ h => hml (List.append_eq_nil_iff.1 h).1), invHead_append hml]
      rfl
  rw [hsplit _ (by
    intro hb
    cases hβ' : β with
    | false => rfl
    | true =>
      obtain ⟨x1, x2⟩ := hβ hβ'
      rw [x1, x2] at hb
      exact absurd hb (by simp))]
  simp only []
  -- the second check
  have e1 : (β || (ck.b1 || ((!ck.b1 && ck.b2) && joinB (key e P) [p] l))) = (β || ck.b1 || (ck.b2 && joinB (key e P) [p] l)) := by
    cases β <;> cases ck.b1 <;> cases ck.b2 <;> simp
  rw [e1]
  obtain ⟨r, hr⟩ : ∃ r, l[l.length - 1]? = some r := ⟨_, List.getElem?_eq_getElem (by omega)⟩
  have hrl : l.getLast? = some r := by rw [List.getLast?_eq_getElem?]; exact hr
  generalize hb : (β || ck.b1 || (ck.b2 && joinB (key e P) [p] l)) = b
  have hlen : (A ++ invHead b (marks (key e P) l)).length = last := by rw [List.length_append, invHead_length, marks_length]; omega
  have c2 : sameAsBefore ck.b4 e d last (A ++ (invHead b (marks (key e P) l) ++ (M ++ R))) = .ok (ck.b4 && joinB (key e P) l [q]) := by
    by_cases hc : ck.b4 = true
    · obtain ⟨hqU, M1, hM⟩ := h4 hc
      rw [hc, sameAsBefore_ok X (p := r) (q := q) hU (hl r (List.mem_of_getElem? hr)) hqU ?_ ?_, joinB_some hrl rfl]
      · rfl
      · refine getIdx_ok ?_
        rw [List.getElem?_append_right (by omega), show last - 1 - A.length = l.length - 1 by omega, List.getElem?_append_left (by rw [invHead_length, marks_length]; omega)]
        exact invHead_marks_get hr
      · rw [hM, ← List.append_assoc]
        exact getNo_mid hlen.symm
    · rw [Bool.not_eq_true] at hc
      rw [hc, sameAsBefore_false]
      rfl
  rw [c2]
  simp only []
  by_cases hM : M = []
  · have h0 : ck.b4 = false := by
      cases h : ck.b4 with
      | false => rfl
      | true =>
        obtain ⟨_, M1, h5⟩ := h4 h
        rw [hM] at h5
        cases h5
    rw [h0, Bool.false_and, invIf_false, invHead_false]
  · rw [← List.append_assoc A, invIf_ok hlen.symm (fun _ h => hM (List.append_eq_nil_iff.1 h).1), invHead_append hM]
    simp

/-! ### The search -/

theorem swapSearch_ok (X : Pos e P m) {d middle : Nat} {l1 l2 : List Nat} {a : List Int} (hseg : Seg e P m d (l1 ++ l2)) (s1 : Srt (key e P) l1) (s2 : Srt (key e P) l2)
    (g1 : ∀ j r, j < l1.length → l1[l1.length - 1 - j]? = some r → getIdx a (middle - j - 1) = .ok r) (g2 : ∀ j r, l2[j]? = some r → getIdx a (middle + j) = .ok r) :
    ∀ (fuel c len : Nat), len < fuel → c + len ≤ l1.length → c + len ≤ l2.length →
    (∀ i q r, i < c → l2[i]? = some q → l1[l1.length - 1 - i]? = some r → Lex (key e P q) (key e P r)) →
    (∀ i q r, c + len ≤ i → i < l1.length → l2[i]? = some q → l1[l1.length - 1 - i]? = some r → ¬ Lex (key e P q) (key e P r)) →
    ∃ c', swapSearch e d middle a fuel c len (len / 2) = .ok c' ∧ c' ≤ c + len ∧ (∀ i q r, i < c' → l2[i]? = some q → l1[l1.length - 1 - i]? = some r → Lex (key e P q) (key e P r)) ∧
      (∀ i q r, c' ≤ i → i < l1.length → l2[i]? = some q → l1[l1.length - 1 - i]? = some r → ¬ Lex (key e P q) (key e P r))
  | 0, _, _, hf, _, _, _, _ => by omega
  | fuel + 1, c, len, hf, hc1, hc2, hlo, hhi => by
    unfold swapSearch
    by_cases h0 : 0 < len
    · rw [if_pos h0]
      obtain ⟨v, hv⟩ : ∃ v, l2[c + len / 2]? = some v := ⟨_, List.getElem?_eq_getElem (by omega)⟩
      obtain ⟨w, hw⟩ : ∃ w, l1[l1.length - 1 - (c + len / 2)]? = some w := ⟨_, List.getElem?_eq_getElem (by omega)⟩
      rw [show middle + c + len / 2 = middle + (c + len / 2) by omega, show middle - c - len / 2 - 1 = middle - (c + len / 2) - 1 by omega, g2 _ _ hv]
      simp only [Bind.bind, Except.bind]
      rw [g1 _ _ (by omega) hw]
      simp only []
      obtain ⟨r, hr, hri⟩ := hseg.compare X (r := v) (s := w) (List.mem_append_right _ (List.mem_of_getElem? hv)) (List.mem_append_left _ (List.mem_of_getElem? hw))
      rw [hr]
      simp only []
      by_cases hq : r < 0
      · rw [if_pos hq]
        have hlt := hri.neg.1 hq
        obtain ⟨c', i1, i2, i3, i4⟩ := swapSearch_ok X hseg s1 s2 g1 g2 fuel (c + len / 2 + 1) (len / 2 - (1 - len % 2)) (by omega) (by omega) (by omega)
          (fun i q r hi hq' hr' => lex_of_le_lt (s2.get (by omega) hq' hv) (lex_of_lt_le hlt (s1.get (by omega) hw hr')))
          (fun i q r hi => hhi i q r (by omega))
        exact ⟨c', i1, by omega, i3, i4⟩
      · rw [if_neg hq]
        have hge := mt hri.neg.2 hq
        obtain ⟨c', i1, i2, i3, i4⟩ := swapSearch_ok X hseg s1 s2 g1 g2 fuel c (len / 2) (by omega) (by omega) (by omega) hlo
          (fun i q r hi hi2 hq' hr' h => hge (lex_of_le_lt (s2.get (by omega) hv hq') (lex_of_lt_le h (s1.get (by omega) hr' hw))))
        exact ⟨c', i1, by omega, i3, i4⟩
    · rw [if_neg h0]
      have h0 : len = 0 := by omega
      subst h0
      exact ⟨c, rfl, by omega, hlo, fun i q r hi => hhi i q r (by omega)⟩

/-- The same, with the lists in parts. -/
theorem swapSearch_parts (X : Pos e P m) {d middle : Nat} {l1 l2 : List Nat} {a : List Int} (hseg : Seg e P m d (l1 ++ l2)) (s1 : Srt (key e P) l1) (s2 : Srt (key e P) l2)
    (g1 : ∀ j r, j < l1.length → l1[l1.length - 1 - j]? = some r → getIdx a (middle - j - 1) = .ok r) (g2 : ∀ j r, l2[j]? = some r → getIdx a (middle + j) = .ok r) :
    ∃ la lb lc ld, l1 = la ++ lb ∧ l2 = lc ++ ld ∧ lb.length = lc.length ∧
      swapSearch e d middle a (min l1.length l2.length + 1) 0 (min l1.length l2.length) (min l1.length l2.length / 2) = .ok lc.length ∧
      (∀ x, x ∈ lc → ∀ y, y ∈ lb → Lex (key e P x) (key e P y)) ∧ (∀ x, x ∈ la → ∀ y, y ∈ ld → ¬ Lex (key e P y) (key e P x)) := by
  obtain ⟨c, h1, h2, h3, h4⟩ := swapSearch_ok X hseg s1 s2 g1 g2 (min l1.length l2.length + 1) 0 (min l1.length l2.length) (by omega) (by omega) (by omega) (fun i q r h => by omega)
    (fun i q r hi hi2 hq => by rw [List.getElem?_eq_none (by omega)] at hq; cases hq)
  refine ⟨l1.take (l1.length - c), l1.drop (l1.length - c), l2.take c, l2.drop c, (List.take_append_drop _ _).symm, (List.take_append_drop _ _).symm, by simp; omega, ?_, ?_, ?_⟩
  · rw [show (l2.take c).length = c by rw [List.length_take]; omega]
    exact h1
  · intro x hx y hy
    obtain ⟨i, hi⟩ := List.mem_iff_getElem?.1 hx
    obtain ⟨j, hj⟩ := List.mem_iff_getElem?.1 hy
    have hic : i < c := by
      have := (List.getElem?_eq_some_iff.1 hi).1
      rw [List.length_take] at this
      omega
    rw [List.getElem?_take, if_pos hic] at hi
    rw [List.getElem?_drop] at hj
    obtain ⟨q, hq⟩ : ∃ q, l2[c - 1]? = some q := ⟨_, List.getElem?_eq_getElem (by omega)⟩
    obtain ⟨r, hr⟩ : ∃ r, l1[l1.length - 1 - (c - 1)]? = some r := ⟨_, List.getElem?_eq_getElem (by omega)⟩
    exact lex_of_le_lt (s2.get (by omega) hi hq) (lex_of_lt_le (h3 _ q r (by omega) hq hr) (s1.get (by omega) hr hj))
  · intro x hx y hy
    obtain ⟨i, hi⟩ := List.mem_iff_getElem?.1 hx
    obtain ⟨j, hj⟩ := List.mem_iff_getElem?.1 hy
    have hic : i < l1.length - c := by
      have := (List.getElem?_eq_some_iff.1 hi).1
      rw [List.length_take] at this
      omega
    rw [List.getElem?_take, if_pos hic] at hi
    rw [List.getElem?_drop] at hj
    have hcl : c < l2.length := by
      have := (List.getElem?_eq_some_iff.1 hj).1
      omega
    obtain ⟨q, hq⟩ : ∃ q, l2[c]? = some q := ⟨_, List.getElem?_eq_getElem hcl⟩
    obtain ⟨r, hr⟩ : ∃ r, l1[l1.length - 1 - c]? = some r := ⟨_, List.getElem?_eq_getElem (by omega)⟩
    intro hlex
    exact h4 c q r (Nat.le_refl _) (by omega) hq hr (lex_of_le_lt (s2.get (by omega) hq hj) (lex_of_lt_le hlex (s1.get (by omega) hi hr)))

/-! ### Runs -/

/-- What follows when a part is merged. -/
def smNxt (e : SsText) (d buf bufsize fuel : Nat) (s : List Part) (a : List Int) : C (List Int) :=
  match s with
  | [] => .ok a
  | g :: s => swapmergeLoop e d buf bufsize fuel g s a

/-- From a part, in at most `C` steps, to where the stack is `s'`. -/
def SmRuns (e : SsText) (d buf bufsize : Nat) (f : Part) (s : List Part) (a : List Int) (s' : List Part) (a' : List Int) (C : Nat) : Prop :=
  ∃ c, c ≤ C ∧ ∀ fuel, swapmergeLoop e d buf bufsize (fuel + c) f s a = smNxt e d buf bufsize fuel s' a'

variable {d buf bufsize : Nat}

theorem SmRuns.trans {f g : Part} {s1 s s' : List Part} {a a1 a2 : List Int} {C1 C2 : Nat} (h1 : SmRuns e d buf bufsize f s1 a (g :: s) a1 C1) (h2 : SmRuns e d buf bufsize g s a1 s' a2 C2) :
    SmRuns e d buf bufsize f s1 a s' a2 (C1 + C2) := by
  obtain ⟨c1, l1, h1⟩ := h1
  obtain ⟨c2, l2, h2⟩ := h2
  refine ⟨c2 + c1, by omega, fun fuel => ?_⟩
  rw [← Nat.add_assoc, h1]
  exact h2 fuel

theorem SmRuns.mono {f : Part} {s s' : List Part} {a a' : List Int} {C C' : Nat} (h : SmRuns e d buf bufsize f s a s' a' C) (hc : C ≤ C') : SmRuns e d buf bufsize f s a s' a' C' := by
  obtain ⟨c, l, h⟩ := h
  exact ⟨c, by omega, h⟩

theorem SmRuns.step {f f1 : Part} {s s1 s' : List Part} {a a1 a' : List Int} {C : Nat} (hs : swapmergeStep e d buf bufsize f s a = .ok (some (f1, s1), a1))
    (h : SmRuns e d buf bufsize f1 s1 a1 s' a' C) : SmRuns e d buf bufsize f s a s' a' (C + 1) := by
  obtain ⟨c, l, h⟩ := h
  refine ⟨c + 1, by omega, fun fuel => ?_⟩
  rw [← Nat.add_assoc]
  unfold swapmergeLoop
  rw [hs]
  exact h fuel

theorem SmRuns.done {f : Part} {s : List Part} {a a' : List Int} (hs : swapmergeStep e d buf bufsize f s a = .ok (none, a')) : SmRuns e d buf bufsize f s a s a' 1 := by
  refine ⟨1, Nat.le_refl _, fun fuel => ?_⟩
  unfold swapmergeLoop
  rw [hs]
  rfl

/-- A part is merged in at most `C` steps, if the stack has room for it. The first element of the left
list is complemented at first if `β`. `p` is the number before the part and `q` that after it. -/
def PartOk (e : SsText) (P : Nat → Nat) (d buf bufsize : Nat) (U l1 l2 : List Nat) (β : Bool) (C : Nat) : Prop :=
  ∀ (k : Nat) (ck : Bits) (p q : Nat) (A M J B : List Int) (s : List Part) (first middle last : Nat), first = A.length → middle = first + l1.length → last = middle + l2.length →
    buf = last + M.length → J.length = bufsize → l1.length + l2.length < 2 ^ k → k + s.length ≤ 32 → (β = true → ck.b1 = false ∧ ck.b2 = false) →
    (ck.b1 = false → ck.b2 = true → p ∈ U ∧ ∃ (A0 : List Int) (v : Int), A = A0 ++ [v] ∧ (v = (p : Int) ∨ v = inv p)) →
    (ck.b4 = true → q ∈ U ∧ ∃ M1 : List Int, M = (q : Int) :: M1) →
    ∃ (l' : List Nat) (K : List Int), l'.Perm (l1 ++ l2) ∧ Srt (key e P) l' ∧ K.Perm J ∧
      SmRuns e d buf bufsize ⟨first, middle, last, ck⟩ s (A ++ (invHead β (marks (key e P) l1) ++ (marks (key e P) l2 ++ (M ++ (J ++ B))))) s
        (A ++ (invHead (β || ck.b1 || (ck.b2 && joinB (key e P) [p] l')) (marks (key e P) l') ++ (invHead (ck.b4 && joinB (key e P) l' [q]) M ++ (K ++ B)))) C

/-- The number of the last element of a marked list. -/
theorem last_marks {b : Bool} {l : List Nat} {A : List Int} {p : Nat} (h : l.getLast? = some p) :
    ∃ (A0 : List Int) (v : Int), A ++ invHead b (marks (key e P) l) = A0 ++ [v] ∧ (v = (p : Int) ∨ v = inv p) := by
  have hl : (invHead b (marks (key e P) l)).length = l.length := by rw [invHead_length, marks_length]
  have hpos : l.length ≠ 0 := fun h0 => by rw [List.length_eq_zero_iff.1 h0] at h; cases h
  obtain ⟨Z, v, hZ, hZl⟩ := length_snoc (n := l.length - 1) (l := invHead b (marks (key e P) l)) (by omega)
  refine ⟨A ++ Z, v, by rw [hZ, List.append_assoc], ?_⟩
  rw [List.getLast?_eq_getElem?] at h
  have := invHead_marks_get (k := key e P) (b := b) h
  rw [hZ, List.getElem?_append_right (by omega), hZl, Nat.sub_self] at this
  rcases this with h | h
  · injection h with h; exact .inl h
  · injection h with h; exact .inr h

theorem pushPart_ok {f : Part} {s : List Part} (h : s.length < 32) : pushPart f s = .ok (f :: s) := by
  unfold pushPart
  rw [if_pos h]

/-- The two parts are merged, with `G` between them. -/
theorem swapPush_ok {U la lb lc ld : List Nat} {β : Bool} {CL CR : Nat} (hL : PartOk e P d buf bufsize U la lb false CL) (hR : PartOk e P d buf bufsize U lc ld β CR)
    {k : Nat} {ck nx : Bits} {p q g pg : Nat} {A G M J B : List Int} {s : List Part} {first lm l r rm middle last : Nat}
    (hf : first = A.length) (hlm : lm = first + la.length) (hl : l = lm + lb.length) (hr : r = l + G.length) (hrm : rm = r + lc.length) (hlast : last = rm + ld.length)
    (hbuf : buf = last + M.length) (hJ : J.length = bufsize) (hk : la.length + lb.length + (lc.length + ld.length) < 2 ^ k) (hs : k + s.length ≤ 32)
    (hneL : la ++ lb ≠ []) (hneR : lc ++ ld ≠ []) (hlU : ∀ x, x ∈ la ++ lb ++ (lc ++ ld) → x ∈ U)
    (h2 : ck.b1 = false → ck.b2 = true → p ∈ U ∧ ∃ (A0 : List Int) (v : Int), A = A0 ++ [v] ∧ (v = (p : Int) ∨ v = inv p))
    (h4 : ck.b4 = true → q ∈ U ∧ ∃ M1 : List Int, M = (q : Int) :: M1)
    (hn1 : nx.b1 = true → β = false) (hn4 : nx.b4 = true → nx.b2 = false ∧ g ∈ U ∧ ∃ G1 : List Int, G = (g : Int) :: G1)
    (hn2 : nx.b2 = true → β = false ∧ middle = l ∧ nx.b1 = false ∧ nx.b4 = false ∧ (G ≠ [] → pg ∈ U ∧ ∃ (G0 : List Int) (v : Int), G = G0 ++ [v] ∧ (v = (pg : Int) ∨ v = inv pg))) :
    ∃ (f1 : Part) (s1 : List Part) (L R : List Nat) (K : List Int), L.Perm (la ++ lb) ∧ Srt (key e P) L ∧ R.Perm (lc ++ ld) ∧ Srt (key e P) R ∧ K.Perm J ∧
      swapPush ⟨first, middle, last, ck⟩ lm rm l r nx s = .ok (f1, s1) ∧
      SmRuns e d buf bufsize f1 s1 (A ++ (marks (key e P) la ++ (marks (key e P) lb ++ (G ++ (invHead β (marks (key e P) lc) ++ (marks (key e P) ld ++ (M ++ (J ++ B)))))))) s
        (A ++ (invHead (ck.b1 || (ck.b2 && joinB (key e P) [p] L)) (marks (key e P) L) ++ (invHead (nx.b4 && joinB (key e P) L [g]) G ++
          (invHead (β || nx.b1 || (nx.b2 && joinB (key e P) (if G = [] then L else [pg]) R)) (marks (key e P) R) ++ (invHead (ck.b4 && joinB (key e P) R [q]) M ++ (K ++ B)))))) (CL + CR) := by
  have pL : 0 < la.length + lb.length := by rw [← List.length_append]; exact List.length_pos_iff.2 hneL
  have pR : 0 < lc.length + ld.length := by rw [← List.length_append]; exact List.length_pos_iff.2 hneR
  obtain ⟨k, rfl⟩ : ∃ j, k = j + 1 := ⟨k - 1, by
    have : k ≠ 0 := fun h => by rw [h] at hk; omega
    omega⟩
  rw [Nat.pow_succ] at hk
  have mU : ∀ {x : List Nat} {l' : List Nat}, x.Perm l' → (∀ y, y ∈ l' → y ∈ U) → ∀ {y : Nat}, y ∈ x → y ∈ U := fun hp h y hy => h _ (hp.subset hy)
  have hUL : ∀ y, y ∈ la ++ lb → y ∈ U := fun y hy => hlU y (List.mem_append_left _ hy)
  have hUR : ∀ y, y ∈ lc ++ ld → y ∈ U := fun y hy => hlU y (List.mem_append_right _ hy)
  have ne_of : ∀ {x y : List Nat}, x.Perm y → y ≠ [] → x ≠ [] := fun hp h h0 => by
    rw [h0] at hp
    exact h hp.symm.eq_nil
  have hz1 : β = true → nx.b1 = false := fun h => by
    cases h' : nx.b1 with
    | false => rfl
    | true => rw [hn1 h'] at h; cases h
  have hz2 : β = true → nx.b2 = false := fun h => by
    cases h' : nx.b2 with
    | false => rfl
    | true => rw [(hn2 h').1] at h; cases h
  unfold swapPush
  simp only []
  by_cases ho : l - first ≤ last - r
  · rw [if_pos ho, pushPart_ok (by omega)]
    simp only [Bind.bind, Except.bind]
    obtain ⟨L, K1, L1, L2, L3, L4⟩ := hL k ⟨ck.b1, ck.b2, nx.b4⟩ p g A (G ++ (invHead β (marks (key e P) lc) ++ (marks (key e P) ld ++ M))) J B (⟨r, rm, last, ⟨nx.b1, nx.b2, ck.b4⟩⟩ :: s) first lm l hf hlm hl
      (by simp [invHead_length, marks_length]; omega) hJ (by omega) (by rw [List.length_cons]; omega) (fun h => by cases h) h2
      (fun h => ⟨(hn4 h).2.1, by obtain ⟨G1, hG⟩ := (hn4 h).2.2; exact ⟨_, by rw [hG]; rfl⟩⟩)
    obtain ⟨pl, hpl⟩ : ∃ pl, L.getLast? = some pl := by
      cases h : L.getLast? with
      | none => exact absurd (List.getLast?_eq_none_iff.1 h) (ne_of L1 hneL)
      | some pl => exact ⟨pl, rfl⟩
    have lenL : (invHead (ck.b1 || (ck.b2 && joinB (key e P) [p] L)) (marks (key e P) L)).length = la.length + lb.length := by
      rw [invHead_length, marks_length, L1.length_eq, List.length_append]
    have lenG := invHead_length (nx.b4 && joinB (key e P) L [g]) G
    have hK1 := L3.length_eq
    obtain ⟨R, K2, R1, R2, R3, R4⟩ := hR (k + 1) ⟨nx.b1, nx.b2, ck.b4⟩ (if G = [] then pl else pg) q
      (A ++ (invHead (ck.b1 || (ck.b2 && joinB (key e P) [p] L)) (marks (key e P) L) ++ invHead (nx.b4 && joinB (key e P) L [g]) G)) M K1 B s r rm last
      (by rw [List.length_append, List.length_append, lenL, lenG]; omega) hrm hlast hbuf (by omega) (by rw [Nat.pow_succ]; omega) hs
      (fun h => ⟨hz1 h, hz2 h⟩)
      (fun _ h => by
        obtain ⟨n1, n2, n3, n4, n5⟩ := hn2 h
        by_cases hG : G = []
        · rw [if_pos hG, hG, invHead_nil, List.append_nil]
          exact ⟨mU L1 hUL (List.mem_of_getLast? hpl), last_marks hpl⟩
        · rw [if_neg hG]
          obtain ⟨n6, G0, v, hG0, hv⟩ := n5 hG
          refine ⟨n6, A ++ (invHead (ck.b1 || (ck.b2 && joinB (key e P) [p] L)) (marks (key e P) L) ++ G0), v, ?_, hv⟩
          rw [n4, Bool.false_and, invHead_false, hG0]
          simp)
      h4
    refine ⟨_, _, L, R, K2, L1, L2, R1, R2, R3.trans L3, rfl, ?_⟩
    have hjoin : joinB (key e P) (if G = [] then L else [pg]) R = joinB (key e P) [if G = [] then pl else pg] R := by
      by_cases hG : G = []
      · rw [if_pos hG, if_pos hG]
        unfold joinB
        rw [hpl]
        rfl
      · rw [if_neg hG, if_neg hG]
    rw [hjoin]
    have a1 : A ++ (marks (key e P) la ++ (marks (key e P) lb ++ (G ++ (invHead β (marks (key e P) lc) ++ (marks (key e P) ld ++ (M ++ (J ++ B))))))) =
        A ++ (invHead false (marks (key e P) la) ++ (marks (key e P) lb ++ (G ++ (invHead β (marks (key e P) lc) ++ (marks (key e P) ld ++ M)) ++ (J ++ B)))) := by rw [invHead_false]; simp
    rw [a1]
    refine L4.trans ?_
    have hGsplit : ∀ Z : List Int, invHead (nx.b4 && joinB (key e P) L [g]) (G ++ Z) = invHead (nx.b4 && joinB (key e P) L [g]) G ++ Z := fun Z => by
      by_cases hG : G = []
      · have : nx.b4 = false := by
          cases h : nx.b4 with
          | false => rfl
          | true =>
            obtain ⟨_, _, G1, h5⟩ := hn4 h
            rw [hG] at h5
            cases h5
        rw [this, Bool.false_and, invHead_false, invHead_false]
      · exact invHead_append hG
    simp only [Bool.false_or]
    rw [hGsplit]
    have a2 : A ++ (invHead (ck.b1 || ck.b2 && joinB (key e P) [p] L) (marks (key e P) L) ++
        (invHead (nx.b4 && joinB (key e P) L [g]) G ++ (invHead β (marks (key e P) lc) ++ (marks (key e P) ld ++ M)) ++ (K1 ++ B))) =
        (A ++ (invHead (ck.b1 || ck.b2 && joinB (key e P) [p] L) (marks (key e P) L) ++ invHead (nx.b4 && joinB (key e P) L [g]) G)) ++
          (invHead β (marks (key e P) lc) ++ (marks (key e P) ld ++ (M ++ (K1 ++ B)))) := by simp
    rw [a2]
    have a3 : A ++ (invHead (ck.b1 || ck.b2 && joinB (key e P) [p] L) (marks (key e P) L) ++ (invHead (nx.b4 && joinB (key e P) L [g]) G ++
        (invHead (β || nx.b1 || nx.b2 && joinB (key e P) [if G = [] then pl else pg] R) (marks (key e P) R) ++ (invHead (ck.b4 && joinB (key e P) R [q]) M ++ (K2 ++ B))))) =
        (A ++ (invHead (ck.b1 || ck.b2 && joinB (key e P) [p] L) (marks (key e P) L) ++ invHead (nx.b4 && joinB (key e P) L [g]) G)) ++
        (invHead (β || nx.b1 || nx.b2 && joinB (key e P) [if G = [] then pl else pg] R) (marks (key e P) R) ++ (invHead (ck.b4 && joinB (key e P) R [q]) M ++ (K2 ++ B))) := by simp
    rw [a3]
    exact R4
  · rw [if_neg ho, pushPart_ok (by omega)]
    simp only [Bind.bind, Except.bind]
    -- the bits
    generalize hfl : (nx.b2 && decide (r = middle)) = fl
    have hfl2 : fl = true → nx.b2 = true ∧ G = [] := fun h => by
      rw [h, Bool.and_eq_true, decide_eq_true_iff] at hfl
      refine ⟨hfl.1, List.length_eq_zero_iff.1 ?_⟩
      have := (hn2 hfl.1).2.1
      omega
    have hfl3 : nx.b2 = true → G = [] → fl = true := fun h hG => by
      rw [← hfl, h, Bool.true_and, decide_eq_true_iff, (hn2 h).2.1, hr, hG]
      rfl
    have hz3 : β = true → (nx.b2 ^^ fl) = false := fun h => by
      have h' := hz2 h
      rw [h', Bool.false_and] at hfl
      rw [h', ← hfl]
      rfl
    obtain ⟨R, K1, R1, R2, R3, R4⟩ := hR k ⟨nx.b1, nx.b2 ^^ fl, ck.b4⟩ pg q (A ++ (marks (key e P) la ++ (marks (key e P) lb ++ G))) M J B (⟨first, lm, l, ⟨ck.b1, ck.b2, nx.b4 ^^ fl⟩⟩ :: s) r rm last
      (by simp [marks_length]; omega) hrm hlast hbuf hJ (by omega) (by rw [List.length_cons]; omega)
      (fun h => ⟨hz1 h, hz3 h⟩)
      (fun _ h => by
        have h : (nx.b2 ^^ fl) = true := h
        have hb2 : nx.b2 = true := by
          cases h' : nx.b2 with
          | false =>
            rw [h', Bool.false_and] at hfl
            rw [h', ← hfl] at h
            cases h
          | true => rfl
        have hG : G ≠ [] := fun hG => by
          rw [hb2, hfl3 hb2 hG] at h
          cases h
        obtain ⟨n1, n2, n3, n4, n5⟩ := hn2 hb2
        obtain ⟨n6, G0, v, hG0, hv⟩ := n5 hG
        refine ⟨n6, A ++ (marks (key e P) la ++ (marks (key e P) lb ++ G0)), v, ?_, hv⟩
        rw [hG0]
        simp)
      h4
    obtain ⟨pr, R', hRc⟩ : ∃ pr R', R = pr :: R' := by
      cases hR' : R with
      | nil => exact absurd hR' (ne_of R1 hneR)
      | cons pr R' => exact ⟨pr, R', rfl⟩
    have hprU : pr ∈ U := mU R1 hUR (by rw [hRc]; exact List.mem_cons_self ..)
    generalize hbR : (β || nx.b1 || ((nx.b2 ^^ fl) && joinB (key e P) [pg] R)) = bR at R4
    have hbR0 : fl = true → bR = false := fun h => by
      obtain ⟨x1, x2⟩ := hfl2 h
      obtain ⟨n1, n2, n3, n4, n5⟩ := hn2 x1
      rw [← hbR, n1, n3, x1, h]
      rfl
    obtain ⟨L, K2, L1, L2, L3, L4⟩ := hL (k + 1) ⟨ck.b1, ck.b2, nx.b4 ^^ fl⟩ p (if fl then pr else g) A
      (G ++ (invHead bR (marks (key e P) R) ++ invHead (ck.b4 && joinB (key e P) R [q]) M)) K1 B s first lm l hf hlm hl
      (by simp only [List.length_append, invHead_length, marks_length, R1.length_eq]; omega) (by rw [R3.length_eq]; exact hJ) (by rw [Nat.pow_succ]; omega) hs (fun h => by cases h) h2
      (fun h => by
        have h : (nx.b4 ^^ fl) = true := h
        cases hfl' : fl with
        | true =>
          obtain ⟨x1, x2⟩ := hfl2 hfl'
          rw [if_pos rfl, x2, hbR0 hfl', invHead_false, hRc]
          exact ⟨hprU, _, rfl⟩
        | false =>
          rw [hfl', Bool.xor_false] at h
          obtain ⟨y1, y2, G1, y3⟩ := hn4 h
          rw [if_neg (by decide), y3]
          exact ⟨y2, _, rfl⟩)
    refine ⟨_, _, L, R, K2, L1, L2, R1, R2, L3.trans R3, rfl, ?_⟩
    have a1 : A ++ (marks (key e P) la ++ (marks (key e P) lb ++ (G ++ (invHead β (marks (key e P) lc) ++ (marks (key e P) ld ++ (M ++ (J ++ B))))))) =
        (A ++ (marks (key e P) la ++ (marks (key e P) lb ++ G))) ++ (invHead β (marks (key e P) lc) ++ (marks (key e P) ld ++ (M ++ (J ++ B)))) := by simp
    rw [a1]
    refine (R4.trans ?_).mono (Nat.le_of_eq (Nat.add_comm _ _))
    have a2 : (A ++ (marks (key e P) la ++ (marks (key e P) lb ++ G))) ++ (invHead bR (marks (key e P) R) ++ (invHead (ck.b4 && joinB (key e P) R [q]) M ++ (K1 ++ B))) =
        A ++ (invHead false (marks (key e P) la) ++ (marks (key e P) lb ++ (G ++ (invHead bR (marks (key e P) R) ++ invHead (ck.b4 && joinB (key e P) R [q]) M) ++ (K1 ++ B)))) := by
      rw [invHead_false]; simp
    rw [a2]
    simp only [Bool.false_or] at L4
    have a3 : invHead ((nx.b4 ^^ fl) && joinB (key e P) L [if fl = true then pr else g]) (G ++ (invHead bR (marks (key e P) R) ++ invHead (ck.b4 && joinB (key e P) R [q]) M)) =
        invHead (nx.b4 && joinB (key e P) L [g]) G ++
          (invHead (β || nx.b1 || (nx.b2 && joinB (key e P) (if G = [] then L else [pg]) R)) (marks (key e P) R) ++ invHead (ck.b4 && joinB (key e P) R [q]) M) := by
      have hmR : marks (key e P) R ≠ [] := mt marks_nil.1 (ne_of R1 hneR)
      cases hfl' : fl with
      | true =>
        obtain ⟨x1, x2⟩ := hfl2 hfl'
        obtain ⟨n1, n2, n3, n4, n5⟩ := hn2 x1
        rw [hbR0 hfl', x2, n4, n1, n3, x1, invHead_false, if_pos rfl, if_pos rfl, List.nil_append, invHead_append hmR, Bool.false_and, invHead_nil, List.nil_append]
        have : joinB (key e P) L [pr] = joinB (key e P) L R := by rw [hRc]; rfl
        rw [this]
        rfl
      | false =>
        rw [hfl', Bool.xor_false] at hbR
        rw [if_neg (by decide), Bool.xor_false]
        have hbb : bR = (β || nx.b1 || (nx.b2 && joinB (key e P) (if G = [] then L else [pg]) R)) := by
          rw [← hbR]
          cases hb2 : nx.b2 with
          | false => rfl
          | true =>
            rw [if_neg (fun hG => by rw [hfl3 hb2 hG] at hfl'; cases hfl')]
        rw [← hbb]
        by_cases hG : G = []
        · have : nx.b4 = false := by
            cases h : nx.b4 with
            | false => rfl
            | true =>
              obtain ⟨_, _, G1, h5⟩ := hn4 h
              rw [hG] at h5
              cases h5
          rw [this, Bool.false_and, invHead_false, invHead_false]
        · rw [invHead_append hG]
    rw [a3] at L4
    have a4 : A ++ (invHead (ck.b1 || ck.b2 && joinB (key e P) [p] L) (marks (key e P) L) ++ (invHead (nx.b4 && joinB (key e P) L [g]) G ++
        (invHead (β || nx.b1 || nx.b2 && joinB (key e P) (if G = [] then L else [pg]) R) (marks (key e P) R) ++ (invHead (ck.b4 && joinB (key e P) R [q]) M ++ (K2 ++ B))))) =
        A ++ (invHead (ck.b1 || ck.b2 && joinB (key e P) [p] L) (marks (key e P) L) ++ (invHead (nx.b4 && joinB (key e P) L [g]) G ++
        (invHead (β || nx.b1 || nx.b2 && joinB (key e P) (if G = [] then L else [pg]) R) (marks (key e P) R) ++ invHead (ck.b4 && joinB (key e P) R [q]) M) ++ (K2 ++ B))) := by simp
    rw [a4]
    exact L4

end

end Dss
end Detools
