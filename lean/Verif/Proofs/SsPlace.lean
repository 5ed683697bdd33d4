import Verif.Proofs.SsRotate
/-
ss_inplacemerge merges two sorted parts.
-/
namespace Detools
namespace Dss
open Sais

section
variable {k : Nat → List Nat}

/-! ### Marked lists -/

theorem marks_append_from : ∀ {x y : List Nat} {p : Nat}, x.getLast? = some p → marks k (x ++ y) = marks k x ++ marksFrom k p y := by
  have H : ∀ (x y : List Nat) (q p : Nat), (q :: x).getLast? = some p → marksFrom k q (x ++ y) = marksFrom k q x ++ marksFrom k p y := by
    intro x y
    induction x with
    | nil =>
      intro q p h
      injection h with h
      rw [← h]
      rfl
    | cons r x ih =>
      intro q p h
      show _ :: marksFrom k r (x ++ y) = _ :: (marksFrom k r x ++ _)
      rw [ih r p (by rw [List.getLast?_cons_cons] at h; exact h)]
  intro x y p h
  cases x with
  | nil => cases h
  | cons q x =>
    show (q : Int) :: marksFrom k q (x ++ y) = (q : Int) :: (marksFrom k q x ++ _)
    rw [H x y q p h]

/-- The numbers in a marked list. -/
theorem marksFrom_get : ∀ (l : List Nat) (p i r : Nat), l[i]? = some r → (marksFrom k p l)[i]? = some (r : Int) ∨ (marksFrom k p l)[i]? = some (inv r)
  | s :: l, p, 0, r, h => by
    injection h with h
    subst h
    show some (if k p = k s then inv s else (s : Int)) = some (s : Int) ∨ some (if k p = k s then inv s else (s : Int)) = some (inv s)
    split
    · exact .inr rfl
    · exact .inl rfl
  | s :: l, p, i + 1, r, h => marksFrom_get l s i r h

theorem marks_get {l : List Nat} {i r : Nat} (h : l[i]? = some r) : (marks k l)[i]? = some (r : Int) ∨ (marks k l)[i]? = some (inv r) := by
  cases l with
  | nil => cases h
  | cons s l =>
    cases i with
    | zero =>
      injection h with h
      subst h
      exact .inl rfl
    | succ i => exact marksFrom_get l s i r h

theorem getIdx_ok {a : List Int} {i r : Nat} (h : a[i]? = some (r : Int) ∨ a[i]? = some (inv r)) : getIdx a i = .ok r := by
  unfold getIdx
  rcases h with h | h
  · rw [rd_ok h]
    simp only [Bind.bind, Except.bind]
    rw [if_pos (by omega)]
    exact idx_nat r
  · rw [rd_ok h]
    simp only [Bind.bind, Except.bind]
    rw [if_neg (by unfold inv; omega), inv_inv]
    exact idx_nat r

theorem getIdx_marks {A B : List Int} {l : List Nat} {i j r : Nat} (hi : i = A.length + j) (h : l[j]? = some r) : getIdx (A ++ (marks k l ++ B)) i = .ok r := by
  have hj : j < (marks k l).length := by rw [marks_length]; exact (List.getElem?_eq_some_iff.1 h).1
  refine getIdx_ok ?_
  rw [hi, List.getElem?_append_right (by omega), Nat.add_sub_cancel_left, List.getElem?_append_left hj]
  exact marks_get h

theorem Srt.get {l : List Nat} (h : Srt k l) {i j r s : Nat} (hij : i ≤ j) (hi : l[i]? = some r) (hj : l[j]? = some s) : ¬ Lex (k s) (k r) := by
  obtain ⟨h1, e1⟩ := List.getElem?_eq_some_iff.1 hi
  obtain ⟨h2, e2⟩ := List.getElem?_eq_some_iff.1 hj
  by_cases he : i = j
  · subst he
    rw [hi] at hj
    injection hj with hj
    rw [hj]
    exact Lex.irrefl _
  · have := List.pairwise_iff_getElem.1 h i j h1 h2 (by omega)
    rw [e1, e2] at this
    exact this

/-- The group of the first key. -/
theorem firstGroup {r : Nat} {l : List Nat} (h : Srt k (r :: l)) : ∃ g l', l = g ++ l' ∧ (∀ q, q ∈ g → k q = k r) ∧ (∀ q, q ∈ l' → Lex (k r) (k q)) ∧ Srt k l' ∧
    marks k (r :: l) = (r : Int) :: (g.map (fun s : Nat => inv s) ++ marks k l') := by
  obtain ⟨g, l', h1, h2, h3, h4⟩ := marksFrom_group (k := k) l r
  have hs := (Srt.cons.1 h)
  have hl' : Srt k l' := by
    have := hs.2
    rw [h1] at this
    exact (Srt.append.1 this).2.1
  refine ⟨g, l', h1, h2, fun q hq => ?_, hl', by show (r : Int) :: marksFrom k r l = _; rw [h4]⟩
  cases l' with
  | nil => cases hq
  | cons s l'' =>
    have h5 : Lex (k r) (k s) := lex_of_ne (hs.1 s (by rw [h1]; simp)) (h3 s rfl)
    rcases List.mem_cons.1 hq with rfl | hq
    · exact h5
    · exact lex_of_lt_le h5 ((Srt.cons.1 hl').1 q hq)

/-- The group of the last key. -/
theorem lastGroup : ∀ (n : Nat) (l : List Nat), l.length = n → l ≠ [] → Srt k l → ∃ l' r g, l = l' ++ r :: g ∧ (∀ q, q ∈ g → k q = k r) ∧ (∀ q, q ∈ l' → Lex (k q) (k r)) ∧ Srt k l' ∧
    marks k l = marks k l' ++ (r : Int) :: g.map (fun s : Nat => inv s) := by
  intro n
  induction n using Nat.strongRecOn with
  | _ n ih =>
    intro l hn hne hs
    cases l with
    | nil => exact absurd rfl hne
    | cons r l =>
      obtain ⟨g, l', h1, h2, h3, h4, h5⟩ := firstGroup hs
      by_cases he : l' = []
      · subst he
        rw [List.append_nil] at h1
        subst h1
        refine ⟨[], r, l, rfl, h2, fun _ h => (by cases h), List.Pairwise.nil, ?_⟩
        rw [h5]
        simp [marks]
      · obtain ⟨l'', r', g', i1, i2, i3, i4, i5⟩ := ih l'.length (by rw [← hn, h1]; simp; omega) l' rfl he h4
        have hr' : Lex (k r) (k r') := h3 r' (by rw [i1]; simp)
        have hl'' : ∀ q, q ∈ l'' → Lex (k r) (k q) := fun q hq => h3 q (by rw [i1]; simp [hq])
        refine ⟨r :: (g ++ l''), r', g', by rw [h1, i1]; simp, i2, fun q hq => ?_, ?_, ?_⟩
        · rcases List.mem_cons.1 hq with rfl | hq
          · exact hr'
          · rcases List.mem_append.1 hq with hq | hq
            · rw [h2 q hq]; exact hr'
            · exact i3 q hq
        · have : r :: l = r :: (g ++ l'') ++ r' :: g' := by rw [h1, i1]; simp
          rw [this] at hs
          exact (Srt.append.1 hs).1
        · have hg := marks_group (k := k) h2
          have : marks k (r :: (g ++ l'')) = marks k (r :: g) ++ marks k l'' := by
            refine marks_append (x := r :: g) (Apart.of_lt fun p hp q hq => ?_)
            rcases List.mem_cons.1 hp with rfl | hp
            · exact hl'' q hq
            · rw [h2 p hp]; exact hl'' q hq
          rw [h5, i5, this, hg]
          simp

end

section
variable {e : SsText} {P : Nat → Nat} {m : Nat}

/-! ### The search -/

theorem placeSearch_ok (X : Pos e P m) {d p first : Nat} {l : List Nat} {a : List Int} (hseg : Seg e P m d (p :: l)) (hsrt : Srt (key e P) l)
    (hget : ∀ j r, l[j]? = some r → getIdx a (first + j) = .ok r) : ∀ (fuel j len : Nat) (r : Int), len < fuel → j + len ≤ l.length →
    (∀ i q, i < j → l[i]? = some q → Lex (key e P q) (key e P p)) → (∀ i q, j + len ≤ i → l[i]? = some q → ¬ Lex (key e P q) (key e P p)) →
    (r = 0 ↔ ∃ q, l[j + len]? = some q ∧ key e P q = key e P p) →
    ∃ j' r', placeSearch e d p a fuel (first + j) len (len / 2) r = .ok (first + j', r') ∧ j' ≤ l.length ∧ (∀ i q, i < j' → l[i]? = some q → Lex (key e P q) (key e P p)) ∧
      (∀ i q, j' ≤ i → l[i]? = some q → ¬ Lex (key e P q) (key e P p)) ∧ (r' = 0 ↔ ∃ q, l[j']? = some q ∧ key e P q = key e P p)
  | 0, _, _, _, hf, _, _, _, _ => by omega
  | fuel + 1, j, len, r, hf, hlen, hlo, hhi, hr => by
    unfold placeSearch
    by_cases h0 : 0 < len
    · rw [if_pos h0]
      obtain ⟨v, hv⟩ : ∃ v, l[j + len / 2]? = some v := ⟨_, List.getElem?_eq_getElem (by omega)⟩
      have hvm : v ∈ l := List.mem_of_getElem? hv
      rw [show first + j + len / 2 = first + (j + len / 2) by omega, hget _ _ hv]
      simp only [Bind.bind, Except.bind]
      obtain ⟨c, hc, hci⟩ := hseg.compare X (List.mem_cons_of_mem _ hvm) (List.mem_cons_self (a := p) (l := l))
      rw [hc]
      simp only []
      by_cases hq : c < 0
      · rw [if_pos hq]
        have hlt := hci.neg.1 hq
        have := placeSearch_ok X hseg hsrt hget fuel (j + len / 2 + 1) (len / 2 - (1 - len % 2)) r (by omega) (by omega)
          (fun i q hi hg => lex_of_le_lt (hsrt.get (by omega) hg hv) hlt) (fun i q hi hg => hhi i q (by omega) hg)
          (by rw [show j + len / 2 + 1 + (len / 2 - (1 - len % 2)) = j + len by omega]; exact hr)
        rw [show first + (j + len / 2) + 1 = first + (j + len / 2 + 1) by omega]
        exact this
      · rw [if_neg hq]
        have hge := mt hci.neg.2 hq
        refine placeSearch_ok X hseg hsrt hget fuel j (len / 2) c (by omega) (by omega) hlo
          (fun i q hi hg h => hsrt.get hi hv hg (lex_of_lt_le h hge)) ?_
        rw [hci.zero]
        exact ⟨fun h => ⟨v, hv, h⟩, fun ⟨q, hq, h⟩ => by rw [hv] at hq; injection hq with hq; rw [hq]; exact h⟩
    · rw [if_neg h0]
      have h0 : len = 0 := by omega
      subst h0
      exact ⟨j, r, rfl, by omega, hlo, fun i q hi => hhi i q (by omega), hr⟩

/-- The same, with the list in two parts. -/
theorem placeSearch_parts (X : Pos e P m) {d p first : Nat} {l : List Nat} {a : List Int} (hseg : Seg e P m d (p :: l)) (hsrt : Srt (key e P) l)
    (hget : ∀ j r, l[j]? = some r → getIdx a (first + j) = .ok r) :
    ∃ pre post r, l = pre ++ post ∧ (∀ q, q ∈ pre → Lex (key e P q) (key e P p)) ∧ (∀ q, q ∈ post → ¬ Lex (key e P q) (key e P p)) ∧
      placeSearch e d p a (l.length + 1) first l.length (l.length / 2) (-1) = .ok (first + pre.length, r) ∧ (r = 0 ↔ ∃ q, post.head? = some q ∧ key e P q = key e P p) := by
  obtain ⟨j, r, h1, h2, h3, h4, h5⟩ := placeSearch_ok X hseg hsrt hget (l.length + 1) 0 l.length (-1) (by omega) (by omega) (fun i q h => by omega)
    (fun i q h hq => by rw [List.getElem?_eq_none (by omega)] at hq; cases hq)
    ⟨fun h => absurd h (by decide), fun ⟨q, hq, _⟩ => by rw [List.getElem?_eq_none (by omega)] at hq; cases hq⟩
  refine ⟨l.take j, l.drop j, r, (List.take_append_drop _ _).symm, fun q hq => ?_, fun q hq => ?_, ?_, ?_⟩
  · obtain ⟨i, hi⟩ := List.mem_iff_getElem?.1 hq
    have hij : i < j := by
      have := (List.getElem?_eq_some_iff.1 hi).1
      rw [List.length_take] at this
      omega
    rw [List.getElem?_take, if_pos hij] at hi
    exact h3 i q hij hi
  · obtain ⟨i, hi⟩ := List.mem_iff_getElem?.1 hq
    rw [List.getElem?_drop] at hi
    exact h4 _ q (by omega) hi
  · rw [List.length_take, Nat.min_eq_left h2]
    exact h1
  · rw [h5, List.head?_drop]

/-! ### The merge -/

theorem skipBack_ok : ∀ (g : List Int) (A B : List Int) (r : Int) (last : Nat), 0 ≤ r → (∀ x, x ∈ g → x < 0) → last = A.length + 1 + g.length →
    skipBack (A ++ r :: (g.reverse ++ B)) last = .ok A.length
  | [], A, B, r, last, hr, hg, hl => by
    rw [hl]
    show skipBack _ (A.length + 1) = _
    simp only [skipBack, Bind.bind, Except.bind]
    rw [rd_mid rfl]
    simp only []
    rw [if_neg (by omega)]
  | y :: g, A, B, r, last, hr, hg, hl => by
    rw [hl]
    show skipBack _ (A.length + 1 + g.length + 1) = _
    simp only [skipBack, Bind.bind, Except.bind]
    have e1 : A ++ r :: ((y :: g).reverse ++ B) = (A ++ r :: g.reverse) ++ y :: B := by simp
    rw [e1, rd_mid (by simp; omega)]
    simp only []
    rw [if_pos (hg y (List.mem_cons_self ..))]
    have e2 : (A ++ r :: g.reverse) ++ y :: B = A ++ r :: (g.reverse ++ y :: B) := by simp
    rw [e2]
    exact skipBack_ok g A (y :: B) r _ hr (fun x hx => hg x (List.mem_cons_of_mem _ hx)) rfl

theorem skipBackIf_ok {A B : List Int} {r : Nat} {g : List Nat} {last : Nat} {c : Bool} (hc : c = true ↔ g ≠ []) (hl : last = A.length + g.length) :
    skipBackIf c (A ++ (r : Int) :: (g.map (fun s : Nat => inv s) ++ B)) last = .ok A.length := by
  unfold skipBackIf
  by_cases h : g = []
  · subst h
    rw [if_neg (by rw [hc]; simp)]
    rw [hl]
    rfl
  · rw [if_pos (hc.2 h)]
    obtain ⟨g', y, rfl, hg'⟩ := length_snoc (n := g.length - 1) (l := g) (by have := List.length_pos_iff.2 h; omega)
    have := skipBack_ok (g'.map (fun s : Nat => inv s)).reverse A (inv y :: B) r last (by omega)
      (fun x hx => by
        rw [List.mem_reverse] at hx
        obtain ⟨s, _, rfl⟩ := List.mem_map.1 hx
        exact inv_neg s)
      (by rw [hl]; simp; omega)
    rw [List.reverse_reverse] at this
    rw [← this]
    simp

theorem placeStep_ok {pre post : List Nat} {p : Nat} {Y A B : List Int} {x middle last : Nat} {r : Int} {k : Nat → List Nat} (hx : x = A.length + pre.length)
    (hm : middle = x + post.length) (hl : last = middle + Y.length) (hr : r = 0 ↔ ∃ q, post.head? = some q ∧ k q = k p) :
    placeStep x middle last r (A ++ ((marks k pre ++ marks k post) ++ (Y ++ B))) = .ok (x, x + Y.length, A ++ (marks k pre ++ (Y ++ (marksFrom k p post ++ B)))) := by
  unfold placeStep
  cases post with
  | nil =>
    rw [if_neg (by simp at hm; omega), show middle = x by simp at hm; omega, hl, show middle = x by simp at hm; omega]
    simp [marks, marksFrom]
  | cons q post =>
    rw [if_pos (by simp at hm; omega)]
    have e1 : A ++ ((marks k pre ++ marks k (q :: post)) ++ (Y ++ B)) = (A ++ marks k pre) ++ (q : Int) :: (marksFrom k q post ++ (Y ++ B)) := by
      show _ = (A ++ marks k pre) ++ (marks k (q :: post) ++ (Y ++ B))
      simp
    have e2 : invIf (decide (r = 0)) x ((A ++ marks k pre) ++ (q : Int) :: (marksFrom k q post ++ (Y ++ B))) = .ok ((A ++ marks k pre) ++ (marksFrom k p (q :: post) ++ (Y ++ B))) := by
      show _ = Except.ok ((A ++ marks k pre) ++ (if k p = k q then inv q else (q : Int)) :: (marksFrom k q post ++ (Y ++ B)))
      by_cases h : r = 0
      · obtain ⟨q', h1, h2⟩ := hr.1 h
        injection h1 with h1
        subst h1
        rw [decide_eq_true h, if_pos h2.symm, invIf_true (by rw [List.length_append, marks_length]; omega)]
      · rw [decide_eq_false h, if_neg (fun hh => h (hr.2 ⟨q, rfl, hh.symm⟩)), invIf_false]
    rw [e1, e2]
    simp only [Bind.bind, Except.bind]
    rw [ssRotate_ok (by rw [List.length_append, marks_length]; omega) (by rw [marksFrom_length]; omega) hl, show last - (middle - x) = x + Y.length by omega]
    simp

theorem inplaceLoop_ok (X : Pos e P m) {d first : Nat} : ∀ (fuel : Nat) (l1 l2 : List Nat) (A B : List Int) (middle last : Nat), l1 ≠ [] → l2 ≠ [] → Seg e P m d (l1 ++ l2) →
    Srt (key e P) l1 → Srt (key e P) l2 → first = A.length → middle = first + l1.length → last = middle + l2.length → l2.length ≤ fuel →
    ∃ l', l'.Perm (l1 ++ l2) ∧ Srt (key e P) l' ∧ inplaceLoop e d first fuel middle last (A ++ (marks (key e P) l1 ++ (marks (key e P) l2 ++ B))) = .ok (A ++ (marks (key e P) l' ++ B))
  | 0, l1, l2, A, B, middle, last, h1, h2, hseg, s1, s2, hf, hm, hl, hfu => absurd (List.length_eq_zero_iff.1 (by omega)) h2
  | fuel + 1, l1, l2, A, B, middle, last, h1, h2, hseg, s1, s2, hf, hm, hl, hfu => by
    obtain ⟨l2', r, g, g1, g2, g3, g4, g5⟩ := lastGroup (k := key e P) l2.length l2 rfl h2 s2
    have hlen2 : l2.length = l2'.length + (g.length + 1) := by rw [g1]; simp
    -- the last number
    obtain ⟨p, hp⟩ : ∃ p, l2[l2.length - 1]? = some p := ⟨_, List.getElem?_eq_getElem (by omega)⟩
    have hplast : l2.getLast? = some p := by rw [List.getLast?_eq_getElem?]; exact hp
    have hpm : p ∈ r :: g := by
      have : l2.getLast? = (r :: g).getLast? := by rw [g1, List.getLast?_append]; simp [List.getLast?_cons]
      exact List.mem_of_getLast? (this ▸ hplast)
    have hkp : key e P p = key e P r := by
      rcases List.mem_cons.1 hpm with h | h
      · rw [h]
      · exact g2 p h
    have hp2 : p ∈ l2 := List.mem_of_getElem? hp
    have hv : ∃ v : Int, rd (A ++ (marks (key e P) l1 ++ (marks (key e P) l2 ++ B))) (last - 1) = .ok v ∧ (v < 0 ↔ g ≠ []) := by
      rw [g5]
      by_cases hg : g = []
      · subst hg
        refine ⟨r, ?_, by simp⟩
        have e1 : A ++ (marks (key e P) l1 ++ ((marks (key e P) l2' ++ (r : Int) :: [].map (fun s : Nat => inv s)) ++ B)) = (A ++ (marks (key e P) l1 ++ marks (key e P) l2')) ++ (r : Int) :: B := by
          simp
        rw [e1, rd_mid (by simp [marks_length]; simp at hlen2; omega)]
      · obtain ⟨g', y, rfl, hg'⟩ := length_snoc (n := g.length - 1) (l := g) (by have := List.length_pos_iff.2 hg; omega)
        refine ⟨inv y, ?_, by simp [inv_neg]⟩
        have e1 : A ++ (marks (key e P) l1 ++ ((marks (key e P) l2' ++ (r : Int) :: (g' ++ [y]).map (fun s : Nat => inv s)) ++ B)) =
            (A ++ (marks (key e P) l1 ++ (marks (key e P) l2' ++ (r : Int) :: g'.map (fun s : Nat => inv s)))) ++ inv y :: B := by simp
        rw [e1, rd_mid (by simp [marks_length]; simp at hlen2; omega)]
    obtain ⟨v, hv1, hv2⟩ := hv
    have hidx : getIdx (A ++ (marks (key e P) l1 ++ (marks (key e P) l2 ++ B))) (last - 1) = .ok p := by
      have := getIdx_marks (k := key e P) (A := A ++ marks (key e P) l1) (B := B) (i := last - 1) (j := l2.length - 1) (by simp [marks_length]; omega) hp
      rw [← this]
      simp
    obtain ⟨pre, post, q, p1, p2, p3, p4, p5⟩ := placeSearch_parts X (d := d) (p := p) (first := first) (l := l1) (a := A ++ (marks (key e P) l1 ++ (marks (key e P) l2 ++ B)))
      (hseg.subset fun r hr => by
        rcases List.mem_cons.1 hr with rfl | hr
        · exact List.mem_append_right _ hp2
        · exact List.mem_append_left _ hr)
      s1 (fun j s hj => getIdx_marks (by omega) hj)
    have spre : Srt (key e P) pre := by rw [p1] at s1; exact (Srt.append.1 s1).1
    have spost : Srt (key e P) post := by rw [p1] at s1; exact (Srt.append.1 s1).2.1
    have hapart : marks (key e P) l1 = marks (key e P) pre ++ marks (key e P) post := by
      rw [p1]
      exact marks_append (Apart.of_lt fun a ha b hb => lex_of_lt_le (p2 a ha) (p3 b hb))
    have hlen1 : l1.length = pre.length + post.length := by rw [p1]; simp
    unfold inplaceLoop
    rw [hv1, hidx, show middle - first = l1.length by omega]
    simp only [Bind.bind, Except.bind]
    rw [p4]
    simp only []
    rw [hapart, placeStep_ok (k := key e P) (p := p) (x := first + pre.length) (by omega) (by omega) (by rw [marks_length]; omega) p5]
    simp only []
    have hpost : ∀ s, s ∈ post → ∀ t, t ∈ l2 → ¬ Lex (key e P s) (key e P t) := fun s hs t ht h => by
      obtain ⟨i, hi⟩ := List.mem_iff_getElem?.1 ht
      exact s2.get (by have := (List.getElem?_eq_some_iff.1 hi).1; omega) hi hp (lex_of_le_lt (p3 s hs) h)
    have spl : Srt (key e P) (l2 ++ post) := Srt.append.2 ⟨s2, spost, fun t ht s hs => hpost s hs t ht⟩
    have hmk : marks (key e P) (l2 ++ post) = marks (key e P) l2 ++ marksFrom (key e P) p post := marks_append_from hplast
    by_cases hpre : pre = []
    · subst hpre
      rw [if_pos ⟨by
        have : l1.length ≠ 0 := fun h => h1 (List.length_eq_zero_iff.1 h)
        simp at hlen1 ⊢
        omega, by simp⟩]
      refine ⟨l2 ++ post, ?_, spl, ?_⟩
      · rw [p1]
        exact List.perm_append_comm
      · rw [hmk]
        simp [marks]
    · have hprel : pre.length ≠ 0 := fun h => hpre (List.length_eq_zero_iff.1 h)
      rw [if_neg (by omega), g5]
      have e2 : A ++ (marks (key e P) pre ++ ((marks (key e P) l2' ++ (r : Int) :: g.map (fun s : Nat => inv s)) ++ (marksFrom (key e P) p post ++ B))) =
          (A ++ (marks (key e P) pre ++ marks (key e P) l2')) ++ (r : Int) :: (g.map (fun s : Nat => inv s) ++ (marksFrom (key e P) p post ++ B)) := by simp
      rw [e2, skipBackIf_ok (by rw [decide_eq_true_iff]; exact hv2) (by simp [marks_length]; omega)]
      simp only []
      -- what is done
      have hlast2 : (r :: g).getLast? = some p := by
        have : l2.getLast? = (r :: g).getLast? := by rw [g1, List.getLast?_append]; simp [List.getLast?_cons]
        rw [← this]
        exact hplast
      have hdone : (r : Int) :: (g.map (fun s : Nat => inv s) ++ marksFrom (key e P) p post) = marks (key e P) (r :: g ++ post) := by
        rw [marks_append_from hlast2, marks_group g2]
        rfl
      have sdone : Srt (key e P) (r :: g ++ post) := by
        rw [g1, List.append_assoc] at spl
        exact (Srt.append.1 spl).2.1
      have hltr : ∀ s, s ∈ r :: g ++ post → ∀ t, Lex (key e P t) (key e P r) → Lex (key e P t) (key e P s) := fun s hs t ht => by
        refine lex_of_lt_le ht ?_
        rcases List.mem_append.1 hs with hs | hs
        · rcases List.mem_cons.1 hs with rfl | hs
          · exact Lex.irrefl _
          · rw [g2 s hs]; exact Lex.irrefl _
        · rw [← hkp]; exact p3 s hs
      have hpr : ∀ t, t ∈ pre → Lex (key e P t) (key e P r) := fun t ht => by rw [← hkp]; exact p2 t ht
      by_cases hl2' : l2' = []
      · subst hl2'
        rw [if_pos (by simp [marks_length]; omega)]
        refine ⟨pre ++ (r :: g ++ post), ?_, ?_, ?_⟩
        · rw [p1, g1, List.nil_append]
          have : (pre ++ (r :: g ++ post)).Perm (pre ++ (post ++ r :: g)) := List.Perm.append_left _ List.perm_append_comm
          exact this.trans (by rw [List.append_assoc])
        · exact Srt.append.2 ⟨spre, sdone, fun a ha b hb => (hltr b hb a (hpr a ha)).asymm⟩
        · rw [marks_append (Apart.of_lt fun a ha b hb => hltr b hb a (hpr a ha)), ← hdone]
          simp [marks]
      · rw [if_neg (by
          have : l2'.length ≠ 0 := fun h => hl2' (List.length_eq_zero_iff.1 h)
          simp [marks_length]
          omega)]
        have e3 : (A ++ (marks (key e P) pre ++ marks (key e P) l2')) ++ (r : Int) :: (g.map (fun s : Nat => inv s) ++ (marksFrom (key e P) p post ++ B)) =
            A ++ (marks (key e P) pre ++ (marks (key e P) l2' ++ (marks (key e P) (r :: g ++ post) ++ B))) := by
          rw [← hdone]
          simp
        obtain ⟨l', i1, i2, i3⟩ := inplaceLoop_ok X fuel pre l2' A (marks (key e P) (r :: g ++ post) ++ B) (first + pre.length)
          (A ++ (marks (key e P) pre ++ marks (key e P) l2')).length hpre hl2'
          (hseg.subset fun s hs => by
            rcases List.mem_append.1 hs with hs | hs
            · exact List.mem_append_left _ (by rw [p1]; exact List.mem_append_left _ hs)
            · exact List.mem_append_right _ (by rw [g1]; exact List.mem_append_left _ hs))
          spre g4 hf rfl (by simp [marks_length]; omega) (by omega)
        have hlt : ∀ a, a ∈ l' → ∀ b, b ∈ r :: g ++ post → Lex (key e P a) (key e P b) := fun a ha b hb => by
          refine hltr b hb a ?_
          rcases List.mem_append.1 (i1.subset ha) with ha | ha
          · exact hpr a ha
          · exact g3 a ha
        refine ⟨l' ++ (r :: g ++ post), ?_, ?_, ?_⟩
        · rw [p1, g1]
          refine (i1.append_right _).trans ?_
          have : (pre ++ l2' ++ (r :: g ++ post)).Perm (pre ++ (post ++ (l2' ++ r :: g))) := by
            rw [List.append_assoc]
            refine List.Perm.append_left _ ?_
            rw [← List.append_assoc]
            exact List.perm_append_comm
          exact this.trans (by simp)
        · exact Srt.append.2 ⟨i2, sdone, fun a ha b hb => (hlt a ha b hb).asymm⟩
        · rw [e3, i3, marks_append (Apart.of_lt hlt)]
          simp

theorem ssInplacemerge_ok (X : Pos e P m) {d first middle last : Nat} {l1 l2 : List Nat} {A B : List Int} (h1 : l1 ≠ []) (h2 : l2 ≠ []) (hseg : Seg e P m d (l1 ++ l2))
    (s1 : Srt (key e P) l1) (s2 : Srt (key e P) l2) (hf : first = A.length) (hm : middle = first + l1.length) (hl : last = middle + l2.length) :
    ∃ l', l'.Perm (l1 ++ l2) ∧ Srt (key e P) l' ∧
      ssInplacemerge e first middle last d (A ++ (marks (key e P) l1 ++ (marks (key e P) l2 ++ B))) = .ok (A ++ (marks (key e P) l' ++ B)) :=
  inplaceLoop_ok X _ l1 l2 A B middle last h1 h2 hseg s1 s2 hf hm hl (by omega)

end

end Dss
end Detools
