import Verif.Model.Sssort
import Verif.Proofs.DssSub
/-
sssort: substrings, comparison, marked lists.
-/
namespace Detools
namespace Dss
open Sais

/-! ### Arrays in parts -/

theorem rd_mid {α : Type} {A B : List α} {v : α} {i : Nat} (hi : i = A.length) : rd (A ++ v :: B) i = .ok v := by
  subst hi
  exact rd_ok (by rw [List.getElem?_append_right (Nat.le_refl _), Nat.sub_self]; rfl)

theorem wr_mid {α : Type} {A B : List α} {v w : α} {i : Nat} (hi : i = A.length) : wr (A ++ v :: B) i w = .ok (A ++ w :: B) := by
  subst hi
  rw [wr_ok w (by rw [List.length_append]; simp), List.set_append_right _ _ (Nat.le_refl _), Nat.sub_self]
  rfl

theorem idx_ofNat (r : Nat) : idx (Int.ofNat r) = .ok r := idx_nat r

theorem getNo_mid {A B : List Int} {r i : Nat} (hi : i = A.length) : getNo (A ++ (r : Int) :: B) i = .ok r := by
  unfold getNo
  rw [rd_mid hi]
  exact idx_nat r

theorem getNo_ok {a : List Int} {i r : Nat} (h : a[i]? = some (r : Int)) : getNo a i = .ok r := by
  unfold getNo
  rw [rd_ok h]
  exact idx_nat r

theorem inv_neg (r : Nat) : inv (r : Int) < 0 := by unfold inv; omega

theorem inv_inv (v : Int) : inv (inv v) = v := by unfold inv; omega

/-! ### Comparison -/

/-- What the result of a comparison says. -/
def CmpIs (c : Int) (a b : List Nat) : Prop := (c < 0 ∧ Lex a b) ∨ (c = 0 ∧ a = b) ∨ (0 < c ∧ Lex b a)

theorem CmpIs.neg {c a b} (h : CmpIs c a b) : c < 0 ↔ Lex a b := by
  rcases h with h | h | h
  · exact ⟨fun _ => h.2, fun _ => h.1⟩
  · exact ⟨fun k => by omega, fun k => absurd (h.2 ▸ k) (Lex.irrefl _)⟩
  · exact ⟨fun k => by omega, fun k => absurd k h.2.asymm⟩

theorem CmpIs.pos {c a b} (h : CmpIs c a b) : 0 < c ↔ Lex b a := by
  rcases h with h | h | h
  · exact ⟨fun k => by omega, fun k => absurd k h.2.asymm⟩
  · exact ⟨fun k => by omega, fun k => absurd (h.2 ▸ k) (Lex.irrefl _)⟩
  · exact ⟨fun _ => h.2, fun _ => h.1⟩

theorem CmpIs.zero {c a b} (h : CmpIs c a b) : c = 0 ↔ a = b := by
  rcases h with h | h | h
  · exact ⟨fun k => by omega, fun k => absurd (k ▸ h.2) (Lex.irrefl _)⟩
  · exact ⟨fun _ => h.2, fun _ => h.1⟩
  · exact ⟨fun k => by omega, fun k => absurd (k ▸ h.2) (Lex.irrefl _)⟩

theorem take_succ_ch {t : List Nat} {x n : Nat} (h : x < t.length) : (t.drop x).take (n + 1) = ch t x :: (t.drop (x + 1)).take n := by
  rw [drop_ch h, List.take_succ_cons]

theorem ssCmp_ok {t : List Nat} {u2n : Nat} (h2 : u2n ≤ t.length) : ∀ (todo u1 u2 : Nat), u1 + todo ≤ t.length →
    ∃ c, ssCmp t u2n todo u1 u2 = .ok c ∧ CmpIs c ((t.drop u1).take todo) ((t.drop u2).take (u2n - u2))
  | 0, u1, u2, h1 => by
    refine ⟨_, rfl, ?_⟩
    by_cases h : u2 < u2n
    · rw [if_pos h, List.take_zero, show u2n - u2 = (u2n - u2 - 1) + 1 by omega, take_succ_ch (by omega)]
      exact .inl ⟨by decide, trivial⟩
    · rw [if_neg h, List.take_zero, show u2n - u2 = 0 by omega, List.take_zero]
      exact .inr (.inl ⟨rfl, rfl⟩)
  | todo + 1, u1, u2, h1 => by
    unfold ssCmp
    by_cases h : u2 < u2n
    · rw [if_pos h, rd_ch (by omega), rd_ch (by omega), take_succ_ch (by omega)]
      simp only [Bind.bind, Except.bind]
      rw [show u2n - u2 = (u2n - (u2 + 1)) + 1 by omega, take_succ_ch (by omega)]
      by_cases he : ch t u1 = ch t u2
      · rw [if_pos he]
        obtain ⟨c, hc, hi⟩ := ssCmp_ok h2 todo (u1 + 1) (u2 + 1) (by omega)
        refine ⟨c, hc, ?_⟩
        rcases hi with hi | hi | hi
        · exact .inl ⟨hi.1, lex_cons.2 (.inr ⟨he, hi.2⟩)⟩
        · exact .inr (.inl ⟨hi.1, by rw [he, hi.2]⟩)
        · exact .inr (.inr ⟨hi.1, lex_cons.2 (.inr ⟨he.symm, hi.2⟩)⟩)
      · rw [if_neg he]
        refine ⟨_, rfl, ?_⟩
        by_cases hl : ch t u1 < ch t u2
        · exact .inl ⟨by omega, lex_cons.2 (.inl hl)⟩
        · exact .inr (.inr ⟨by omega, lex_cons.2 (.inl (by omega))⟩)
    · rw [if_neg h]
      refine ⟨1, rfl, .inr (.inr ⟨by decide, ?_⟩)⟩
      rw [show u2n - u2 = 0 by omega, List.take_zero, take_succ_ch (by omega)]
      exact trivial

/-- The positions are those of type B*: all that sssort relies on. -/
structure Pos (e : SsText) (P : Nat → Nat) (m : Nat) : Prop where
  get : ∀ r, r < m → e.pa[r]? = some (P r : Int)
  next : ∀ r, r + 1 < m → P r + 2 ≤ P (r + 1)
  fit : ∀ r, r < m → P r + 2 ≤ e.t.length
  up : ∀ r, r < m → ch e.t (P r) < ch e.t (P r + 1)

/-- The length of a substring. -/
def kl (P : Nat → Nat) (r : Nat) : Nat := P (r + 1) + 2 - P r

/-- The substring of number `r`, which is not the last. -/
def key (e : SsText) (P : Nat → Nat) (r : Nat) : List Nat := (e.t.drop (P r)).take (kl P r)

section
variable {e : SsText} {P : Nat → Nat} {m : Nat}

theorem Pos.pos (X : Pos e P m) {r : Nat} (h : r < m) : e.pos r = .ok (P r) := getNo_ok (X.get r h)

theorem Pos.kl (X : Pos e P m) {r : Nat} (h : r + 1 < m) : 4 ≤ kl P r ∧ P r + kl P r ≤ e.t.length := by
  have h1 := X.next r h
  have h2 := X.fit (r + 1) h
  unfold Dss.kl
  omega

theorem Pos.length (X : Pos e P m) {r : Nat} (h : r + 1 < m) : (key e P r).length = Dss.kl P r := by
  have := X.kl h
  unfold key
  rw [List.length_take, List.length_drop]
  omega

theorem Pos.key_get (X : Pos e P m) {r d : Nat} (h : r + 1 < m) (hd : d < Dss.kl P r) : (key e P r)[d]? = some (ch e.t (P r + d)) := by
  have := X.kl h
  unfold key
  rw [List.getElem?_take, if_pos hd, List.getElem?_drop, ch_get (by omega)]

theorem key_drop (r d : Nat) : (key e P r).drop d = (e.t.drop (P r + d)).take (kl P r - d) := by
  unfold key
  rw [List.drop_take, List.drop_drop]

theorem lex_drop_key {a b : List Nat} {d : Nat} (h : a.take d = b.take d) : Lex (a.drop d) (b.drop d) ↔ Lex a b := by
  conv => rhs; rw [← List.take_append_drop d a, ← List.take_append_drop d b, h]
  exact (lex_append_iff _).symm

theorem eq_drop_key {a b : List Nat} {d : Nat} (h : a.take d = b.take d) : a.drop d = b.drop d ↔ a = b := by
  refine ⟨fun k => ?_, fun k => by rw [k]⟩
  rw [← List.take_append_drop d a, ← List.take_append_drop d b, h, k]

theorem CmpIs.drop {c : Int} {a b : List Nat} {d : Nat} (h : a.take d = b.take d) (hc : CmpIs c (a.drop d) (b.drop d)) : CmpIs c a b := by
  unfold CmpIs at *
  rw [lex_drop_key h, lex_drop_key h.symm, eq_drop_key h] at hc
  exact hc

theorem Pos.compare (X : Pos e P m) {d r s : Nat} (hr : r + 1 < m) (hs : s + 1 < m) (hd : d ≤ Dss.kl P r) (h : (key e P r).take d = (key e P s).take d) :
    ∃ c, ssCompare e d r s = .ok c ∧ CmpIs c (key e P r) (key e P s) := by
  have h1 := X.kl hr
  have h2 := X.kl hs
  have h3 := X.next r hr
  have h4 := X.next s hs
  unfold Dss.kl at h1 h2 hd
  obtain ⟨c, hc, hi⟩ := ssCmp_ok (t := e.t) (u2n := P (s + 1) + 2) (by omega) (P (r + 1) + 2 - (P r + d)) (P r + d) (P s + d) (by omega)
  refine ⟨c, ?_, ?_⟩
  · unfold ssCompare
    rw [X.pos (by omega), X.pos (by omega), X.pos hr, X.pos hs]
    exact hc
  · refine CmpIs.drop h ?_
    rw [key_drop, key_drop]
    unfold Dss.kl
    rw [show P (r + 1) + 2 - P r - d = P (r + 1) + 2 - (P r + d) by omega, show P (s + 1) + 2 - P s - d = P (s + 1) + 2 - (P s + d) by omega]
    exact hi

theorem Pos.keyAt (X : Pos e P m) {a : List Int} {i d r : Nat} (h : a[i]? = some (r : Int)) (hr : r + 1 < m) (hd : d < Dss.kl P r) :
    keyAt e d a i = .ok (ch e.t (P r + d)) := by
  have := X.kl hr
  unfold Dss.keyAt
  rw [getNo_ok h]
  simp only [Bind.bind, Except.bind]
  rw [X.pos (by omega)]
  exact rd_ch (by omega)

/-! ### Marked lists -/

/-- Numbers, each complemented if its key is that of the number before. -/
def marksFrom (k : Nat → List Nat) (p : Nat) : List Nat → List Int
  | [] => []
  | r :: l => (if k p = k r then inv r else (r : Int)) :: marksFrom k r l

def marks (k : Nat → List Nat) : List Nat → List Int
  | [] => []
  | r :: l => (r : Int) :: marksFrom k r l

/-- Sorted by key. -/
def Srt (k : Nat → List Nat) (l : List Nat) : Prop := l.Pairwise fun r s => ¬ Lex (k s) (k r)

variable {k : Nat → List Nat}

theorem marksFrom_length : ∀ (l : List Nat) (p : Nat), (marksFrom k p l).length = l.length
  | [], _ => rfl
  | r :: l, _ => congrArg (· + 1) (marksFrom_length l r)

theorem marks_length : ∀ l : List Nat, (marks k l).length = l.length
  | [] => rfl
  | r :: l => congrArg (· + 1) (marksFrom_length l r)

/-- The keys at the boundary differ. -/
def Apart (k : Nat → List Nat) (x y : List Nat) : Prop := ∀ p q, x.getLast? = some p → y.head? = some q → k p ≠ k q

theorem marksFrom_append {y : List Nat} : ∀ (x : List Nat) (p : Nat), Apart k (p :: x) y → marksFrom k p (x ++ y) = marksFrom k p x ++ marks k y
  | [], p, h => by
    cases y with
    | nil => rfl
    | cons q y =>
      show (if k p = k q then inv q else (q : Int)) :: marksFrom k q y = (q : Int) :: marksFrom k q y
      rw [if_neg (h p q rfl rfl)]
  | r :: x, p, h => by
    show _ :: marksFrom k r (x ++ y) = _ :: (marksFrom k r x ++ marks k y)
    rw [marksFrom_append x r (fun a b h1 h2 => h a b (by rw [List.getLast?_cons_cons]; exact h1) h2)]

theorem marks_append {x y : List Nat} (h : Apart k x y) : marks k (x ++ y) = marks k x ++ marks k y := by
  cases x with
  | nil => rfl
  | cons r x =>
    show (r : Int) :: marksFrom k r (x ++ y) = (r : Int) :: marksFrom k r x ++ marks k y
    rw [marksFrom_append x r h]
    rfl

theorem Apart.of_lt {x y : List Nat} (h : ∀ p, p ∈ x → ∀ q, q ∈ y → Lex (k p) (k q)) : Apart k x y := by
  intro p q hp hq e
  have h' := h p (List.mem_of_getLast? hp) q (List.mem_of_mem_head? hq)
  rw [e] at h'
  exact Lex.irrefl _ h'

/-- A group of equal keys: the first is not complemented, the others are. -/
theorem marksFrom_group : ∀ (l : List Nat) (p : Nat), ∃ gs rest, l = gs ++ rest ∧ (∀ x, x ∈ gs → k x = k p) ∧ (∀ q, rest.head? = some q → k p ≠ k q) ∧
    marksFrom k p l = gs.map (fun r : Nat => inv r) ++ marks k rest
  | [], p => ⟨[], [], rfl, fun _ h => (by cases h), fun _ h => (by cases h), rfl⟩
  | r :: l, p => by
    by_cases he : k p = k r
    · obtain ⟨gs, rest, h1, h2, h3, h4⟩ := marksFrom_group l r
      refine ⟨r :: gs, rest, by rw [h1]; rfl, fun x hx => ?_, fun q hq => by rw [he]; exact h3 q hq, ?_⟩
      · rcases List.mem_cons.1 hx with rfl | hx
        · exact he.symm
        · rw [h2 x hx, he]
      · show (if k p = k r then inv r else (r : Int)) :: marksFrom k r l = _
        rw [if_pos he, h4]
        rfl
    · refine ⟨[], r :: l, rfl, fun _ h => (by cases h), fun q hq => ?_, ?_⟩
      · injection hq with hq
        subst hq
        exact he
      · show (if k p = k r then inv r else (r : Int)) :: marksFrom k r l = _
        rw [if_neg he]
        rfl

theorem Srt.append {x y : List Nat} : Srt k (x ++ y) ↔ Srt k x ∧ Srt k y ∧ ∀ p, p ∈ x → ∀ q, q ∈ y → ¬ Lex (k q) (k p) :=
  List.pairwise_append

theorem Srt.cons {r : Nat} {y : List Nat} : Srt k (r :: y) ↔ (∀ q, q ∈ y → ¬ Lex (k q) (k r)) ∧ Srt k y := List.pairwise_cons

theorem not_lex_trans' {a b c : List Nat} (h1 : ¬ Lex b a) (h2 : ¬ Lex c b) : ¬ Lex c a := by
  intro h
  rcases Lex.tri a b with g | g | g
  · exact h2 (h.trans g)
  · subst g
    exact h2 h
  · exact h1 g

theorem lex_of_lt_le {a b c : List Nat} (h1 : Lex a b) (h2 : ¬ Lex c b) : Lex a c := by
  rcases Lex.tri b c with g | g | g
  · exact h1.trans g
  · rw [← g]; exact h1
  · exact absurd g h2

theorem lex_of_le_lt {a b c : List Nat} (h1 : ¬ Lex b a) (h2 : Lex b c) : Lex a c := by
  rcases Lex.tri a b with g | g | g
  · exact g.trans h2
  · rw [g]; exact h2
  · exact absurd g h1

theorem lex_of_ne {a b : List Nat} (h1 : ¬ Lex b a) (h2 : a ≠ b) : Lex a b := by
  rcases Lex.tri a b with g | g | g
  · exact g
  · exact absurd g h2
  · exact absurd g h1

/-- Parts of which each has less keys than the next. -/
theorem Srt.parts {x y : List Nat} (hx : Srt k x) (hy : Srt k y) (h : ∀ p, p ∈ x → ∀ q, q ∈ y → Lex (k p) (k q)) : Srt k (x ++ y) :=
  Srt.append.2 ⟨hx, hy, fun p hp q hq => (h p hp q hq).asymm⟩

/-- `l` is sorted and marked in `out`. -/
def Sorted (k : Nat → List Nat) (l : List Nat) (out : List Int) : Prop := ∃ l', l'.Perm l ∧ Srt k l' ∧ out = marks k l'

theorem Sorted.append {x y : List Nat} {o1 o2 : List Int} (h1 : Sorted k x o1) (h2 : Sorted k y o2) (h : ∀ p, p ∈ x → ∀ q, q ∈ y → Lex (k p) (k q)) :
    Sorted k (x ++ y) (o1 ++ o2) := by
  obtain ⟨x', p1, s1, rfl⟩ := h1
  obtain ⟨y', p2, s2, rfl⟩ := h2
  have h' : ∀ p, p ∈ x' → ∀ q, q ∈ y' → Lex (k p) (k q) := fun p hp q hq => h p (p1.subset hp) q (p2.subset hq)
  exact ⟨x' ++ y', p1.append p2, s1.parts s2 h', (marks_append (Apart.of_lt h')).symm⟩

theorem Sorted.perm {x y : List Nat} {o : List Int} (h1 : Sorted k x o) (h : x.Perm y) : Sorted k y o := by
  obtain ⟨x', p1, s1, rfl⟩ := h1
  exact ⟨x', p1.trans h, s1, rfl⟩

theorem Sorted.length {x : List Nat} {o : List Int} (h : Sorted k x o) : o.length = x.length := by
  obtain ⟨x', p1, _, rfl⟩ := h
  rw [marks_length, p1.length_eq]

theorem Sorted.nil : Sorted k [] [] := ⟨[], .refl _, List.Pairwise.nil, rfl⟩

theorem Sorted.one (r : Nat) : Sorted k [r] [(r : Int)] := ⟨[r], .refl _, List.pairwise_singleton _ _, rfl⟩

theorem marks_group {r : Nat} {x : List Nat} (h : ∀ q, q ∈ x → k q = k r) : marks k (r :: x) = (r : Int) :: x.map fun s : Nat => inv s := by
  show (r : Int) :: marksFrom k r x = _
  congr 1
  induction x generalizing r with
  | nil => rfl
  | cons s x ih =>
    have hs := h s (List.mem_cons_self ..)
    show (if k r = k s then inv s else (s : Int)) :: marksFrom k s x = inv s :: _
    rw [if_pos hs.symm, ih (r := s) (fun q hq => by rw [h q (List.mem_cons_of_mem _ hq), hs])]

/-- A group of equal keys. -/
theorem Sorted.group {r : Nat} {x : List Nat} (h : ∀ q, q ∈ x → k q = k r) : Sorted k (r :: x) ((r : Int) :: x.map fun s : Nat => inv s) := by
  refine ⟨r :: x, .refl _, ?_, (marks_group h).symm⟩
  have : ∀ p, p ∈ r :: x → k p = k r := fun p hp => by
    rcases List.mem_cons.1 hp with rfl | hp
    · rfl
    · exact h p hp
  refine List.Pairwise.imp_of_mem ?_ (List.pairwise_of_forall (R := fun _ _ => True) (fun _ _ => trivial))
  intro a b ha hb _
  rw [this a ha, this b hb]
  exact Lex.irrefl _

end

end Dss
end Detools
