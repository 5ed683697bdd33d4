import Verif.Proofs.SsSplit
import Verif.Model.Trsort
/-
trsort: the partition around a rank. These are the proofs of Proofs/SsSplit, with ranks for characters.
-/
namespace Detools
namespace Dss

namespace Tr
open Sais

section
variable {e : List Nat} {m : Nat}

/-- The ranks. -/
structure TPos (e : List Nat) (m : Nat) : Prop where
  len : e.length = m

theorem TPos.keyAt (X : TPos e m) {a : List Int} {i d r : Nat} (h : a[i]? = some (r : Int)) (hr : r + d < m) :
    keyAt e d a i = .ok (ch e (r + d)) := by
  unfold Tr.keyAt
  rw [getNo_ok h]
  simp only [Bind.bind, Except.bind]
  exact rd_ch (by rw [X.len]; exact hr)

/-- The rank at depth `d`. -/
def kc (e : List Nat) (d r : Nat) : Nat := ch e (r + d)

/-- Numbers whose rank at depth `d` can be read. -/
def Rd (m d : Nat) (xs : List Nat) : Prop := ∀ r, r ∈ xs → r + d < m

theorem keyAt_mid (X : TPos e m) {A B : List Int} {r i d : Nat} (hr : r + d < m) (hi : i = A.length) :
    keyAt e d (A ++ (r : Int) :: B) i = .ok (kc e d r) :=
  X.keyAt (by rw [hi, List.getElem?_append_right (Nat.le_refl _), Nat.sub_self]; rfl) hr

theorem Rd.left {d : Nat} {xs ys : List Nat} (h : Rd m d (xs ++ ys)) : Rd m d xs := fun r hr => h r (List.mem_append_left _ hr)

theorem Rd.right {d : Nat} {xs ys : List Nat} (h : Rd m d (xs ++ ys)) : Rd m d ys := fun r hr => h r (List.mem_append_right _ hr)

theorem Rd.tail {d r : Nat} {xs : List Nat} (h : Rd m d (r :: xs)) : Rd m d xs := fun r hr => h r (List.mem_cons_of_mem _ hr)

theorem Rd.perm {d : Nat} {xs ys : List Nat} (h : Rd m d xs) (hp : ys.Perm xs) : Rd m d ys := fun r hr => h r (hp.subset hr)

/-- All characters are `v`. -/
def AllEq (e : List Nat) (d v : Nat) (xs : List Nat) : Prop := ∀ r, r ∈ xs → kc e d r = v
def AllLt (e : List Nat) (d v : Nat) (xs : List Nat) : Prop := ∀ r, r ∈ xs → kc e d r < v
def AllGt (e : List Nat) (d v : Nat) (xs : List Nat) : Prop := ∀ r, r ∈ xs → v < kc e d r

theorem eqUp_ok (X : TPos e m) {d v : Nat} : ∀ (xs : List Nat) (A B : List Int) (i : Nat), Rd m d xs → i = A.length →
    ∃ p q, xs = p ++ q ∧ AllEq e d v p ∧ (∀ r, q.head? = some r → kc e d r ≠ v) ∧ eqUp e d v (A ++ (xs.map Int.ofNat ++ B)) xs.length i = .ok (i + p.length)
  | [], A, B, i, _, _ => ⟨[], [], rfl, fun _ h => (by cases h), fun _ h => (by cases h), rfl⟩
  | r :: xs, A, B, i, hm, hi => by
    have hstep : keyAt e d (A ++ ((r :: xs).map Int.ofNat ++ B)) i = .ok (kc e d r) := keyAt_mid X (hm r (List.mem_cons_self ..)) hi
    by_cases h : kc e d r = v
    · obtain ⟨p, q, h1, h2, h3, h4⟩ := eqUp_ok X (v := v) xs (A ++ [(r : Int)]) B (i + 1) hm.tail (by simp [hi])
      refine ⟨r :: p, q, by rw [h1]; rfl, all_cons h2 h, h3, ?_⟩
      show eqUp e d v _ (xs.length + 1) i = _
      unfold eqUp
      rw [hstep]
      simp only [Bind.bind, Except.bind]
      rw [if_pos h]
      have e1 : A ++ ((r :: xs).map Int.ofNat ++ B) = (A ++ [(r : Int)]) ++ (xs.map Int.ofNat ++ B) := by simp
      rw [e1, h4]
      simp
      omega
    · refine ⟨[], r :: xs, rfl, fun _ h => (by cases h), fun s hs => ?_, ?_⟩
      · injection hs with hs
        subst hs
        exact h
      · show eqUp e d v _ (xs.length + 1) i = _
        unfold eqUp
        rw [hstep]
        simp only [Bind.bind, Except.bind]
        rw [if_neg h]
        rfl

theorem leUp_ok (X : TPos e m) {d v : Nat} : ∀ (R E L : List Nat) (A B : List Int) (p i : Nat), Rd m d R → AllEq e d v E → AllLt e d v L →
    p = A.length + E.length → i = p + L.length →
    ∃ E' L' R' : List Nat, (E' ++ (L' ++ R')).Perm (E ++ (L ++ R)) ∧ AllEq e d v E' ∧ AllLt e d v L' ∧ (∀ r, R'.head? = some r → v < kc e d r) ∧
      (∀ r, r ∈ R' → r ∈ R) ∧ R'.length ≤ R.length ∧ (E ≠ [] → E' ≠ []) ∧ (L ≠ [] → L' ≠ []) ∧
      leUp e d v R.length p i (A ++ (E.map Int.ofNat ++ (L.map Int.ofNat ++ (R.map Int.ofNat ++ B)))) =
        .ok (A.length + E'.length, A.length + E'.length + L'.length, A ++ (E'.map Int.ofNat ++ (L'.map Int.ofNat ++ (R'.map Int.ofNat ++ B))))
  | [], E, L, A, B, p, i, _, hE, hL, hp, hi => ⟨E, L, [], .refl _, hE, hL, fun _ h => (by cases h), fun _ h => h, Nat.le_refl _, id, id, by rw [hi, hp]; rfl⟩
  | r :: R, E, L, A, B, p, i, hm, hE, hL, hp, hi => by
    have e0 : A ++ (E.map Int.ofNat ++ (L.map Int.ofNat ++ ((r :: R).map Int.ofNat ++ B))) = (A ++ (E.map Int.ofNat ++ L.map Int.ofNat)) ++ (r : Int) :: (R.map Int.ofNat ++ B) := by simp
    have hlen : (A ++ (E.map Int.ofNat ++ L.map Int.ofNat)).length = i := by simp; omega
    show ∃ E' L' R' : List Nat, _ ∧ _ ∧ _ ∧ _ ∧ _ ∧ _ ∧ _ ∧ _ ∧ leUp e d v (R.length + 1) p i _ = _
    unfold leUp
    rw [e0, keyAt_mid X (hm r (List.mem_cons_self ..)) hlen.symm]
    simp only [Bind.bind, Except.bind]
    by_cases h1 : kc e d r ≤ v
    · rw [if_pos h1]
      by_cases h2 : kc e d r = v
      · rw [if_pos h2]
        cases L with
        | nil =>
          rw [show p = i by rw [hi]; rfl, swapAt_self hlen.symm]
          simp only []
          obtain ⟨E', L', R', g1, g2, g3, g4, g5, gr, g6, g7, g8⟩ := leUp_ok X (v := v) R (E ++ [r]) [] A B (i + 1) (i + 1) hm.tail (all_snoc hE h2) (fun _ h => (by cases h)) (by simp; simp at hi; omega) (by simp)
          have e1 : (A ++ (E.map Int.ofNat ++ ([] : List Nat).map Int.ofNat)) ++ (r : Int) :: (R.map Int.ofNat ++ B) =
              A ++ ((E ++ [r]).map Int.ofNat ++ (([] : List Nat).map Int.ofNat ++ (R.map Int.ofNat ++ B))) := by simp
          rw [e1, g8]
          exact ⟨E', L', R', g1.trans (by simp), g2, g3, g4, fun r hr => List.mem_cons_of_mem _ (g5 r hr), by rw [List.length_cons]; omega, fun _ => g6 (by simp), fun k => absurd rfl k, rfl⟩
        | cons y L =>
          have e1 : (A ++ (E.map Int.ofNat ++ (y :: L).map Int.ofNat)) ++ (r : Int) :: (R.map Int.ofNat ++ B) =
              (A ++ E.map Int.ofNat) ++ (y : Int) :: (L.map Int.ofNat ++ (r : Int) :: (R.map Int.ofNat ++ B)) := by simp
          rw [e1, swapAt_mid' (by simp; omega) (by simp; simp at hi; omega)]
          simp only []
          obtain ⟨E', L', R', g1, g2, g3, g4, g5, gr, g6, g7, g8⟩ := leUp_ok X (v := v) R (E ++ [r]) (L ++ [y]) A B (p + 1) (i + 1) hm.tail (all_snoc hE h2)
            (all_snoc (fun s hs => hL s (List.mem_cons_of_mem _ hs)) (hL y (List.mem_cons_self ..))) (by simp; omega) (by simp; simp at hi; omega)
          have e2 : (A ++ E.map Int.ofNat) ++ (r : Int) :: (L.map Int.ofNat ++ (y : Int) :: (R.map Int.ofNat ++ B)) =
              A ++ ((E ++ [r]).map Int.ofNat ++ ((L ++ [y]).map Int.ofNat ++ (R.map Int.ofNat ++ B))) := by simp
          rw [e2, g8]
          refine ⟨E', L', R', g1.trans ?_, g2, g3, g4, fun r hr => List.mem_cons_of_mem _ (g5 r hr), by rw [List.length_cons]; omega, fun _ => g6 (by simp), fun _ => g7 (by simp), rfl⟩
          rw [show E ++ [r] ++ (L ++ [y] ++ R) = E ++ (r :: (L ++ y :: R)) by simp]
          refine List.Perm.append_left E ?_
          refine (List.perm_middle.cons r).trans ((List.Perm.swap y r _).trans ?_)
          exact (List.perm_middle.symm).cons y
      · rw [if_neg h2]
        obtain ⟨E', L', R', g1, g2, g3, g4, g5, gr, g6, g7, g8⟩ := leUp_ok X (v := v) R E (L ++ [r]) A B p (i + 1) hm.tail hE (all_snoc hL (by omega)) hp (by simp; omega)
        have e2 : (A ++ (E.map Int.ofNat ++ L.map Int.ofNat)) ++ (r : Int) :: (R.map Int.ofNat ++ B) =
              A ++ (E.map Int.ofNat ++ ((L ++ [r]).map Int.ofNat ++ (R.map Int.ofNat ++ B))) := by simp
        rw [e2, g8]
        exact ⟨E', L', R', g1.trans (by simp), g2, g3, g4, fun r hr => List.mem_cons_of_mem _ (g5 r hr), by rw [List.length_cons]; omega, g6, fun _ => g7 (by simp), rfl⟩
    · rw [if_neg h1]
      refine ⟨E, L, r :: R, .refl _, hE, hL, fun s hs => ?_, fun _ h => h, Nat.le_refl _, id, id, ?_⟩
      · injection hs with hs
        subst hs
        omega
      · rw [hi, hp]
        simp

theorem eqDown_ok (X : TPos e m) {d v : Nat} {A : List Int} (hA : 0 < A.length) : ∀ (n : Nat) (xs : List Nat) (B : List Int) (i : Nat), xs.length = n → Rd m d xs → i + 1 = A.length + xs.length →
    ∃ p q, xs = p ++ q ∧ AllEq e d v q ∧ (∀ r, p.getLast? = some r → kc e d r ≠ v) ∧
      eqDown e d v (A ++ (xs.map Int.ofNat ++ B)) xs.length i = .ok (i - q.length)
  | 0, xs, B, i, hn, _, hi => by
    have : xs = [] := List.length_eq_zero_iff.1 hn
    subst this
    exact ⟨[], [], rfl, fun _ h => (by cases h), fun _ h => (by cases h), rfl⟩
  | n + 1, xs, B, i, hn, hm, hi => by
    obtain ⟨ys, w, rfl⟩ : ∃ ys v, xs = ys ++ [v] := ⟨xs.dropLast, xs.getLast (by intro h; rw [h] at hn; cases hn), (List.dropLast_concat_getLast _).symm⟩
    have hn' : ys.length = n := by simpa using hn
    have hlen : (ys ++ [w]).length = n + 1 := hn
    rw [hlen] at hi ⊢
    have e1 : A ++ ((ys ++ [w]).map Int.ofNat ++ B) = (A ++ ys.map Int.ofNat) ++ (w : Int) :: B := by simp
    have hstep : keyAt e d (A ++ ((ys ++ [w]).map Int.ofNat ++ B)) i = .ok (kc e d w) := by
      rw [e1]
      exact keyAt_mid X (hm w (by simp)) (by simp; omega)
    by_cases h : kc e d w = v
    · obtain ⟨p, q, h1, h2, h3, h4⟩ := eqDown_ok X (v := v) (A := A) hA n ys ((w : Int) :: B) (i - 1) hn' hm.left (by omega)
      refine ⟨p, q ++ [w], by rw [h1]; simp, all_snoc h2 h, h3, ?_⟩
      unfold eqDown
      rw [hstep]
      simp only [Bind.bind, Except.bind]
      rw [if_pos h, e1, List.append_assoc, ← hn', h4]
      congr 1
      simp
      omega
    · refine ⟨ys ++ [w], [], by simp, fun _ h => (by cases h), fun s hs => ?_, ?_⟩
      · simp at hs
        subst hs
        exact h
      · unfold eqDown
        rw [hstep]
        simp only [Bind.bind, Except.bind]
        rw [if_neg h]
        rfl

/-- From the right: `A` ends with the element at `b`, which is greater than `v`. -/
theorem geDown_ok (X : TPos e m) {d v : Nat} {A : List Int} (hA : 0 < A.length) : ∀ (n : Nat) (R G E : List Nat) (B : List Int) (q i : Nat), R.length = n → Rd m d R → AllEq e d v E → AllGt e d v G →
    i + 1 = A.length + R.length → q = i + G.length →
    ∃ E' G' R' : List Nat, (R' ++ (G' ++ E')).Perm (R ++ (G ++ E)) ∧ AllEq e d v E' ∧ AllGt e d v G' ∧ (∀ r, R'.getLast? = some r → kc e d r < v) ∧
      (∀ r, r ∈ R' → r ∈ R) ∧ R'.length ≤ R.length ∧
      geDown e d v R.length q i (A ++ (R.map Int.ofNat ++ (G.map Int.ofNat ++ (E.map Int.ofNat ++ B)))) =
        .ok (A.length - 1 + R'.length + G'.length, A.length - 1 + R'.length, A ++ (R'.map Int.ofNat ++ (G'.map Int.ofNat ++ (E'.map Int.ofNat ++ B))))
  | 0, R, G, E, B, q, i, hn, _, hE, hG, hi, hq => by
    have : R = [] := List.length_eq_zero_iff.1 hn
    subst this
    refine ⟨E, G, [], .refl _, hE, hG, fun _ h => (by cases h), fun _ h => h, Nat.le_refl _, ?_⟩
    show Except.ok _ = Except.ok _
    rw [hq]
    simp at hi
    rw [← hi]
    rfl
  | n + 1, R, G, E, B, q, i, hn, hm, hE, hG, hi, hq => by
    obtain ⟨R, w, rfl⟩ : ∃ ys v, R = ys ++ [v] := ⟨R.dropLast, R.getLast (by intro h; rw [h] at hn; cases hn), (List.dropLast_concat_getLast _).symm⟩
    have hn' : R.length = n := by simpa using hn
    have hlen : (R ++ [w]).length = n + 1 := hn
    rw [hlen] at hi ⊢
    have e0 : A ++ ((R ++ [w]).map Int.ofNat ++ (G.map Int.ofNat ++ (E.map Int.ofNat ++ B))) =
        (A ++ R.map Int.ofNat) ++ (w : Int) :: (G.map Int.ofNat ++ (E.map Int.ofNat ++ B)) := by simp
    have hl1 : (A ++ R.map Int.ofNat).length = i := by simp; omega
    unfold geDown
    rw [e0, keyAt_mid X (hm w (by simp)) hl1.symm]
    simp only [Bind.bind, Except.bind]
    by_cases h1 : v ≤ kc e d w
    · rw [if_pos h1]
      by_cases h2 : kc e d w = v
      · rw [if_pos h2]
        rcases List.eq_nil_or_concat G with rfl | ⟨G, y, rfl⟩
        · rw [show q = i by rw [hq]; rfl, swapAt_self hl1.symm]
          simp only []
          obtain ⟨E', G', R', g1, g2, g3, g4, g5, g6, g8⟩ := geDown_ok X (v := v) hA n R [] (w :: E) B (i - 1) (i - 1) hn' hm.left (all_cons hE h2) (fun _ h => (by cases h)) (by omega) (by simp)
          have e1 : (A ++ R.map Int.ofNat) ++ (w : Int) :: (([] : List Nat).map Int.ofNat ++ (E.map Int.ofNat ++ B)) =
              A ++ (R.map Int.ofNat ++ (([] : List Nat).map Int.ofNat ++ ((w :: E).map Int.ofNat ++ B))) := by simp
          rw [e1, ← hn', g8]
          exact ⟨E', G', R', g1.trans (by simp), g2, g3, g4, fun r hr => List.mem_append_left _ (g5 r hr), by omega, rfl⟩
        · have e1 : (A ++ R.map Int.ofNat) ++ (w : Int) :: ((G ++ [y]).map Int.ofNat ++ (E.map Int.ofNat ++ B)) =
              (A ++ R.map Int.ofNat) ++ (w : Int) :: (G.map Int.ofNat ++ (y : Int) :: (E.map Int.ofNat ++ B)) := by simp
          rw [List.concat_eq_append] at *
          rw [e1, swapAt_mid hl1.symm (by rw [hl1, hq]; simp; omega)]
          simp only []
          obtain ⟨E', G', R', g1, g2, g3, g4, g5, g6, g8⟩ := geDown_ok X (v := v) hA n R (y :: G) (w :: E) B (q - 1) (i - 1) hn' hm.left (all_cons hE h2)
            (all_cons (fun s hs => hG s (List.mem_append_left _ hs)) (hG y (by simp))) (by omega) (by rw [hq]; simp; omega)
          have e2 : (A ++ R.map Int.ofNat) ++ (y : Int) :: (G.map Int.ofNat ++ (w : Int) :: (E.map Int.ofNat ++ B)) =
              A ++ (R.map Int.ofNat ++ ((y :: G).map Int.ofNat ++ ((w :: E).map Int.ofNat ++ B))) := by simp
          rw [e2, ← hn', g8]
          refine ⟨E', G', R', g1.trans ?_, g2, g3, g4, fun r hr => List.mem_append_left _ (g5 r hr), by omega, rfl⟩
          rw [show R ++ [w] ++ (G ++ [y] ++ E) = R ++ (w :: (G ++ y :: E)) by simp]
          refine List.Perm.append_left R ?_
          show (y :: (G ++ w :: E)).Perm _
          refine (List.perm_middle.cons y).trans ((List.Perm.swap w y _).trans ?_)
          exact (List.perm_middle.symm).cons w
      · rw [if_neg h2]
        obtain ⟨E', G', R', g1, g2, g3, g4, g5, g6, g8⟩ := geDown_ok X (v := v) hA n R (w :: G) E B q (i - 1) hn' hm.left hE (all_cons hG (by omega)) (by omega) (by rw [hq]; simp; omega)
        have e2 : (A ++ R.map Int.ofNat) ++ (w : Int) :: (G.map Int.ofNat ++ (E.map Int.ofNat ++ B)) =
              A ++ (R.map Int.ofNat ++ ((w :: G).map Int.ofNat ++ (E.map Int.ofNat ++ B))) := by simp
        rw [e2, ← hn', g8]
        exact ⟨E', G', R', g1.trans (by simp), g2, g3, g4, fun r hr => List.mem_append_left _ (g5 r hr), by omega, rfl⟩
    · rw [if_neg h1]
      refine ⟨E, G, R ++ [w], .refl _, hE, hG, fun s hs => ?_, fun _ h => h, Nat.le_of_eq hlen, ?_⟩
      · simp at hs
        subst hs
        omega
      · rw [hq, ← e0, hlen]
        congr 2
        · omega
        · congr 1
          omega

/-- The segment while it is split: equal, less, `h`, which is greater, not yet seen, greater,
equal. -/
structure Splitting (e : List Nat) (m d v : Nat) (E L : List Nat) (h : Nat) (M G E2 : List Nat) : Prop where
  eq1 : AllEq e d v E
  lt : AllLt e d v L
  first : v < kc e d h
  gt : AllGt e d v G
  eq2 : AllEq e d v E2
  todo : Rd m d M
  stop : ∀ r, M.getLast? = some r → kc e d r < v

theorem splitLoop_ok (X : TPos e m) {d v : Nat} {A B : List Int} : ∀ (n : Nat) (E L : List Nat) (h : Nat) (M G E2 : List Nat) (c fuel : Nat), M.length = n → Splitting e m d v E L h M G E2 →
    M.length ≤ fuel → (M = [] → c ≤ A.length + E.length + L.length) → (M ≠ [] → c = A.length + E.length + L.length + M.length) →
    ∃ E' L' G' E2' c', (E' ++ (L' ++ (G' ++ E2'))).Perm (E ++ (L ++ (h :: (M ++ (G ++ E2))))) ∧ AllEq e d v E' ∧ AllLt e d v L' ∧ AllGt e d v G' ∧ AllEq e d v E2' ∧
      (E ≠ [] → E' ≠ []) ∧ G' ≠ [] ∧
      splitLoop e d v fuel ⟨A.length + E.length, A.length + E.length + L.length, c, A.length + E.length + L.length + M.length + G.length,
        A ++ (E.map Int.ofNat ++ (L.map Int.ofNat ++ ((h : Int) :: (M.map Int.ofNat ++ (G.map Int.ofNat ++ (E2.map Int.ofNat ++ B))))))⟩ =
      .ok ⟨A.length + E'.length, A.length + E'.length + L'.length, c', A.length + E'.length + L'.length + G'.length - 1,
        A ++ (E'.map Int.ofNat ++ (L'.map Int.ofNat ++ (G'.map Int.ofNat ++ (E2'.map Int.ofNat ++ B))))⟩ := by
  intro n
  induction n using Nat.strongRecOn with
  | ind n ih =>
  intro E L h M G E2 c fuel hn S hf hc0 hc1
  cases hM : M with
  | nil =>
    subst hM
    refine ⟨E, L, h :: G, E2, c, .refl _, S.eq1, S.lt, all_cons S.gt S.first, S.eq2, id, by simp, ?_⟩
    have hcc := hc0 rfl
    have : ∀ s : Split, ¬ s.b < s.c → splitLoop e d v fuel s = .ok s := by
      intro s hs
      cases fuel with
      | zero => unfold splitLoop; rw [if_neg hs]
      | succ f => unfold splitLoop; rw [if_neg hs]
    rw [this _ (by simpa using hcc)]
    simp
  | cons w0 M0 =>
    have hne : M ≠ [] := by rw [hM]; simp
    have hcc := hc1 hne
    rw [← hM]
    clear hM w0 M0
    obtain ⟨M, y, rfl⟩ : ∃ ys v, M = ys ++ [v] := ⟨M.dropLast, M.getLast hne, (List.dropLast_concat_getLast _).symm⟩
    have hy : kc e d y < v := S.stop y (by simp)
    have hlen : (M ++ [y]).length = M.length + 1 := by simp
    cases fuel with
    | zero => rw [hlen] at hf; omega
    | succ fuel =>
      unfold splitLoop
      rw [if_pos (by simp only [hcc, hlen]; omega)]
      simp only []
      have e1 : A ++ (E.map Int.ofNat ++ (L.map Int.ofNat ++ ((h : Int) :: ((M ++ [y]).map Int.ofNat ++ (G.map Int.ofNat ++ (E2.map Int.ofNat ++ B)))))) =
          (A ++ (E.map Int.ofNat ++ L.map Int.ofNat)) ++ (h : Int) :: (M.map Int.ofNat ++ (y : Int) :: (G.map Int.ofNat ++ (E2.map Int.ofNat ++ B))) := by simp
      rw [e1, swapAt_mid (by simp; omega) (by simp [hcc]; omega)]
      simp only [Bind.bind, Except.bind]
      have e2 : (A ++ (E.map Int.ofNat ++ L.map Int.ofNat)) ++ (y : Int) :: (M.map Int.ofNat ++ (h : Int) :: (G.map Int.ofNat ++ (E2.map Int.ofNat ++ B))) =
          A ++ (E.map Int.ofNat ++ ((L ++ [y]).map Int.ofNat ++ (M.map Int.ofNat ++ ((h :: G).map Int.ofNat ++ (E2.map Int.ofNat ++ B))))) := by simp
      obtain ⟨E', L', R, g1, g2, g3, g4, g5, gr, g6, g7, g8⟩ := leUp_ok X (v := v) M E (L ++ [y]) A ((h :: G).map Int.ofNat ++ (E2.map Int.ofNat ++ B)) (A.length + E.length) (A.length + E.length + L.length + 1)
        S.todo.left S.eq1 (all_snoc S.lt hy) rfl (by simp; omega)
      have hML : c - (A.length + E.length + L.length + 1) = M.length := by rw [hcc, hlen]; omega
      rw [hML, e2, g8]
      simp only []
      have gl := g1.length_eq
      simp only [List.length_append, List.length_cons, List.length_nil] at gl
      cases R with
      | nil =>
        rw [show c - 1 - (A.length + E'.length + L'.length) = 0 by rw [hcc, hlen]; simp at gl; omega]
        have e3 : geDown e d v 0 (A.length + E.length + L.length + (M ++ [y]).length + G.length) (c - 1) (A ++ (E'.map Int.ofNat ++ (L'.map Int.ofNat ++ (([] : List Nat).map Int.ofNat ++ ((h :: G).map Int.ofNat ++ (E2.map Int.ofNat ++ B)))))) =
          .ok (A.length + E'.length + L'.length + ([] : List Nat).length + G.length, c - 1, A ++ (E'.map Int.ofNat ++ (L'.map Int.ofNat ++ ((h : Int) :: (([] : List Nat).map Int.ofNat ++ (G.map Int.ofNat ++ (E2.map Int.ofNat ++ B))))))) := by
          show Except.ok _ = _
          congr 2
          simp at gl ⊢
          omega
        rw [e3]
        simp only []
        obtain ⟨E'', L'', G'', E2'', c', k1, k2, k3, k4, k5, k6, k7, k8⟩ := ih 0 (by omega) E' L' h [] G E2 (c - 1) fuel rfl ⟨g2, g3, S.first, S.gt, S.eq2, fun _ h => (by cases h), fun _ h => (by cases h)⟩ (by simp)
          (fun _ => by simp at gl; omega) (fun k => absurd rfl k)
        refine ⟨E'', L'', G'', E2'', c', k1.trans ?_, k2, k3, k4, k5, fun k => k6 (g6 k), k7, k8⟩
        have : (E' ++ (L' ++ (h :: ([] ++ (G ++ E2))))).Perm ((E' ++ (L' ++ [])) ++ (h :: (G ++ E2))) := by simp
        refine this.trans ((g1.append_right _).trans ?_)
        have p1 : (E ++ (L ++ [y] ++ M) ++ h :: (G ++ E2)) = E ++ (L ++ (y :: (M ++ h :: (G ++ E2)))) := by simp
        have p2 : (E ++ (L ++ h :: (M ++ [y] ++ (G ++ E2)))) = E ++ (L ++ (h :: (M ++ y :: (G ++ E2)))) := by simp
        rw [p1, p2]
        refine List.Perm.append_left _ (List.Perm.append_left _ ?_)
        exact (List.perm_middle.cons y).trans ((List.Perm.swap h y _).trans (List.perm_middle.symm.cons h))
      | cons h' R =>
        have hR : Rd m d R := fun r hr => S.todo r (List.mem_append_left _ (g5 r (List.mem_cons_of_mem _ hr)))
        have hh' : v < kc e d h' := g4 h' rfl
        have e3 : A ++ (E'.map Int.ofNat ++ (L'.map Int.ofNat ++ ((h' :: R).map Int.ofNat ++ ((h :: G).map Int.ofNat ++ (E2.map Int.ofNat ++ B))))) =
            (A ++ (E'.map Int.ofNat ++ (L'.map Int.ofNat ++ [(h' : Int)]))) ++ (R.map Int.ofNat ++ ((h :: G).map Int.ofNat ++ (E2.map Int.ofNat ++ B))) := by simp
        have hl3 : (A ++ (E'.map Int.ofNat ++ (L'.map Int.ofNat ++ [(h' : Int)]))).length = A.length + E'.length + L'.length + 1 := by simp; omega
        obtain ⟨E2', G', M', j1, j2, j3, j4, j5, jm, j6⟩ := geDown_ok X (v := v) (A := A ++ (E'.map Int.ofNat ++ (L'.map Int.ofNat ++ [(h' : Int)]))) (by rw [hl3]; omega) R.length R (h :: G) E2 B
          (A.length + E.length + L.length + (M ++ [y]).length + G.length) (c - 1) rfl hR S.eq2 (all_cons S.gt S.first) (by rw [hl3, hcc, hlen]; simp at gl; omega) (by rw [hcc, hlen]; simp; omega)
        rw [show c - 1 - (A.length + E'.length + L'.length) = R.length by rw [hcc, hlen]; simp at gl; omega, e3, j6]
        simp only []
        rw [hl3, Nat.add_sub_cancel]
        have e4 : (A ++ (E'.map Int.ofNat ++ (L'.map Int.ofNat ++ [(h' : Int)]))) ++ (M'.map Int.ofNat ++ (G'.map Int.ofNat ++ (E2'.map Int.ofNat ++ B))) =
            A ++ (E'.map Int.ofNat ++ (L'.map Int.ofNat ++ ((h' : Int) :: (M'.map Int.ofNat ++ (G'.map Int.ofNat ++ (E2'.map Int.ofNat ++ B)))))) := by simp
        rw [e4]
        obtain ⟨E'', L'', G'', E2'', c', k1, k2, k3, k4, k5, k6, k7, k8⟩ := ih M'.length (by rw [← hn, hlen]; simp at gr; omega) E' L' h' M' G' E2' (A.length + E'.length + L'.length + M'.length) fuel rfl
          ⟨g2, g3, hh', j3, j2, fun r hr => hR r (j5 r hr), j4⟩ (by rw [hlen] at hf; simp at gr; omega) (fun k => by rw [k]; simp) (fun _ => rfl)
        refine ⟨E'', L'', G'', E2'', c', k1.trans ?_, k2, k3, k4, k5, fun k => k6 (g6 k), k7, k8⟩
        have q1 : (E' ++ (L' ++ h' :: (M' ++ (G' ++ E2')))).Perm (E' ++ (L' ++ (h' :: (R ++ (h :: G ++ E2))))) :=
          List.Perm.append_left _ (List.Perm.append_left _ (j1.cons h'))
        refine q1.trans ?_
        have : E' ++ (L' ++ (h' :: (R ++ (h :: G ++ E2)))) = (E' ++ (L' ++ h' :: R)) ++ (h :: (G ++ E2)) := by simp
        rw [this]
        refine (g1.append_right _).trans ?_
        have p1 : (E ++ (L ++ [y] ++ M) ++ h :: (G ++ E2)) = E ++ (L ++ (y :: (M ++ h :: (G ++ E2)))) := by simp
        have p2 : (E ++ (L ++ h :: (M ++ [y] ++ (G ++ E2)))) = E ++ (L ++ (h :: (M ++ y :: (G ++ E2)))) := by simp
        rw [p1, p2]
        refine List.Perm.append_left _ (List.Perm.append_left _ ?_)
        exact (List.perm_middle.cons y).trans ((List.Perm.swap h y _).trans (List.perm_middle.symm.cons h))

/-- The partition around the character of the first element: equal, less, greater, equal. -/
theorem splitAround_ok (X : TPos e m) {d v : Nat} {A B : List Int} (E0 xs : List Nat) (hm : Rd m d (E0 ++ xs)) (h0 : AllEq e d v E0) {first middle last : Nat} (hf : first = A.length) (hmid : middle = first + E0.length) (hl : last = middle + xs.length) (hne : first < last) :
    ∃ (E L G E2 : List Nat) (c q : Nat), (E ++ (L ++ (G ++ E2))).Perm (E0 ++ xs) ∧ AllEq e d v E ∧ AllLt e d v L ∧ AllGt e d v G ∧ AllEq e d v E2 ∧
      q + 1 = A.length + E.length + L.length + G.length ∧
      splitAround e d v first middle last (A ++ ((E0 ++ xs).map Int.ofNat ++ B)) =
      .ok ⟨A.length + E.length, A.length + E.length + L.length, c, q, A ++ (E.map Int.ofNat ++ (L.map Int.ofNat ++ (G.map Int.ofNat ++ (E2.map Int.ofNat ++ B))))⟩ := by
  unfold splitAround
  have e1 : A ++ ((E0 ++ xs).map Int.ofNat ++ B) = (A ++ E0.map Int.ofNat) ++ (xs.map Int.ofNat ++ B) := by simp
  obtain ⟨p, q, h1, h2, h3, h4⟩ := eqUp_ok X (v := v) xs (A ++ E0.map Int.ofNat) B middle hm.right (by simp [hf, hmid])
  rw [show last - middle = xs.length by omega, e1, h4]
  simp only [Bind.bind, Except.bind]
  -- the first elements that are less
  have hxl : xs.length = p.length + q.length := by rw [h1]; simp
  have hRq : Rd m d q := by rw [h1] at hm; exact (hm.right).right
  have s2 : ∃ E L R : List Nat, (E ++ (L ++ R)).Perm (E0 ++ xs) ∧ AllEq e d v E ∧ AllLt e d v L ∧ (∀ r, R.head? = some r → v < kc e d r) ∧
      splitUp e d v last (middle + p.length) ((A ++ E0.map Int.ofNat) ++ (xs.map Int.ofNat ++ B)) =
      .ok (A.length + E.length, A.length + E.length + L.length, A ++ (E.map Int.ofNat ++ (L.map Int.ofNat ++ (R.map Int.ofNat ++ B)))) := by
    have hE : AllEq e d v (E0 ++ p) := fun r hr => (List.mem_append.1 hr).elim (h0 r) (h2 r)
    unfold splitUp
    cases q with
    | nil =>
      rw [if_neg (by simp at hxl; omega)]
      refine ⟨E0 ++ p, [], [], by rw [h1]; simp, hE, fun _ h => (by cases h), fun _ h => (by cases h), ?_⟩
      rw [h1]
      simp
      omega
    | cons w q =>
      rw [if_pos (by simp at hxl; omega)]
      have e2 : (A ++ E0.map Int.ofNat) ++ (xs.map Int.ofNat ++ B) = (A ++ (E0 ++ p).map Int.ofNat) ++ (w : Int) :: (q.map Int.ofNat ++ B) := by rw [h1]; simp
      rw [e2, keyAt_mid X (hRq w (List.mem_cons_self ..)) (by simp [hf]; omega)]
      simp only [Bind.bind, Except.bind]
      have hwv : kc e d w ≠ v := h3 w rfl
      by_cases hw : kc e d w < v
      · rw [if_pos hw]
        obtain ⟨E', L', R, g1, g2, g3, g4, g5, gr, g6, g7, g8⟩ := leUp_ok X (v := v) q (E0 ++ p) [w] A B (middle + p.length) (middle + p.length + 1) hRq.tail hE
          (fun r hr => by rw [List.mem_singleton.1 hr]; exact hw) (by simp [hf]; omega) (by simp)
        rw [show last - (middle + p.length + 1) = q.length by simp at hxl; omega]
        have e3 : (A ++ (E0 ++ p).map Int.ofNat) ++ (w : Int) :: (q.map Int.ofNat ++ B) = A ++ ((E0 ++ p).map Int.ofNat ++ ([w].map Int.ofNat ++ (q.map Int.ofNat ++ B))) := by simp
        rw [e3, g8]
        exact ⟨E', L', R, g1.trans (by rw [h1]; simp), g2, g3, g4, rfl⟩
      · rw [if_neg hw]
        refine ⟨E0 ++ p, [], w :: q, by rw [h1]; simp, hE, fun _ h => (by cases h), fun r hr => ?_, ?_⟩
        · injection hr with hr
          subst hr
          omega
        · simp
          omega
  obtain ⟨E, L, R, g1, g2, g3, g4, g8⟩ := s2
  rw [g8]
  simp only []
  have gl := g1.length_eq
  simp only [List.length_append, List.length_cons] at gl
  have hRR : Rd m d R := (hm.perm g1).right.right
  cases R with
  | nil =>
    have hb : last - 1 - (A.length + E.length + L.length) = 0 := by simp at gl; omega
    rw [hb]
    simp only [eqDown, splitDown]
    rw [if_neg (by simp at gl; omega)]
    simp only []
    have : ∀ (fuel : Nat) (s : Split), ¬ s.b < s.c → splitLoop e d v fuel s = .ok s := by
      intro fuel s hs
      cases fuel with
      | zero => unfold splitLoop; rw [if_neg hs]
      | succ f => unfold splitLoop; rw [if_neg hs]
    rw [this _ _ (by simp; simp at gl; omega)]
    refine ⟨E, L, [], [], last - 1, last - 1, by simpa using g1, g2, g3, fun _ h => (by cases h), fun _ h => (by cases h), by simp at gl ⊢; omega, ?_⟩
    simp
  | cons h R =>
    have hh : v < kc e d h := g4 h rfl
    have e3 : A ++ (E.map Int.ofNat ++ (L.map Int.ofNat ++ ((h :: R).map Int.ofNat ++ B))) = (A ++ (E.map Int.ofNat ++ (L.map Int.ofNat ++ [(h : Int)]))) ++ (R.map Int.ofNat ++ B) := by simp
    have hl3 : (A ++ (E.map Int.ofNat ++ (L.map Int.ofNat ++ [(h : Int)]))).length = A.length + E.length + L.length + 1 := by simp; omega
    obtain ⟨M, E2, k1, k2, k3, k4⟩ := eqDown_ok X (v := v) (A := A ++ (E.map Int.ofNat ++ (L.map Int.ofNat ++ [(h : Int)]))) (by rw [hl3]; omega) R.length R B (last - 1) rfl hRR.tail
      (by rw [hl3]; simp at gl; omega)
    rw [show last - 1 - (A.length + E.length + L.length) = R.length by simp at gl; omega, e3, k4]
    simp only []
    have hRl : R.length = M.length + E2.length := by rw [k1]; simp
    rw [show last - 1 - E2.length = A.length + E.length + L.length + M.length by simp at gl; omega]
    have hRM : Rd m d M := by have := hRR.tail; rw [k1] at this; exact this.left
    have s4 : ∃ G' M' E2' : List Nat, (M' ++ (G' ++ E2')).Perm R ∧ M'.length ≤ M.length ∧ Splitting e m d v E L h M' G' E2' ∧
        splitDown e d v (A.length + E.length + L.length) (A.length + E.length + L.length + M.length) ((A ++ (E.map Int.ofNat ++ (L.map Int.ofNat ++ [(h : Int)]))) ++ (R.map Int.ofNat ++ B)) =
        .ok (A.length + E.length + L.length + M'.length + G'.length, A.length + E.length + L.length + M'.length,
          A ++ (E.map Int.ofNat ++ (L.map Int.ofNat ++ ((h : Int) :: (M'.map Int.ofNat ++ (G'.map Int.ofNat ++ (E2'.map Int.ofNat ++ B))))))) := by
      unfold splitDown
      by_cases hM : M = []
      · subst hM
        rw [if_neg (by simp)]
        refine ⟨[], [], E2, by rw [k1]; simp, Nat.le_refl _, ⟨g2, g3, hh, fun _ h => (by cases h), k2, hRM, fun _ h => (by cases h)⟩, ?_⟩
        rw [k1]
        simp
      · have hpos : 0 < M.length := List.length_pos_iff.2 hM
        rw [if_pos (by omega)]
        obtain ⟨M, y, rfl⟩ : ∃ ys v, M = ys ++ [v] := ⟨M.dropLast, M.getLast hM, (List.dropLast_concat_getLast _).symm⟩
        have hyv : kc e d y ≠ v := k3 y (by simp)
        have hlen : (M ++ [y]).length = M.length + 1 := by simp
        have e4 : (A ++ (E.map Int.ofNat ++ (L.map Int.ofNat ++ [(h : Int)]))) ++ (R.map Int.ofNat ++ B) =
            ((A ++ (E.map Int.ofNat ++ (L.map Int.ofNat ++ [(h : Int)]))) ++ M.map Int.ofNat) ++ (y : Int) :: (E2.map Int.ofNat ++ B) := by rw [k1]; simp
        rw [hlen, e4, keyAt_mid X (hRM y (by simp)) (by rw [List.length_append, hl3]; simp; omega)]
        simp only [Bind.bind, Except.bind]
        by_cases hy : v < kc e d y
        · rw [if_pos hy]
          obtain ⟨E2', G', M', j1, j2, j3, j4, j5, jm, j6⟩ := geDown_ok X (v := v) (A := A ++ (E.map Int.ofNat ++ (L.map Int.ofNat ++ [(h : Int)]))) (by rw [hl3]; omega) M.length M [y] E2 B
            (A.length + E.length + L.length + (M.length + 1)) (A.length + E.length + L.length + M.length) rfl hRM.left k2 (fun r hr => by rw [List.mem_singleton.1 hr]; exact hy) (by rw [hl3]; omega) (by simp; omega)
          rw [show A.length + E.length + L.length + (M.length + 1) - 1 - (A.length + E.length + L.length) = M.length by omega,
            show A.length + E.length + L.length + (M.length + 1) - 1 = A.length + E.length + L.length + M.length by omega]
          have e5 : ((A ++ (E.map Int.ofNat ++ (L.map Int.ofNat ++ [(h : Int)]))) ++ M.map Int.ofNat) ++ (y : Int) :: (E2.map Int.ofNat ++ B) =
              (A ++ (E.map Int.ofNat ++ (L.map Int.ofNat ++ [(h : Int)]))) ++ (M.map Int.ofNat ++ ([y].map Int.ofNat ++ (E2.map Int.ofNat ++ B))) := by simp
          rw [e5, j6]
          refine ⟨G', M', E2', j1.trans (by rw [k1]; simp), by omega, ⟨g2, g3, hh, j3, j2, fun r hr => hRM r (List.mem_append_left _ (j5 r hr)), j4⟩, ?_⟩
          rw [hl3]
          simp
        · rw [if_neg hy]
          refine ⟨[], M ++ [y], E2, by rw [k1]; simp, by simp, ⟨g2, g3, hh, fun _ h => (by cases h), k2, hRM, fun r hr => ?_⟩, ?_⟩
          · simp at hr
            subst hr
            omega
          · simp
    obtain ⟨G', M', E2', j1, jl, S, j6⟩ := s4
    rw [j6]
    simp only []
    obtain ⟨E', L', G'', E2'', c', l1, l2, l3, l4, l5, _, l7, l8⟩ := splitLoop_ok X (A := A) (B := B) M'.length E L h M' G' E2' (A.length + E.length + L.length + M'.length) (last - first) rfl S
      (by simp at gl; omega) (fun k => by rw [k]; simp) (fun _ => rfl)
    rw [l8]
    have : 0 < G''.length := List.length_pos_iff.2 l7
    refine ⟨E', L', G'', E2'', c', _, ?_, l2, l3, l4, l5, ?_, rfl⟩
    · exact l1.trans ((List.Perm.append_left _ (List.Perm.append_left _ (j1.cons h))).trans g1)
    · omega

/-- `tr_partition`. -/
theorem trPartition_ok (X : TPos e m) {d v : Nat} {A B : List Int} (E0 xs : List Nat) (hm : Rd m d (E0 ++ xs)) (h0 : AllEq e d v E0) {first middle last : Nat} (hf : first = A.length) (hmid : middle = first + E0.length) (hl : last = middle + xs.length) (hne : first < last) :
    ∃ L E G : List Nat, (L ++ (E ++ G)).Perm (E0 ++ xs) ∧ AllLt e d v L ∧ AllEq e d v E ∧ AllGt e d v G ∧
      trPartition e d first middle last v (A ++ ((E0 ++ xs).map Int.ofNat ++ B)) =
        .ok (first + L.length, first + L.length + E.length, A ++ (L.map Int.ofNat ++ (E.map Int.ofNat ++ (G.map Int.ofNat ++ B)))) := by
  obtain ⟨E, L, G, E2, c, q, h1, h2, h3, h4, h5, h6, h7⟩ := splitAround_ok X (B := B) E0 xs hm h0 hf hmid hl hne
  have hlen := h1.length_eq
  simp only [List.length_append] at hlen
  unfold trPartition splitEnd
  rw [h7]
  simp only [Bind.bind, Except.bind]
  by_cases h : A.length + E.length ≤ q
  · rw [if_pos h]
    obtain ⟨X1, Y1, p1, p2, p3⟩ := exchange_ok E L A (G.map Int.ofNat ++ (E2.map Int.ofNat ++ B)) (i := first) (n := min (A.length + E.length - first) (A.length + E.length + L.length - (A.length + E.length))) hf
      (by rw [hf]; congr 1 <;> omega)
    rw [show first + E.length + L.length = A.length + E.length + L.length by omega] at p3
    rw [p3]
    simp only []
    have q1 := p1.length_eq
    have q2 := p2.length_eq
    obtain ⟨X2, Y2, r1, r2, r3⟩ := exchange_ok G E2 (A ++ (Y1.map Int.ofNat ++ X1.map Int.ofNat)) B (i := A.length + E.length + L.length)
      (n := min (q + 1 - (A.length + E.length + L.length)) (last - q - 1)) (by simp; omega) (by congr 1 <;> omega)
    have e1 : A ++ (Y1.map Int.ofNat ++ (X1.map Int.ofNat ++ (G.map Int.ofNat ++ (E2.map Int.ofNat ++ B)))) =
        (A ++ (Y1.map Int.ofNat ++ X1.map Int.ofNat)) ++ (G.map Int.ofNat ++ (E2.map Int.ofNat ++ B)) := by simp
    rw [show A.length + E.length + L.length + G.length + E2.length = last by omega] at r3
    rw [e1, r3]
    simp only []
    have r4 := r1.length_eq
    have r5 := r2.length_eq
    refine ⟨Y1, X1 ++ Y2, X2, ?_, fun r hr => h3 r (p2.subset hr), ?_, fun r hr => h4 r (r1.subset hr), ?_⟩
    · refine List.Perm.trans ?_ h1
      refine (p2.append ((p1.append r2).append r1)).trans ?_
      refine List.Perm.trans (List.perm_append_comm_assoc L (E ++ E2) G |>.trans ?_) (List.Perm.refl _)
      simp only [List.append_assoc]
      refine List.Perm.append_left _ ?_
      refine (List.perm_append_comm_assoc E2 L G).trans ?_
      refine List.Perm.append_left _ ?_
      exact List.perm_append_comm
    · intro r hr
      rcases List.mem_append.1 hr with hr | hr
      · exact h2 r (p1.subset hr)
      · exact h5 r (r2.subset hr)
    · congr 1
      refine Prod.ext (by simp; omega) (Prod.ext (by simp; omega) (by simp))
  · rw [if_neg h]
    have hL : L = [] := List.length_eq_zero_iff.1 (by omega)
    have hG : G = [] := List.length_eq_zero_iff.1 (by omega)
    subst hL
    subst hG
    refine ⟨[], E ++ E2, [], by simpa using h1, h3, fun r hr => (List.mem_append.1 hr).elim (h2 r) (h5 r), h4, ?_⟩
    congr 1
    refine Prod.ext (by simp) (Prod.ext (by simp at hlen ⊢; omega) (by simp))

end

end Tr

end Dss
end Detools
