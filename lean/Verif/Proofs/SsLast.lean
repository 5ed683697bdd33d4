import Verif.Proofs.SsSort
import Verif.Proofs.SsSwap2
/-
The insertion of the last B* suffix.
-/
namespace Detools

namespace Dss

open Sais

variable {e : SsText} {P : Nat → Nat} {m : Nat}

theorem lastCompare_ok (X : Pos e P m) {d x s : Nat} (hs : s + 1 < m) (hx : x + d ≤ e.t.length) (hd : d ≤ Dss.kl P s)
    (h : (e.t.drop x).take d = (key e P s).take d) : ∃ c, lastCompare e d x s = .ok c ∧ CmpIs c (e.t.drop x) (key e P s) := by
  have h2 := X.kl hs
  have h4 := X.next s hs
  unfold Dss.kl at h2 hd
  obtain ⟨c, hc, hi⟩ := ssCmp_ok (t := e.t) (u2n := P (s + 1) + 2) (by omega) (e.t.length - (x + d)) (x + d) (P s + d) (by omega)
  refine ⟨c, ?_, ?_⟩
  · unfold lastCompare
    rw [X.pos (by omega), X.pos hs]
    exact hc
  · refine CmpIs.drop h ?_
    rw [key_drop, List.drop_drop]
    unfold Dss.kl
    rw [show P (s + 1) + 2 - P s - d = P (s + 1) + 2 - (P s + d) by omega]
    rw [List.take_of_length_le (by rw [List.length_drop]; omega)] at hi
    exact hi

theorem invHead_marks_cons (k : Nat → List Nat) (b : Bool) (r : Nat) (l : List Nat) :
    invHead b (marks k (r :: l)) = (if b then inv r else (r : Int)) :: invHead (joinB k [r] l) (marks k l) := by
  have h := marks_join (k := k) [r] l
  rw [show [r] ++ l = r :: l from rfl, show marks k [r] = [(r : Int)] from rfl, List.singleton_append] at h
  rw [h]
  cases b <;> rfl

theorem lastLoop_ok (X : Pos e P m) {d x : Nat} {U : List Nat} (hU : Seg e P m d U) (hx : x + d ≤ e.t.length)
    (hd : ∀ s, s ∈ U → (e.t.drop x).take d = (key e P s).take d) :
    ∀ (l : List Nat) (b : Bool) (A : List Int) (h : Int) (B : List Int) (p : Nat), (∀ s, s ∈ l → s ∈ U) → Srt (key e P) l → p = A.length + 1 →
      (b = true → ∀ q, l.head? = some q → Lex (key e P q) (e.t.drop x)) →
      ∃ lo hi h', l = lo ++ hi ∧ (∀ s, s ∈ lo → Lex (key e P s) (e.t.drop x)) ∧ (∀ s, s ∈ hi → ¬ Lex (key e P s) (e.t.drop x)) ∧
        lastLoop e d x l.length p (A ++ (h :: (invHead b (marks (key e P) l) ++ B))) =
          .ok (p + lo.length, A ++ (invHead b (marks (key e P) lo) ++ (h' :: (marks (key e P) hi ++ B))))
  | [], b, A, h, B, p, _, _, _, _ => by
    refine ⟨[], [], h, rfl, fun s hs => absurd hs (by simp), fun s hs => absurd hs (by simp), ?_⟩
    show Except.ok _ = _
    rw [show marks (key e P) [] = [] from rfl, invHead_nil]
    rfl
  | r :: l, b, A, h, B, p, hm, hs, hp, hb => by
    obtain ⟨hs1, hs2⟩ := Srt.cons.1 hs
    have hr := hm r (by simp)
    have shift : Lex (key e P r) (e.t.drop x) →
        ∃ lo hi h', r :: l = lo ++ hi ∧ (∀ s, s ∈ lo → Lex (key e P s) (e.t.drop x)) ∧ (∀ s, s ∈ hi → ¬ Lex (key e P s) (e.t.drop x)) ∧
        (∀ v : Int, v = (if b then inv r else (r : Int)) → (do
          let a ← wr (A ++ (h :: (v :: (invHead (joinB (key e P) [r] l) (marks (key e P) l) ++ B)))) (p - 1) v
          lastLoop e d x l.length (p + 1) a) =
          .ok (p + lo.length, A ++ (invHead b (marks (key e P) lo) ++ (h' :: (marks (key e P) hi ++ B))))) := by
      intro hlt
      obtain ⟨lo, hi, h', e1, e2, e3, e4⟩ := lastLoop_ok X hU hx hd l (joinB (key e P) [r] l) (A ++ [if b then inv r else (r : Int)])
        (if b then inv r else (r : Int)) B (p + 1) (fun s hs => hm s (by simp [hs])) hs2 (by simp; omega) (by
          intro hj q hq
          rw [joinB_some (p := r) (q := q) rfl hq] at hj
          rw [← of_decide_eq_true hj]
          exact hlt)
      refine ⟨r :: lo, hi, h', by rw [e1]; rfl, ?_, e3, ?_⟩
      · intro s hs
        rcases List.mem_cons.1 hs with k | k
        · rw [k]; exact hlt
        · exact e2 s k
      · intro v hv
        rw [wr_mid (by omega : p - 1 = A.length)]
        simp only [Bind.bind, Except.bind]
        rw [hv]
        rw [List.append_assoc, List.singleton_append] at e4
        rw [e4, invHead_marks_cons, List.append_assoc, List.singleton_append]
        have hj : invHead (joinB (key e P) [r] l) (marks (key e P) lo) = invHead (joinB (key e P) [r] lo) (marks (key e P) lo) := by
          cases lo with
          | nil => rw [show marks (key e P) [] = [] from rfl, invHead_nil, invHead_nil]
          | cons q lo => rw [e1]; rfl
        rw [hj, List.length_cons, List.cons_append]
        congr 2
        omega
    rw [invHead_marks_cons, List.cons_append]
    have hrd : ∀ v : Int, rd (A ++ (h :: (v :: (invHead (joinB (key e P) [r] l) (marks (key e P) l) ++ B)))) p = .ok v := by
      intro v
      have e1 : A ++ (h :: (v :: (invHead (joinB (key e P) [r] l) (marks (key e P) l) ++ B))) =
        (A ++ [h]) ++ (v :: (invHead (joinB (key e P) [r] l) (marks (key e P) l) ++ B)) := by simp
      rw [e1]
      exact rd_mid (by simp; omega)
    cases b with
    | true =>
      obtain ⟨lo, hi, h', e1, e2, e3, e4⟩ := shift (hb rfl r rfl)
      refine ⟨lo, hi, h', e1, e2, e3, ?_⟩
      rw [← e4 (inv r) rfl]
      simp only [if_true, List.length_cons, lastLoop]
      rw [hrd]
      simp only [Bind.bind, Except.bind]
      rw [if_pos (inv_neg r)]
    | false =>
      have hcons := invHead_marks_cons (key e P) false r l
      rw [invHead_false] at hcons
      obtain ⟨c, hc, hi'⟩ := lastCompare_ok X (hU.below r hr) hx (Nat.le_of_lt (hU.long r hr)) (hd r hr)
      by_cases hlt : Lex (key e P r) (e.t.drop x)
      · obtain ⟨lo, hi, h', e1, e2, e3, e4⟩ := shift hlt
        refine ⟨lo, hi, h', e1, e2, e3, ?_⟩
        rw [← e4 (r : Int) rfl]
        simp only [Bool.false_eq_true, if_false, List.length_cons, lastLoop]
        rw [hrd]
        simp only [Bind.bind, Except.bind]
        rw [if_neg (by omega), idx_nat]
        simp only []
        rw [hc]
        simp only []
        rw [if_pos (hi'.pos.2 hlt)]
      · refine ⟨[], r :: l, h, rfl, fun s hs => absurd hs (by simp), ?_, ?_⟩
        · intro s hs
          rcases List.mem_cons.1 hs with k | k
          · rw [k]; exact hlt
          · intro k'
            exact hlt (lex_of_le_lt (hs1 s k) k')
        · simp only [Bool.false_eq_true, if_false, List.length_cons, lastLoop]
          rw [hrd]
          simp only [Bind.bind, Except.bind]
          rw [if_neg (by omega), idx_nat]
          simp only []
          rw [hc]
          simp only []
          rw [if_neg (fun k => hlt (hi'.pos.1 k)), hcons]
          rfl

theorem insertLast_ok (X : Pos e P m) {d r first last : Nat} {l : List Nat} {A B : List Int} (hl : Seg e P m d l) (hs : Srt (key e P) l) (hr : r < m)
    (hx : P r + d ≤ e.t.length) (hd : ∀ s, s ∈ l → (e.t.drop (P r)).take d = (key e P s).take d) (hf : first = A.length + 1) (hla : last = first + l.length) :
    ∃ lo hi, l = lo ++ hi ∧ (∀ s, s ∈ lo → Lex (key e P s) (e.t.drop (P r))) ∧ (∀ s, s ∈ hi → ¬ Lex (key e P s) (e.t.drop (P r))) ∧
      insertLast e first last d (A ++ ((r : Int) :: (marks (key e P) l ++ B))) =
        .ok (A ++ (marks (key e P) lo ++ ((r : Int) :: (marks (key e P) hi ++ B)))) := by
  obtain ⟨lo, hi, h', e1, e2, e3, e4⟩ := lastLoop_ok X hl hx hd l false A (r : Int) B first (fun s hs => hs) hs hf (fun h => absurd h (by decide))
  refine ⟨lo, hi, e1, e2, e3, ?_⟩
  unfold insertLast
  rw [rd_mid (by omega : first - 1 = A.length)]
  simp only [Bind.bind, Except.bind]
  rw [idx_nat]
  simp only []
  rw [X.pos hr]
  simp only []
  rw [show last - first = l.length by omega]
  rw [invHead_false, invHead_false] at e4
  rw [e4]
  simp only []
  have e5 : A ++ (marks (key e P) lo ++ (h' :: (marks (key e P) hi ++ B))) = (A ++ marks (key e P) lo) ++ (h' :: (marks (key e P) hi ++ B)) := by simp
  rw [e5, wr_mid (by rw [List.length_append, marks_length]; omega)]
  simp

/-- The whole of `sssort`, with the last suffix put first. -/
theorem ssSort_last_ok (X : Pos e P m) {d r first last buf bufsize : Nat} {xs : List Nat} {A N J B : List Int} (hd : 0 < d) (hseg : Seg e P m d xs)
    (hn : xs.length < 2 ^ 31) (hr : r < m) (hx : P r + d ≤ e.t.length) (hk : ∀ s, s ∈ xs → (e.t.drop (P r)).take d = (key e P s).take d)
    (hf : first = A.length) (hl : last = first + 1 + xs.length) (hb : buf = last + N.length) (hJ : J.length = bufsize) :
    ∃ lo hi K, (lo ++ hi).Perm xs ∧ Srt (key e P) (lo ++ hi) ∧ K.Perm J ∧ (∀ s, s ∈ lo → Lex (key e P s) (e.t.drop (P r))) ∧
      (∀ s, s ∈ hi → ¬ Lex (key e P s) (e.t.drop (P r))) ∧
      ssSort e first last buf bufsize d true (A ++ (((r :: xs).map Int.ofNat) ++ (N ++ (J ++ B)))) =
        .ok (A ++ ((marks (key e P) lo ++ ((r : Int) :: marks (key e P) hi)) ++ (N ++ (K ++ B)))) := by
  obtain ⟨l', K, h1, h2, h3, h4⟩ := ssSortMain_ok (A := A ++ [(r : Int)]) (N := N) (J := J) (B := B) (first := first + 1) (last := last) (buf := buf) (bufsize := bufsize)
    X hd hseg hn (by simp; omega) hl hb hJ
  have hseg' : Seg e P m d l' := hseg.perm h1
  obtain ⟨lo, hi, e1, e2, e3, e4⟩ := insertLast_ok (A := A) (B := N ++ (K ++ B)) (first := first + 1) (last := last) (r := r) X hseg' h2 hr hx
    (fun s hs => hk s (h1.mem_iff.1 hs)) (by omega) (by rw [h1.length_eq]; omega)
  subst e1
  refine ⟨lo, hi, K, h1, h2, h3, e2, e3, ?_⟩
  unfold ssSort
  rw [if_pos rfl]
  simp only [List.append_assoc, List.singleton_append] at h4
  simp only [Bind.bind, Except.bind, List.map_cons, List.cons_append]
  rw [show Int.ofNat r = (r : Int) from rfl, h4]
  simp only []
  rw [e4]
  simp

/-! ### Marked lists, by index -/

theorem marksFrom_at (k : Nat → List Nat) : ∀ (l : List Nat) (p q r s : Nat), l[q]? = some r → (p :: l)[q]? = some s →
    (marksFrom k p l)[q]? = some (if k s = k r then inv r else (r : Int))
  | [], p, q, r, s, h, _ => by simp at h
  | x :: l, p, 0, r, s, h, h' => by
    have h1 : x = r := by simpa using h
    have h2 : p = s := by simpa using h'
    subst h1; subst h2; rfl
  | x :: l, p, q + 1, r, s, h, h' => by
    have := marksFrom_at k l x q r s (by simpa using h) (by simpa using h')
    show (marksFrom k x l)[q]? = _
    exact this

theorem marks_at (k : Nat → List Nat) (l : List Nat) (q r s : Nat) (h : l[q]? = some r) (h' : l[q - 1]? = some s) :
    (marks k l)[q]? = some (if 0 < q ∧ k s = k r then -(r : Int) - 1 else (r : Int)) := by
  cases l with
  | nil => simp at h
  | cons x l =>
    cases q with
    | zero =>
      have h1 : x = r := by simpa using h
      subst h1; simp [marks]
    | succ q =>
      show (marksFrom k x l)[q]? = _
      rw [marksFrom_at k l x q r s (by simpa using h) h']
      simp only [Nat.succ_pos, true_and]
      rw [show inv (r : Int) = -(r : Int) - 1 by unfold inv; omega]

theorem marksFrom_congr {k k' : Nat → List Nat} : ∀ (l : List Nat) (p : Nat), k p = k' p → (∀ s, s ∈ l → k s = k' s) → marksFrom k p l = marksFrom k' p l
  | [], _, _, _ => rfl
  | x :: l, p, hp, h => by
    have hx := h x (by simp)
    show _ :: _ = _ :: _
    rw [marksFrom_congr l x hx (fun s hs => h s (by simp [hs])), hp, hx]

theorem marks_congr {k k' : Nat → List Nat} {l : List Nat} (h : ∀ s, s ∈ l → k s = k' s) : marks k l = marks k' l := by
  cases l with
  | nil => rfl
  | cons x l =>
    show _ :: _ = _ :: _
    rw [marksFrom_congr l x (h x (by simp)) (fun s hs => h s (by simp [hs]))]

/-- Sorted and marked, in the words of the specification. -/
theorem substringsSorted_of {t l l' : List Nat} (h1 : l'.Perm l) (h2 : Srt (bStarSub t) l') : SubstringsSorted t l (marks (bStarSub t) l') :=
  ⟨l', h1, h2.imp (fun h => by rw [lex_iff]; exact h), marks_length _, fun q r s h h' => marks_at _ _ q r s h h'⟩

end Dss

end Detools
