import Verif.Proofs.SsLast
/-
sssort, as it is called by sort_typeBstar, does what is asked of it.
-/
namespace Detools

namespace Dss

open Sais

variable {t : List Nat}

/-- Position number `r`. -/
def bpos (t : List Nat) (r : Nat) : Nat := ((bStars t)[r]?).getD 0

theorem bpos_star {r : Nat} (h : r < (bStars t).length) : star t (bpos t r) ∧ sNo t (bpos t r) = r := by
  have h1 : (bStars t)[r]? = some (bpos t r) := by
    unfold bpos
    rw [List.getElem?_eq_getElem h]
    rfl
  exact bStars_iff.1 h1

theorem star_apart {x y : Nat} (hx : star t x) (hy : star t y) (h : x < y) : x + 2 ≤ y := by
  by_cases k : y = x + 1
  · subst k
    have h1 := hx.2
    have h2 := hy.1
    rw [h1] at h2
    cases h2
  · omega

theorem pos_of {pa : List Int} (h : ∀ r x : Nat, (bStars t)[r]? = some x → pa[r]? = some (x : Int)) : Pos ⟨t, pa⟩ (bpos t) (bStars t).length where
  get r hr := h r _ (by rw [bStars_iff]; exact bpos_star hr)
  next r hr := by
    have h1 := bpos_star (t := t) (r := r) (by omega)
    have h2 := bpos_star (t := t) (r := r + 1) hr
    exact star_apart h1.1 h2.1 ((sNo_lt_iff h1.1 h2.1).1 (by omega))
  fit r hr := by
    have := star_lt (bpos_star hr).1
    show _ ≤ t.length
    omega
  up r hr := star_ch (bpos_star hr).1

theorem key_bStarSub {pa : List Int} {r : Nat} (h : r + 1 < (bStars t).length) : key ⟨t, pa⟩ (bpos t) r = bStarSub t r := by
  have h1 := bpos_star (t := t) (r := r) (by omega)
  have h2 := bpos_star (t := t) (r := r + 1) h
  have h3 := sub_next h1.1 h2.1 (by omega)
  unfold sub at h3
  rw [h1.2] at h3
  rw [h3]
  rfl

theorem last_bStarSub {r : Nat} (h : r + 1 = (bStars t).length) : t.drop (bpos t r) = bStarSub t r := by
  have h1 := bpos_star (t := t) (r := r) (by omega)
  have h3 := sub_last h1.1 (by rw [← bStars_length]; omega)
  unfold sub at h3
  rw [h1.2] at h3
  exact h3.symm

theorem last_ne {r s : Nat} (h : r + 1 = (bStars t).length) (hs : s + 1 < (bStars t).length) : bStarSub t s ≠ bStarSub t r := by
  have h1 := bpos_star (t := t) (r := r) (by omega)
  have h2 := bpos_star (t := t) (r := s) (by omega)
  have := sub_last_ne h1.1 h2.1 (by rw [← bStars_length]; omega) (fun k => by rw [k] at h2; omega)
  unfold sub at this
  rwa [h1.2, h2.2] at this

theorem seg_of {pa : List Int} {l : List Nat} (hX : Pos ⟨t, pa⟩ (bpos t) (bStars t).length) (hb : ∀ r, r ∈ l → r + 1 < (bStars t).length)
    (h2 : ∀ r s, r ∈ l → s ∈ l → (bStarSub t r).take 2 = (bStarSub t s).take 2) : Seg ⟨t, pa⟩ (bpos t) (bStars t).length 2 l where
  below := hb
  long r hr := by
    have := hX.next r (hb r hr)
    unfold kl
    omega
  same r s hr hs := by rw [key_bStarSub (hb r hr), key_bStarSub (hb s hs)]; exact h2 r s hr hs

theorem skip_get {A R : List Int} {a q : Nat} (hA : A.length = a) (h : a ≤ q) : (A ++ R)[q]? = R[q - a]? := by
  rw [List.getElem?_append_right (by omega), hA]

/-- What is changed, and what is not. -/
theorem frame_ok {A X X' N J K Q : List Int} {i j m n : Nat} (hA : A.length = i) (hX : X.length = j - i) (hX' : X'.length = j - i) (hij : i ≤ j)
    (hN : N.length = m - j) (hjm : j ≤ m) (hJ : J.length = n - 2 * m) (hK : K.length = n - 2 * m) (hmn : 2 * m ≤ n) :
    ((A ++ (X' ++ (N ++ (K ++ []))) ++ Q)).length = (A ++ (X ++ (N ++ (J ++ []))) ++ Q).length ∧
    (∀ q : Nat, (q < i ∨ (j ≤ q ∧ q < m) ∨ n - m ≤ q) → (A ++ (X' ++ (N ++ (K ++ []))) ++ Q)[q]? = (A ++ (X ++ (N ++ (J ++ []))) ++ Q)[q]?) ∧
    ((A ++ (X' ++ (N ++ (K ++ []))) ++ Q).drop i).take (j - i) = X' := by
  refine ⟨?_, ?_, ?_⟩
  · simp only [List.length_append, hA, hX, hX', hN, hJ, hK]
  · intro q hq
    simp only [List.append_nil, List.append_assoc]
    by_cases h1 : q < i
    · rw [List.getElem?_append_left (by omega), List.getElem?_append_left (by omega)]
    · rw [skip_get hA (by omega), skip_get hA (by omega), skip_get hX (by omega), skip_get hX' (by omega)]
      by_cases h2 : q < m
      · rw [List.getElem?_append_left (by omega), List.getElem?_append_left (by omega)]
      · rw [skip_get hN (by omega), skip_get hN (by omega), skip_get hJ (by omega), skip_get hK (by omega)]
  · rw [List.append_assoc, List.append_assoc, ← hA, List.drop_left, hA, ← hX', List.take_left]

theorem callSsSort_ok (tr : Nat → List Int → C (List Int)) : SsSorts ⟨callSsSort, tr⟩ := by
  intro t sa i j l hk hn hg
  have hij := hg.range
  have hl := hg.length
  have h2m := nStar_le (t := t)
  rw [← bStars_length] at h2m
  have hll : l.length = j - i := by
    have := congrArg List.length hg.numbers
    rw [List.length_take, List.length_drop, List.length_map] at this
    omega
  obtain ⟨A, R, e1, hA⟩ := exists_split (l := sa) (n := i) (by omega)
  obtain ⟨Y, R1, e2, hY⟩ := exists_split (l := R) (n := (j - i)) (by rw [e1, List.length_append] at hl; omega)
  subst e2
  obtain ⟨N, R2, e3, hN⟩ := exists_split (l := R1) (n := ((bStars t).length - j)) (by rw [e1, List.length_append, List.length_append] at hl; omega)
  subst e3
  obtain ⟨J, Q, e4, hJ⟩ := exists_split (l := R2) (n := (t.length - 2 * (bStars t).length)) (by rw [e1, List.length_append, List.length_append, List.length_append] at hl; omega)
  subst e4
  have e5 : sa = (A ++ (Y ++ (N ++ (J ++ [])))) ++ Q := by rw [e1]; simp
  have hfl : (A ++ (Y ++ (N ++ (J ++ [])))).length = t.length - (bStars t).length := by
    simp only [List.length_append, List.length_nil]; omega
  have hYl : Y = l.map Int.ofNat := by
    rw [← hg.numbers, e1, ← hA, List.drop_left, hA, ← hY, List.take_left]
  have htake : sa.take (t.length - (bStars t).length) = A ++ (Y ++ (N ++ (J ++ []))) := by rw [← hfl, e5, List.take_left]
  have hdrop : sa.drop (t.length - (bStars t).length) = Q := by rw [← hfl, e5, List.drop_left]
  have X : Pos ⟨t, Q⟩ (bpos t) (bStars t).length := pos_of fun r x hx => by
    have := hg.positions r x hx
    rwa [← List.getElem?_drop, hdrop] at this
  have done : ∀ (X' K : List Int), K.Perm J → SubstringsSorted t l X' →
      ssSort ⟨t, Q⟩ i j (bStars t).length (t.length - 2 * (bStars t).length) 2 (decide (l.head? = some ((bStars t).length - 1))) (A ++ (Y ++ (N ++ (J ++ [])))) =
        .ok (A ++ (X' ++ (N ++ (K ++ [])))) → 
      ∃ sa', callSsSort t (bStars t).length i j (decide (l.head? = some ((bStars t).length - 1))) sa = .ok sa' ∧ sa'.length = sa.length ∧
      (∀ q : Nat, (q < i ∨ (j ≤ q ∧ q < (bStars t).length) ∨ t.length - (bStars t).length ≤ q) → sa'[q]? = sa[q]?) ∧
      SubstringsSorted t l ((sa'.drop i).take (j - i)) := by
    intro X' K hKJ hsub hrun
    have hX' : X'.length = j - i := by
      obtain ⟨l', h1, _, h2, _⟩ := hsub
      rw [h2, h1.length_eq, hll]
    obtain ⟨f1, f2, f3⟩ := frame_ok (A := A) (X := Y) (X' := X') (N := N) (J := J) (K := K) (Q := Q) (i := i) (j := j) (m := (bStars t).length) (n := t.length)
      hA hY hX' (by omega) hN hij.2 hJ (hKJ.length_eq.trans hJ) h2m
    refine ⟨(A ++ (X' ++ (N ++ (K ++ [])))) ++ Q, ?_, ?_, ?_, ?_⟩
    · unfold callSsSort
      rw [htake, hdrop, hrun]
      rfl
    · rw [f1, ← e5]
    · intro q hq
      rw [f2 q hq, ← e5]
    · rw [f3]
      exact hsub
  show ∃ sa', callSsSort _ _ _ _ _ _ = _ ∧ _
  by_cases hlast : l.head? = some ((bStars t).length - 1)
  · obtain ⟨r, xs, hrx⟩ : ∃ r xs, l = r :: xs := by
      cases l with
      | nil => cases hlast
      | cons r xs => exact ⟨r, xs, rfl⟩
    subst hrx
    have hr : r = (bStars t).length - 1 := by simpa using hlast
    have hr' : r + 1 = (bStars t).length := by omega
    have hxs : ∀ s, s ∈ xs → s + 1 < (bStars t).length := by
      intro s hs
      have h1 := hg.below s (by simp [hs])
      have h2 : s ≠ (bStars t).length - 1 := fun h => hg.last (by rw [← h]; exact hs)
      omega
    have hseg := seg_of X hxs (fun a b ha hb => hg.two a b (by simp [ha]) (by simp [hb]))
    obtain ⟨lo, hi, K, g1, g2, g3, g4, g5, g6⟩ := ssSort_last_ok (e := ⟨t, Q⟩) (r := r) (first := i) (last := j) (buf := (bStars t).length)
      (bufsize := t.length - 2 * (bStars t).length) (A := A) (N := N) (J := J) (B := []) X (by omega) hseg
      (by rw [List.length_cons] at hll; omega) (by omega)
      (by have := star_lt (bpos_star (t := t) (r := r) (by omega)).1; show _ ≤ t.length; omega)
      (fun s hs => by
        rw [key_bStarSub (hxs s hs)]
        show (t.drop _).take 2 = _
        rw [last_bStarSub hr']
        exact hg.two r s (by simp) (by simp [hs]))
      hA.symm (by rw [List.length_cons] at hll; omega) (by omega) hJ
    have hmem : ∀ s, s ∈ lo ++ hi → s + 1 < (bStars t).length := fun s hs => hxs s (g1.mem_iff.1 hs)
    have hlo : ∀ s, s ∈ lo → Lex (bStarSub t s) (bStarSub t r) := fun s hs => by
      have := g4 s hs
      rwa [key_bStarSub (hmem s (by simp [hs])), show SsText.t ⟨t, Q⟩ = t from rfl, last_bStarSub hr'] at this
    have hhi : ∀ s, s ∈ hi → Lex (bStarSub t r) (bStarSub t s) := fun s hs => by
      have := g5 s hs
      rw [key_bStarSub (hmem s (by simp [hs])), show SsText.t ⟨t, Q⟩ = t from rfl, last_bStarSub hr'] at this
      exact lex_of_ne this (last_ne hr' (hmem s (by simp [hs]))).symm
    have hsrt : Srt (bStarSub t) (lo ++ hi) := by
      refine List.Pairwise.imp_of_mem (fun {a b} ha hb h => ?_) g2
      rwa [key_bStarSub (hmem a ha), key_bStarSub (hmem b hb)] at h
    obtain ⟨s1, s2, s3⟩ := Srt.append.1 hsrt
    have hall : Srt (bStarSub t) (lo ++ (r :: hi)) := by
      refine Srt.append.2 ⟨s1, Srt.cons.2 ⟨fun q hq => (hhi q hq).asymm, s2⟩, fun p hp q hq => ?_⟩
      rcases List.mem_cons.1 hq with k | k
      · rw [k]; exact (hlo p hp).asymm
      · exact s3 p hp q k
    have hmarks : marks (bStarSub t) (lo ++ (r :: hi)) = marks (key ⟨t, Q⟩ (bpos t)) lo ++ ((r : Int) :: marks (key ⟨t, Q⟩ (bpos t)) hi) := by
      rw [marks_append (Apart.of_lt (fun p hp q hq => by
        rcases List.mem_cons.1 hq with k | k
        · rw [k]; exact hlo p hp
        · exact lex_of_lt_le (hlo p hp) (hhi q k).asymm))]
      rw [show r :: hi = [r] ++ hi from rfl, marks_append (Apart.of_lt (fun p hp q hq => by
        rw [List.mem_singleton.1 hp]; exact hhi q hq))]
      rw [marks_congr (l := lo) (k' := key ⟨t, Q⟩ (bpos t)) (fun s hs => (key_bStarSub (hmem s (by simp [hs]))).symm),
        marks_congr (l := hi) (k' := key ⟨t, Q⟩ (bpos t)) (fun s hs => (key_bStarSub (hmem s (by simp [hs]))).symm)]
      rfl
    refine done _ K g3 (substringsSorted_of (l' := lo ++ (r :: hi)) ?_ hall) ?_
    · exact List.perm_middle.trans (g1.cons r)
    · rw [hmarks, hYl, decide_eq_true hlast]
      exact g6
  · have hxs : ∀ s, s ∈ l → s + 1 < (bStars t).length := by
      intro s hs
      have h1 := hg.below s hs
      have h2 : s ≠ (bStars t).length - 1 := fun h => by
        cases l with
        | nil => cases hs
        | cons r xs =>
          rcases List.mem_cons.1 hs with k | k
          · exact hlast (by rw [← h, k]; rfl)
          · exact hg.last (by rw [← h]; exact k)
      omega
    have hseg := seg_of X hxs hg.two
    obtain ⟨l', K, g1, g2, g3, g4⟩ := ssSortMain_ok (e := ⟨t, Q⟩) (first := i) (last := j) (buf := (bStars t).length)
      (bufsize := t.length - 2 * (bStars t).length) (A := A) (N := N) (J := J) (B := []) X (by omega) hseg (by omega) hA.symm (by omega) (by omega) hJ
    have hmem : ∀ s, s ∈ l' → s + 1 < (bStars t).length := fun s hs => hxs s (g1.mem_iff.1 hs)
    have hsrt : Srt (bStarSub t) l' := by
      refine List.Pairwise.imp_of_mem (fun {a b} ha hb h => ?_) g2
      rwa [key_bStarSub (hmem a ha), key_bStarSub (hmem b hb)] at h
    refine done _ K g3 (substringsSorted_of g1 hsrt) ?_
    rw [marks_congr (l := l') (k' := key ⟨t, Q⟩ (bpos t)) (fun s hs => (key_bStarSub (hmem s hs)).symm), hYl, decide_eq_false hlast]
    exact g4

end Dss

end Detools
