import Verif.Proofs.SsSwap2
import Verif.Proofs.SsLimit
/-
sssort sorts.
-/
namespace Detools
namespace Dss
open Sais

/-! ### The blocks that are sorted

One list for each bit that is set of how many blocks there are; the lowest bit comes first, and
its list is the last in the array. -/

def runsVal : List (Option (List Nat)) → Nat
  | [] => 0
  | some _ :: rs => 2 * runsVal rs + 1
  | none :: rs => 2 * runsVal rs

def runsNum : List (Option (List Nat)) → List Nat
  | [] => []
  | some l :: rs => runsNum rs ++ l
  | none :: rs => runsNum rs

def runsMarks (k : Nat → List Nat) : List (Option (List Nat)) → List Int
  | [] => []
  | some l :: rs => runsMarks k rs ++ marks k l
  | none :: rs => runsMarks k rs

def RunsAt (k : Nat → List Nat) : Nat → List (Option (List Nat)) → Prop
  | _, [] => True
  | c, some l :: rs => l.length = c ∧ Srt k l ∧ RunsAt k (2 * c) rs
  | c, none :: rs => RunsAt k (2 * c) rs

section
variable {k : Nat → List Nat}

theorem runsMarks_length : ∀ rs : List (Option (List Nat)), (runsMarks k rs).length = (runsNum rs).length
  | [] => rfl
  | some l :: rs => by rw [runsMarks, runsNum, List.length_append, List.length_append, runsMarks_length rs, marks_length]
  | none :: rs => runsMarks_length rs

theorem runs_zero : ∀ rs : List (Option (List Nat)), runsVal rs = 0 → runsNum rs = [] ∧ runsMarks k rs = []
  | [], _ => ⟨rfl, rfl⟩
  | some l :: rs, h => by simp [runsVal] at h
  | none :: rs, h => runs_zero rs (by rw [runsVal] at h; omega)

end

theorem map_ofNat_perm {K : List Int} {ys : List Nat} (h : K.Perm (ys.map Int.ofNat)) : ∃ ys' : List Nat, ys'.Perm ys ∧ K = ys'.map Int.ofNat := by
  refine ⟨K.map Int.toNat, ?_, ?_⟩
  · have := h.map Int.toNat
    rw [List.map_map] at this
    have e1 : ys.map (Int.toNat ∘ Int.ofNat) = ys := by
      conv => rhs; rw [← List.map_id ys]
      exact List.map_congr_left fun x _ => rfl
    rwa [e1] at this
  · rw [List.map_map]
    conv => lhs; rw [← List.map_id K]
    refine List.map_congr_left fun x hx => ?_
    obtain ⟨r, _, rfl⟩ := List.mem_map.1 (h.subset hx)
    rfl

theorem exists_split {α : Type} {l : List α} {n : Nat} (h : n ≤ l.length) : ∃ x y, l = x ++ y ∧ x.length = n :=
  ⟨l.take n, l.drop n, (List.take_append_drop _ _).symm, by rw [List.length_take]; omega⟩

section
variable {e : SsText} {P : Nat → Nat} {m : Nat} {d : Nat}

theorem mergeUp_ok (X : Pos e P m) {curbuf cursize : Nat} {U : List Nat} (hU : Seg e P m d U) (hn : U.length < 2 ^ 31) : ∀ (rs : List (Option (List Nat))) (fuel c b : Nat) (l : List Nat) (A M J B : List Int),
    runsVal rs < fuel → 0 < c → RunsAt (key e P) c rs → l.length = c → Srt (key e P) l → (∀ x, x ∈ runsNum rs ++ l → x ∈ U) → (runsNum rs ++ l).length ≤ U.length →
    b = A.length + (runsNum rs).length → curbuf = b + c + M.length → J.length = cursize →
    ∃ (rs' : List (Option (List Nat))) (K : List Int), RunsAt (key e P) c rs' ∧ runsVal rs' = runsVal rs + 1 ∧ (runsNum rs').Perm (runsNum rs ++ l) ∧ K.Perm J ∧
      mergeUp e curbuf cursize d fuel b c (runsVal rs) (A ++ (runsMarks (key e P) rs ++ (marks (key e P) l ++ (M ++ (J ++ B))))) = .ok (A ++ (runsMarks (key e P) rs' ++ (M ++ (K ++ B))))
  | [], 0, _, _, _, _, _, _, _, hf, _, _, _, _, _, _, _, _, _ => by omega
  | [], fuel + 1, c, b, l, A, M, J, B, _, _, _, hl, hs, _, _, _, _, _ => by
    refine ⟨[some l], J, ⟨hl, hs, trivial⟩, rfl, .refl _, .refl _, ?_⟩
    unfold mergeUp
    rw [if_neg (by decide)]
    simp [runsMarks]
  | none :: rs, 0, _, _, _, _, _, _, _, hf, _, _, _, _, _, _, _, _, _ => by omega
  | none :: rs, fuel + 1, c, b, l, A, M, J, B, _, _, hr, hl, hs, _, _, _, _, _ => by
    refine ⟨some l :: rs, J, ⟨hl, hs, hr⟩, rfl, .refl _, .refl _, ?_⟩
    unfold mergeUp
    rw [if_neg (by rw [runsVal]; omega)]
    simp [runsMarks]
  | some l0 :: rs, 0, _, _, _, _, _, _, _, hf, _, _, _, _, _, _, _, _, _ => by omega
  | some l0 :: rs, fuel + 1, c, b, l, A, M, J, B, hf, hc, hr, hl, hs, hU', hle, hb, hcb, hJ => by
    obtain ⟨r1, r2, r3⟩ := hr
    simp only [runsVal, runsNum] at hf hU' hle hb
    rw [List.length_append] at hb
    simp only [List.length_append] at hle
    have hp := List.length_pos_iff.2 (fun h : l0 = [] => by rw [h, List.length_nil] at r1; omega)
    obtain ⟨l', K, g1, g2, g3, g4⟩ := ssSwapmerge_ok (buf := curbuf) (bufsize := cursize) X (first := b - c) (middle := b) (last := b + c) (l1 := l0) (l2 := l) (A := A ++ runsMarks (key e P) rs) (M := M) (J := J) (B := B)
      (List.append_ne_nil_of_left_ne_nil (List.length_pos_iff.1 hp) _) (hU.subset fun x hx => hU' x (by
        rw [List.append_assoc]
        exact List.mem_append_right _ hx)) r2 hs (by omega) (by rw [List.length_append, runsMarks_length]; omega) (by omega) (by omega) hcb hJ
    obtain ⟨rs', K', i1, i2, i3, i4, i5⟩ := mergeUp_ok (curbuf := curbuf) (cursize := cursize) X hU hn rs fuel (2 * c) (b - c) l' A M K B (by omega) (by omega) r3 (by rw [g1.length_eq, List.length_append]; omega) g2
      (fun x hx => hU' x (by
        rw [List.append_assoc]
        rcases List.mem_append.1 hx with h | h
        · exact List.mem_append_left _ h
        · exact List.mem_append_right _ (g1.subset h)))
      (by rw [List.length_append, g1.length_eq, List.length_append]; omega) (by omega) (by rw [hcb]; omega) (g3.length_eq.trans hJ)
    refine ⟨none :: rs', K', i1, ?_, ?_, i4.trans g3, ?_⟩
    · rw [runsVal, runsVal, i2]; omega
    · rw [runsNum, runsNum, List.append_assoc]
      exact i3.trans (g1.append_left _)
    · unfold mergeUp
      rw [if_pos (by rw [runsVal]; omega)]
      simp only [Bind.bind, Except.bind]
      have e1 : A ++ (runsMarks (key e P) (some l0 :: rs) ++ (marks (key e P) l ++ (M ++ (J ++ B)))) =
          (A ++ runsMarks (key e P) rs) ++ (marks (key e P) l0 ++ (marks (key e P) l ++ (M ++ (J ++ B)))) := by simp [runsMarks]
      rw [e1, g4]
      simp only []
      rw [show runsVal (some l0 :: rs) / 2 = runsVal rs by rw [runsVal]; omega, List.append_assoc]
      exact i5

theorem blockLoop_ok (X : Pos e P m) (hd : 0 < d) {middle last buf bufsize : Nat} {U : List Nat} (hU : Seg e P m d U) (hn : U.length < 2 ^ 31) (hml : middle ≤ last) :
    ∀ (fuel x : Nat) (rs : List (Option (List Nat))) (ws : List Nat) (A N J B : List Int), middle - x < fuel → x ≤ middle → RunsAt (key e P) 1024 rs → (∀ y, y ∈ runsNum rs ++ ws → y ∈ U) →
    (runsNum rs ++ ws).length ≤ U.length → x = A.length + (runsNum rs).length → last = x + ws.length → (middle < last → bufsize = last - middle) → (middle = last → buf = last + N.length ∧ J.length = bufsize) →
    ∃ (rs' : List (Option (List Nat))) (ws' : List Nat) (K : List Int) (x' : Nat), RunsAt (key e P) 1024 rs' ∧ (runsNum rs' ++ ws').Perm (runsNum rs ++ ws) ∧ K.Perm J ∧
      x' = A.length + (runsNum rs').length ∧ last = x' + ws'.length ∧ x' ≤ middle ∧ middle - x' ≤ 1024 ∧
      blockLoop e middle last buf bufsize d fuel x (runsVal rs) (A ++ (runsMarks (key e P) rs ++ (ws.map Int.ofNat ++ (N ++ (J ++ B))))) =
        .ok (x', runsVal rs', A ++ (runsMarks (key e P) rs' ++ (ws'.map Int.ofNat ++ (N ++ (K ++ B)))))
  | 0, _, _, _, _, _, _, _, hf, _, _, _, _, _, _, _, _ => by omega
  | fuel + 1, x, rs, ws, A, N, J, B, hf, hx, hr, hU', hle, hxA, hlast, hb1, hb2 => by
    unfold blockLoop
    by_cases hm : 1024 < middle - x
    · rw [if_pos hm]
      obtain ⟨w1, w2, hw, hw1⟩ := exists_split (l := ws) (n := 1024) (by omega)
      subst hw
      rw [List.length_append] at hlast
      have hRl := runsMarks_length (k := key e P) rs
      obtain ⟨o, ⟨l, p1, p2, p3⟩, h2⟩ := ssMintrosort_ok (A := A ++ runsMarks (key e P) rs) (B := w2.map Int.ofNat ++ (N ++ (J ++ B))) (first := x) (last := x + 1024) X hd
        (hU.subset fun y hy => hU' y (by simp [hy]) : Seg e P m d w1) (by omega) (by rw [List.length_append]; omega) (by omega)
      have e1 : A ++ (runsMarks (key e P) rs ++ ((w1 ++ w2).map Int.ofNat ++ (N ++ (J ++ B)))) = (A ++ runsMarks (key e P) rs) ++ (w1.map Int.ofNat ++ (w2.map Int.ofNat ++ (N ++ (J ++ B)))) := by simp
      simp only [Bind.bind, Except.bind]
      rw [e1, h2, p3]
      simp only []
      have hll : l.length = 1024 := by rw [p1.length_eq]; exact hw1
      have hlU : ∀ y, y ∈ runsNum rs ++ l → y ∈ U := fun y hy => hU' y (by
        rcases List.mem_append.1 hy with h | h
        · exact List.mem_append_left _ h
        · exact List.mem_append_right _ (List.mem_append_left _ (p1.subset h)))
      simp only [List.length_append] at hle
      by_cases ho : last - (x + 1024) ≤ bufsize
      · -- the buffer that was given
        have hme : middle = last := by
          by_cases h : middle < last
          · have := hb1 h; omega
          · omega
        obtain ⟨hb3, hb4⟩ := hb2 hme
        obtain ⟨rs', K, i1, i2, i3, i4, i5⟩ := mergeUp_ok (curbuf := buf) (cursize := bufsize) X hU hn rs (runsVal rs + 1) 1024 x l A (w2.map Int.ofNat ++ N) J B (by omega) (by omega) hr hll p2 hlU
          (by rw [List.length_append]; omega) hxA (by rw [List.length_append, List.length_map]; omega) hb4
        have hperm : (runsNum rs' ++ w2).Perm (runsNum rs ++ (w1 ++ w2)) := by
          rw [← List.append_assoc]
          exact (i3.trans (p1.append_left _)).append_right _
        obtain ⟨rs2, ws2, K2, x2, q1, q2, q3, q4, q5, q6, q7, q8⟩ := blockLoop_ok X hd (buf := buf) (bufsize := bufsize) hU hn hml fuel (x + 1024) rs' w2 A N K B (by omega) (by omega) i1
          (fun y hy => hU' y (hperm.subset hy)) (by rw [hperm.length_eq]; simp only [List.length_append]; omega)
          (by rw [i3.length_eq, List.length_append]; omega) (by omega) hb1 (fun h => ⟨hb3, i4.length_eq.trans hb4⟩)
        refine ⟨rs2, ws2, K2, x2, q1, q2.trans hperm, q3.trans i4, q4, q5, q6, q7, ?_⟩
        rw [decide_eq_true ho, if_pos rfl, if_pos rfl]
        have e2 : (A ++ runsMarks (key e P) rs) ++ (marks (key e P) l ++ (w2.map Int.ofNat ++ (N ++ (J ++ B)))) = A ++ (runsMarks (key e P) rs ++ (marks (key e P) l ++ ((w2.map Int.ofNat ++ N) ++ (J ++ B)))) := by simp
        rw [e2, i5]
        simp only []
        rw [← i2]
        have e3 : A ++ (runsMarks (key e P) rs' ++ ((w2.map Int.ofNat ++ N) ++ (K ++ B))) = A ++ (runsMarks (key e P) rs' ++ (w2.map Int.ofNat ++ (N ++ (K ++ B)))) := by simp
        rw [e3]
        exact q8
      · -- what is not sorted yet
        obtain ⟨rs', K, i1, i2, i3, i4, i5⟩ := mergeUp_ok (curbuf := x + 1024) (cursize := last - (x + 1024)) X hU hn rs (runsVal rs + 1) 1024 x l A [] (w2.map Int.ofNat) (N ++ (J ++ B)) (by omega) (by omega) hr hll p2 hlU
          (by rw [List.length_append]; omega) hxA rfl (by rw [List.length_map]; omega)
        obtain ⟨w3, k1, rfl⟩ := map_ofNat_perm i4
        have hperm : (runsNum rs' ++ w3).Perm (runsNum rs ++ (w1 ++ w2)) := by
          rw [← List.append_assoc]
          exact (i3.trans (p1.append_left _)).append k1
        obtain ⟨rs2, ws2, K2, x2, q1, q2, q3, q4, q5, q6, q7, q8⟩ := blockLoop_ok X hd (buf := buf) (bufsize := bufsize) hU hn hml fuel (x + 1024) rs' w3 A N J B (by omega) (by omega) i1
          (fun y hy => hU' y (hperm.subset hy)) (by rw [hperm.length_eq]; simp only [List.length_append]; omega)
          (by rw [i3.length_eq, List.length_append]; omega) (by rw [k1.length_eq]; omega) hb1 hb2
        refine ⟨rs2, ws2, K2, x2, q1, q2.trans hperm, q3, q4, q5, q6, q7, ?_⟩
        rw [decide_eq_false ho, if_neg (by decide), if_neg (by decide)]
        have e2 : (A ++ runsMarks (key e P) rs) ++ (marks (key e P) l ++ (w2.map Int.ofNat ++ (N ++ (J ++ B)))) =
          A ++ (runsMarks (key e P) rs ++ (marks (key e P) l ++ ([] ++ (w2.map Int.ofNat ++ (N ++ (J ++ B)))))) := by simp
        rw [e2, i5]
        simp only []
        rw [← i2]
        exact q8
    · rw [if_neg hm]
      exact ⟨rs, ws, J, x, hr, .refl _, .refl _, hxA, hlast, hx, by omega, rfl⟩

theorem mergeRest_ok (X : Pos e P m) {middle buf bufsize : Nat} {U : List Nat} (hU : Seg e P m d U) (hn : U.length < 2 ^ 31) : ∀ (rs : List (Option (List Nat))) (fuel c x : Nat) (l : List Nat) (A M J B : List Int),
    runsVal rs < fuel → 0 < c → RunsAt (key e P) c rs → Srt (key e P) l → (∀ y, y ∈ runsNum rs ++ l → y ∈ U) → (runsNum rs ++ l).length ≤ U.length →
    x = A.length + (runsNum rs).length → middle = x + l.length → buf = middle + M.length → J.length = bufsize →
    ∃ (l' : List Nat) (K : List Int), l'.Perm (runsNum rs ++ l) ∧ Srt (key e P) l' ∧ K.Perm J ∧
      mergeRest e middle buf bufsize d fuel x c (runsVal rs) (A ++ (runsMarks (key e P) rs ++ (marks (key e P) l ++ (M ++ (J ++ B))))) = .ok (A ++ (marks (key e P) l' ++ (M ++ (K ++ B))))
  | _, 0, _, _, _, _, _, _, _, hf, _, _, _, _, _, _, _, _, _ => by omega
  | [], fuel + 1, c, x, l, A, M, J, B, hf, hc, hr, hs, hU', hle, hx, hm, hb, hJ => by
    refine ⟨l, J, .refl _, hs, .refl _, ?_⟩
    unfold mergeRest
    rw [if_neg (by simp [runsVal])]
    rfl
  | none :: rs, fuel + 1, c, x, l, A, M, J, B, hf, hc, hr, hs, hU', hle, hx, hm, hb, hJ => by
    unfold mergeRest
    by_cases h0 : runsVal rs = 0
    · obtain ⟨z1, z2⟩ := runs_zero (k := key e P) rs h0
      rw [if_neg (by simp [runsVal, h0])]
      refine ⟨l, J, ?_, hs, .refl _, ?_⟩
      · rw [runsNum, z1]
        exact .refl _
      · rw [runsMarks, z2]
        rfl
    · rw [runsVal] at hf ⊢
      rw [if_pos (by omega), if_neg (by omega), show 2 * runsVal rs / 2 = runsVal rs by omega]
      exact mergeRest_ok (middle := middle) (buf := buf) (bufsize := bufsize) X hU hn rs fuel (2 * c) x l A M J B (by omega) (by omega) hr hs hU' hle hx hm hb hJ
  | some l0 :: rs, fuel + 1, c, x, l, A, M, J, B, hf, hc, hr, hs, hU', hle, hx, hm, hb, hJ => by
    obtain ⟨r1, r2, r3⟩ := hr
    simp only [runsVal, runsNum] at hf hU' hle hx
    rw [List.length_append] at hx
    simp only [List.length_append] at hle
    have hp := List.length_pos_iff.2 (fun h : l0 = [] => by rw [h, List.length_nil] at r1; omega)
    obtain ⟨l', K, g1, g2, g3, g4⟩ := ssSwapmerge_ok (buf := buf) (bufsize := bufsize) X (first := x - c) (middle := x) (last := middle) (l1 := l0) (l2 := l) (A := A ++ runsMarks (key e P) rs) (M := M) (J := J) (B := B)
      (List.append_ne_nil_of_left_ne_nil (List.length_pos_iff.1 hp) _) (hU.subset fun y hy => hU' y (by
        rw [List.append_assoc]
        exact List.mem_append_right _ hy)) r2 hs (by omega) (by rw [List.length_append, runsMarks_length]; omega) (by omega) hm hb hJ
    obtain ⟨l2, K', i1, i2, i3, i4⟩ := mergeRest_ok (middle := middle) (buf := buf) (bufsize := bufsize) X hU hn rs fuel (2 * c) (x - c) l' A M K B (by omega) (by omega) r3 g2
      (fun y hy => hU' y (by
        rw [List.append_assoc]
        rcases List.mem_append.1 hy with h | h
        · exact List.mem_append_left _ h
        · exact List.mem_append_right _ (g1.subset h)))
      (by rw [List.length_append, g1.length_eq, List.length_append]; omega) (by omega) (by rw [g1.length_eq, List.length_append]; omega) hb (g3.length_eq.trans hJ)
    refine ⟨l2, K', ?_, i2, i3.trans g3, ?_⟩
    · rw [runsNum, List.append_assoc]
      exact i1.trans (g1.append_left _)
    · unfold mergeRest
      rw [runsVal, if_pos (by omega), if_pos (by omega)]
      simp only [Bind.bind, Except.bind]
      have e1 : A ++ (runsMarks (key e P) (some l0 :: rs) ++ (marks (key e P) l ++ (M ++ (J ++ B)))) =
          (A ++ runsMarks (key e P) rs) ++ (marks (key e P) l0 ++ (marks (key e P) l ++ (M ++ (J ++ B)))) := by simp [runsMarks]
      rw [e1, g4]
      simp only []
      rw [show (2 * runsVal rs + 1) / 2 = runsVal rs by omega, List.append_assoc]
      exact i4

/-- One number is merged with nothing. -/
theorem inplace_one (X : Pos e P m) {first r : Nat} {A B : List Int} (hf : first = A.length) : ssInplacemerge e first first (first + 1) d (A ++ ((r : Int) :: B)) = .ok (A ++ (r : Int) :: B) := by
  unfold ssInplacemerge
  rw [show first + 1 - first = 0 + 1 by omega]
  simp only [inplaceLoop, Bind.bind, Except.bind]
  rw [Nat.add_sub_cancel, rd_mid hf]
  simp only []
  have hg : getIdx (A ++ (r : Int) :: B) first = .ok r := by
    unfold getIdx
    rw [rd_mid hf]
    simp only [Bind.bind, Except.bind]
    rw [if_pos (Int.natCast_nonneg r)]
    exact idx_nat r
  rw [hg]
  simp only [Nat.sub_self]
  unfold placeSearch
  rw [if_neg (by decide)]
  simp only [placeStep]
  rw [if_neg (by omega)]
  simp only []
  rw [if_neg (by omega)]
  unfold skipBackIf
  rw [if_neg (by
    rw [decide_eq_true_iff]
    omega)]
  simp only []
  rw [if_pos (by omega)]

/-- `sssort` without the last B* suffix. -/
theorem ssSortMain_ok (X : Pos e P m) (hd : 0 < d) {first last buf bufsize : Nat} {xs : List Nat} {A N J B : List Int} (hseg : Seg e P m d xs) (hn : xs.length < 2 ^ 31)
    (hf : first = A.length) (hl : last = first + xs.length) (hb : buf = last + N.length) (hJ : J.length = bufsize) :
    ∃ (l' : List Nat) (K : List Int), l'.Perm xs ∧ Srt (key e P) l' ∧ K.Perm J ∧
      ssSortMain e first last buf bufsize d (A ++ (xs.map Int.ofNat ++ (N ++ (J ++ B)))) = .ok (A ++ (marks (key e P) l' ++ (N ++ (K ++ B)))) := by
  obtain ⟨limit, hlim, hlim1, hlim2, hlim3⟩ := ssLimit_ok (last - first) bufsize
  unfold ssSortMain
  simp only [Bind.bind, Except.bind]
  rw [hlim]
  simp only []
  by_cases h0 : limit = 0
  · -- there is a buffer
    subst h0
    rw [if_pos rfl, if_pos rfl, Nat.sub_zero]
    obtain ⟨rs, ws, K, x, q1, q2, q3, q4, q5, q6, q7, q8⟩ := blockLoop_ok X hd (middle := last) (last := last) (buf := buf) (bufsize := bufsize) hseg hn (Nat.le_refl _) (last - first + 1) first [] xs A N J B (by omega) (by omega) trivial
      (fun y hy => hy) (Nat.le_refl _) hf hl (fun h => by omega) (fun _ => ⟨hb, hJ⟩)
    have e1 : A ++ (xs.map Int.ofNat ++ (N ++ (J ++ B))) = A ++ (runsMarks (key e P) [] ++ (xs.map Int.ofNat ++ (N ++ (J ++ B)))) := rfl
    have e2 : runsVal [] = 0 := rfl
    rw [e1, ← e2, q8]
    simp only []
    have hU' : ∀ y, y ∈ runsNum rs ++ ws → y ∈ xs := fun y hy => q2.subset hy
    obtain ⟨o, ⟨l, p1, p2, p3⟩, h2⟩ := ssMintrosort_ok (A := A ++ runsMarks (key e P) rs) (B := N ++ (K ++ B)) (first := x) (last := last) X hd
      (hseg.subset fun y hy => hU' y (List.mem_append_right _ hy) : Seg e P m d ws) (by omega) (by rw [List.length_append, runsMarks_length]; exact q4) q5
    rw [← List.append_assoc A, h2, p3]
    simp only []
    have hql := q2.length_eq
    simp only [List.length_append] at hql
    rw [show (runsNum []).length = 0 from rfl] at hql
    obtain ⟨l', K', i1, i2, i3, i4⟩ := mergeRest_ok X (middle := last) (buf := buf) (bufsize := bufsize) hseg hn rs (runsVal rs + 1) 1024 x l A N K B (by omega) (by omega) q1 p2
      (fun y hy => hU' y (by
        rcases List.mem_append.1 hy with h | h
        · exact List.mem_append_left _ h
        · exact List.mem_append_right _ (p1.subset h)))
      (by rw [List.length_append, p1.length_eq]; omega) q4 (by rw [p1.length_eq]; exact q5) hb (q3.length_eq.trans hJ)
    rw [List.append_assoc, i4]
    refine ⟨l', K', (i1.trans (p1.append_left _)).trans q2, i2, i3.trans q3, ?_⟩
    unfold mergeLimit
    simp only []
    rw [if_neg (fun h => h rfl)]
  · -- the last elements are the buffer
    rw [if_neg h0, if_neg h0]
    obtain ⟨rs, ws, K, x, q1, q2, q3, q4, q5, q6, q7, q8⟩ := blockLoop_ok X hd (middle := last - limit) (last := last) (buf := last - limit) (bufsize := limit) hseg hn (by omega) (last - first + 1) first [] xs A N J B (by omega) (by omega) trivial
      (fun y hy => hy) (Nat.le_refl _) hf hl (fun h => by omega) (fun h => by omega)
    have e1 : A ++ (xs.map Int.ofNat ++ (N ++ (J ++ B))) = A ++ (runsMarks (key e P) [] ++ (xs.map Int.ofNat ++ (N ++ (J ++ B)))) := rfl
    have e2 : runsVal [] = 0 := rfl
    rw [e1, ← e2, q8]
    simp only []
    obtain ⟨ys, zs, hw, hys⟩ := exists_split (l := ws) (n := last - limit - x) (by omega)
    subst hw
    rw [List.length_append] at q5
    have hU' : ∀ y, y ∈ runsNum rs ++ (ys ++ zs) → y ∈ xs := fun y hy => q2.subset hy
    obtain ⟨o, ⟨l, p1, p2, p3⟩, h2⟩ := ssMintrosort_ok (A := A ++ runsMarks (key e P) rs) (B := zs.map Int.ofNat ++ (N ++ (K ++ B))) (first := x) (last := last - limit) X hd
      (hseg.subset fun y hy => hU' y (by simp [hy]) : Seg e P m d ys) (by omega) (by rw [List.length_append, runsMarks_length]; exact q4) (by omega)
    have e3 : A ++ (runsMarks (key e P) rs ++ ((ys ++ zs).map Int.ofNat ++ (N ++ (K ++ B)))) = (A ++ runsMarks (key e P) rs) ++ (ys.map Int.ofNat ++ (zs.map Int.ofNat ++ (N ++ (K ++ B)))) := by simp
    rw [e3, h2, p3]
    simp only []
    have hql := q2.length_eq
    simp only [List.length_append] at hql
    rw [show (runsNum []).length = 0 from rfl] at hql
    obtain ⟨l1, K', i1, i2, i3, i4⟩ := mergeRest_ok X (middle := last - limit) (buf := last - limit) (bufsize := limit) hseg hn rs (runsVal rs + 1) 1024 x l A [] (zs.map Int.ofNat) (N ++ (K ++ B)) (by omega) (by omega) q1 p2
      (fun y hy => hU' y (by
        rcases List.mem_append.1 hy with h | h
        · exact List.mem_append_left _ h
        · exact List.mem_append_right _ (List.mem_append_left _ (p1.subset h))))
      (by rw [List.length_append, p1.length_eq]; omega) q4 (by rw [p1.length_eq]; omega) rfl (by rw [List.length_map]; omega)
    rw [List.append_assoc]
    rw [List.nil_append, List.nil_append] at i4
    rw [i4]
    simp only []
    obtain ⟨z2, k1, rfl⟩ := map_ofNat_perm i3
    have hl1 : l1.length + limit = xs.length ∧ zs.length = limit := by
      have := i1.length_eq
      rw [List.length_append, p1.length_eq] at this
      omega
    have hz2 := k1.length_eq
    have hlU : ∀ y, y ∈ l1 → y ∈ xs := fun y hy => hU' y (by
      rcases List.mem_append.1 (i1.subset hy) with h | h
      · exact List.mem_append_left _ h
      · exact List.mem_append_right _ (List.mem_append_left _ (p1.subset h)))
    have hzU : ∀ y, y ∈ z2 → y ∈ xs := fun y hy => hU' y (by simp [k1.subset hy])
    have hperm : (l1 ++ z2).Perm xs := by
      refine List.Perm.trans ?_ q2
      rw [← List.append_assoc]
      exact (i1.trans (p1.append_left _)).append k1
    unfold mergeLimit
    rw [if_pos h0]
    simp only [Bind.bind, Except.bind]
    obtain ⟨o2, ⟨l2, j1, j2, j3⟩, j4⟩ := ssMintrosort_ok (A := A ++ marks (key e P) l1) (B := N ++ (K ++ B)) (first := last - limit) (last := last) X hd
      (hseg.subset hzU : Seg e P m d z2) (by omega) (by rw [List.length_append, marks_length]; omega) (by omega)
    rw [← List.append_assoc A, j4, j3]
    simp only []
    have hl2 := j1.length_eq
    have hperm2 : (l1 ++ l2).Perm xs := (j1.append_left _).trans hperm
    by_cases hne : l1 = []
    · subst hne
      rw [List.length_nil] at hl1
      have hone : limit ≤ 1 := by omega
      match l2, hl2, hperm2, j2 with
      | [r], _, hp2, j2 =>
        refine ⟨[r], K, hp2, j2, q3, ?_⟩
        have := inplace_one (e := e) (P := P) (m := m) (d := d) (first := first) (r := r) (B := N ++ (K ++ B)) X hf
        rw [show last - limit = first by omega, show last = first + 1 by omega]
        simpa [marks, marksFrom] using this
      | [], h, _, _ => rw [List.length_nil] at h; omega
      | _ :: _ :: _, h, _, _ => rw [List.length_cons, List.length_cons] at h; omega
    · obtain ⟨l', t1, t2, t3⟩ := ssInplacemerge_ok (A := A) (B := N ++ (K ++ B)) (first := first) (middle := last - limit) (last := last) X hne (fun h => by rw [h, List.length_nil] at hl2; omega)
        (hseg.subset fun y hy => hperm2.subset hy) i2 j2 hf (by omega) (by omega)
      rw [List.append_assoc, t3]
      exact ⟨l', K, t1.trans hperm2, t2, q3, rfl⟩

end

end Dss
end Detools
