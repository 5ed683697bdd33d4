import Verif.Proofs.SsIns
/-
sssort: the substrings that end.
-/
namespace Detools
namespace Dss
open Sais

section
variable {e : SsText} {P : Nat → Nat} {m : Nat}

/-- The character at depth `d` is the last of the substring. -/
def Ends (P : Nat → Nat) (d r : Nat) : Prop := P r + d ≥ P (r + 1) + 1

theorem endsAt_mid (X : Pos e P m) {A B : List Int} {r i d : Nat} (hr : r + 1 < m) (hi : i = A.length) :
    endsAt e d (A ++ (r : Int) :: B) i = .ok (decide (P r + d ≥ P (r + 1) + 1)) := by
  unfold endsAt
  rw [getNo_mid hi]
  simp only [Bind.bind, Except.bind]
  rw [X.pos (by omega), X.pos hr]

theorem partUp_ok (X : Pos e P m) {d : Nat} : ∀ (xs : List Nat) (A B : List Int) (i : Nat), (∀ r, r ∈ xs → r + 1 < m) → i = A.length →
    ∃ p q, xs = p ++ q ∧ (∀ r, r ∈ p → Ends P d r) ∧ (∀ r, q.head? = some r → ¬ Ends P d r) ∧
      partUp e d xs.length i (A ++ (xs.map Int.ofNat ++ B)) = .ok (i + p.length, A ++ (p.map (fun r : Nat => inv r) ++ (q.map Int.ofNat ++ B)))
  | [], A, B, i, hm, hi => ⟨[], [], rfl, fun _ h => (by cases h), fun _ h => (by cases h), rfl⟩
  | r :: xs, A, B, i, hm, hi => by
    have hr := hm r (List.mem_cons_self ..)
    by_cases h : P r + d ≥ P (r + 1) + 1
    · obtain ⟨p, q, h1, h2, h3, h4⟩ := partUp_ok X xs (A ++ [inv (r : Int)]) B (i + 1) (fun s hs => hm s (List.mem_cons_of_mem _ hs)) (by simp [hi])
      refine ⟨r :: p, q, by rw [h1]; rfl, fun s hs => ?_, h3, ?_⟩
      · rcases List.mem_cons.1 hs with rfl | hs
        · exact h
        · exact h2 s hs
      · show partUp e d (xs.length + 1) i (A ++ (r : Int) :: (xs.map Int.ofNat ++ B)) = _
        unfold partUp
        rw [endsAt_mid X hr hi]
        simp only [Bind.bind, Except.bind]
        rw [if_pos (by simp [h]), rd_mid hi]
        simp only []
        rw [wr_mid hi]
        simp only []
        have e1 : A ++ inv (r : Int) :: (xs.map Int.ofNat ++ B) = (A ++ [inv (r : Int)]) ++ (xs.map Int.ofNat ++ B) := by simp
        rw [e1, h4]
        simp
        omega
    · refine ⟨[], r :: xs, rfl, fun _ h => (by cases h), fun s hs => ?_, ?_⟩
      · injection hs with hs
        subst hs
        exact h
      · show partUp e d (xs.length + 1) i (A ++ (r : Int) :: (xs.map Int.ofNat ++ B)) = _
        unfold partUp
        rw [endsAt_mid X hr hi]
        simp only [Bind.bind, Except.bind]
        rw [if_neg (by simp [h])]
        rfl

theorem partDown_ok (X : Pos e P m) {d : Nat} {A : List Int} : ∀ (n : Nat) (xs : List Nat) (B : List Int) (i : Nat), xs.length = n → (∀ r, r ∈ xs → r + 1 < m) →
    i + 1 = A.length + xs.length → 0 < A.length →
    ((∀ r, r ∈ xs → ¬ Ends P d r) ∧ partDown e d (A ++ (xs.map Int.ofNat ++ B)) xs.length i = .ok (A.length - 1)) ∨
    ∃ p x q, xs = p ++ x :: q ∧ Ends P d x ∧ (∀ r, r ∈ q → ¬ Ends P d r) ∧ partDown e d (A ++ (xs.map Int.ofNat ++ B)) xs.length i = .ok (A.length + p.length)
  | 0, xs, B, i, hn, hm, hi, hA => by
    have : xs = [] := List.length_eq_zero_iff.1 hn
    subst this
    refine .inl ⟨fun _ h => (by cases h), ?_⟩
    show Except.ok i = _
    simp at hi
    rw [← hi]
    rfl
  | n + 1, xs, B, i, hn, hm, hi, hA => by
    obtain ⟨ys, v, rfl⟩ : ∃ ys v, xs = ys ++ [v] := ⟨xs.dropLast, xs.getLast (by intro h; rw [h] at hn; cases hn), (List.dropLast_concat_getLast _).symm⟩
    have hn' : ys.length = n := by simpa using hn
    have hv := hm v (by simp)
    have e1 : A ++ ((ys ++ [v]).map Int.ofNat ++ B) = (A ++ ys.map Int.ofNat) ++ (v : Int) :: B := by simp
    have hlen : (ys ++ [v]).length = n + 1 := hn
    rw [hlen] at hi ⊢
    by_cases h : P v + d ≥ P (v + 1) + 1
    · refine .inr ⟨ys, v, [], rfl, h, fun _ h => (by cases h), ?_⟩
      unfold partDown
      rw [e1, endsAt_mid X hv (by simp; omega)]
      simp only [Bind.bind, Except.bind]
      rw [if_pos (by simp [h])]
      congr 1
      omega
    · have hstep : partDown e d (A ++ ((ys ++ [v]).map Int.ofNat ++ B)) (n + 1) i = partDown e d (A ++ (ys.map Int.ofNat ++ (v : Int) :: B)) n (i - 1) := by
        conv => lhs; unfold partDown
        rw [e1, endsAt_mid X hv (by simp; omega)]
        simp only [Bind.bind, Except.bind]
        rw [if_neg (by simp [h]), List.append_assoc]
      rw [hstep, ← hn']
      rcases partDown_ok X n ys ((v : Int) :: B) (i - 1) hn' (fun r hr => hm r (by simp [hr])) (by omega) hA with ⟨h1, h2⟩ | ⟨p, x, q, h1, h2, h3, h4⟩
      · refine .inl ⟨fun r hr => ?_, h2⟩
        rcases List.mem_append.1 hr with hr | hr
        · exact h1 r hr
        · rw [List.mem_singleton.1 hr]; exact h
      · refine .inr ⟨p, x, q ++ [v], by rw [h1]; simp, h2, fun r hr => ?_, h4⟩
        rcases List.mem_append.1 hr with hr | hr
        · exact h3 r hr
        · rw [List.mem_singleton.1 hr]; exact h

theorem partLoop_ok (X : Pos e P m) {d : Nat} : ∀ (fuel : Nat) (xs : List Nat) (A B : List Int) (i b : Nat), xs.length < fuel → (∀ r, r ∈ xs → r + 1 < m) → i = A.length →
    b = i + xs.length →
    ∃ E L : List Nat, (E ++ L).Perm xs ∧ (∀ r, r ∈ E → Ends P d r) ∧ (∀ r, r ∈ L → ¬ Ends P d r) ∧
      partLoop e d fuel i b (A ++ (xs.map Int.ofNat ++ B)) = .ok (i + E.length, A ++ (E.map (fun r : Nat => inv r) ++ (L.map Int.ofNat ++ B)))
  | 0, _, _, _, _, _, hf, _, _, _ => absurd hf (by omega)
  | fuel + 1, xs, A, B, i, b, hf, hm, hi, hb => by
    obtain ⟨p, q, h1, h2, h3, h4⟩ := partUp_ok X (d := d) xs A B i hm hi
    unfold partLoop
    rw [show b - i = xs.length by omega, h4]
    simp only [Bind.bind, Except.bind]
    cases q with
    | nil =>
      rw [List.append_nil] at h1
      subst h1
      rw [show b - 1 - (i + xs.length) = 0 by omega]
      refine ⟨xs, [], by rw [List.append_nil], h2, fun _ h => (by cases h), ?_⟩
      unfold partDown
      simp only []
      rw [if_pos (by omega)]
    | cons h q =>
      have hh := h3 h rfl
      have hlen : xs.length = p.length + (q.length + 1) := by rw [h1, List.length_append, List.length_cons]
      have e1 : A ++ (p.map (fun r : Nat => inv r) ++ ((h :: q).map Int.ofNat ++ B)) = (A ++ (p.map (fun r : Nat => inv r) ++ [(h : Int)])) ++ (q.map Int.ofNat ++ B) := by simp
      have hAl : (A ++ (p.map (fun r : Nat => inv r) ++ [(h : Int)])).length = i + p.length + 1 := by simp; omega
      rw [e1, show b - 1 - (i + p.length) = q.length by omega]
      rcases partDown_ok X (d := d) (A := A ++ (p.map (fun r : Nat => inv r) ++ [(h : Int)])) q.length q B (b - 1) rfl (fun r hr => hm r (by rw [h1]; simp [hr])) (by omega) (by omega)
        with ⟨g1, g2⟩ | ⟨u, x, w, g1, g2, g3, g4⟩
      · rw [g2]
        simp only []
        rw [if_pos (by omega)]
        refine ⟨p, h :: q, by rw [h1], h2, fun r hr => ?_, by simp⟩
        rcases List.mem_cons.1 hr with rfl | hr
        · exact hh
        · exact g1 r hr
      · rw [g4]
        simp only []
        rw [if_neg (by omega)]
        have e2 : (A ++ (p.map (fun r : Nat => inv r) ++ [(h : Int)])) ++ (q.map Int.ofNat ++ B) =
            (A ++ (p.map (fun r : Nat => inv r) ++ ((h : Int) :: u.map Int.ofNat))) ++ (x : Int) :: (w.map Int.ofNat ++ B) := by rw [g1]; simp
        have hU : (A ++ (p.map (fun r : Nat => inv r) ++ ((h : Int) :: u.map Int.ofNat))).length = i + p.length + 1 + u.length := by simp; omega
        rw [e2, rd_mid (by omega)]
        simp only []
        have e3 : (A ++ (p.map (fun r : Nat => inv r) ++ ((h : Int) :: u.map Int.ofNat))) ++ (x : Int) :: (w.map Int.ofNat ++ B) =
            (A ++ p.map (fun r : Nat => inv r)) ++ (h : Int) :: (u.map Int.ofNat ++ (x : Int) :: (w.map Int.ofNat ++ B)) := by simp
        have hV : (A ++ p.map (fun r : Nat => inv r)).length = i + p.length := by simp; omega
        rw [e3, rd_mid (by omega), ← e3]
        simp only []
        rw [wr_mid (by omega)]
        simp only []
        have e4 : (A ++ (p.map (fun r : Nat => inv r) ++ ((h : Int) :: u.map Int.ofNat))) ++ (h : Int) :: (w.map Int.ofNat ++ B) =
            (A ++ p.map (fun r : Nat => inv r)) ++ (h : Int) :: (u.map Int.ofNat ++ (h : Int) :: (w.map Int.ofNat ++ B)) := by simp
        rw [e4, wr_mid (by omega)]
        simp only []
        have e5 : (A ++ p.map (fun r : Nat => inv r)) ++ inv (x : Int) :: (u.map Int.ofNat ++ (h : Int) :: (w.map Int.ofNat ++ B)) =
            (A ++ (p.map (fun r : Nat => inv r) ++ [inv (x : Int)])) ++ (u.map Int.ofNat ++ ((h :: w).map Int.ofNat ++ B)) := by simp
        have hq : q.length = u.length + (w.length + 1) := by rw [g1, List.length_append, List.length_cons]
        obtain ⟨E, L, k1, k2, k3, k4⟩ := partLoop_ok X (d := d) fuel u (A ++ (p.map (fun r : Nat => inv r) ++ [inv (x : Int)])) ((h :: w).map Int.ofNat ++ B) (i + p.length + 1)
          ((A ++ (p.map (fun r : Nat => inv r) ++ [(h : Int)])).length + u.length) (by omega) (fun r hr => hm r (by rw [h1, g1]; simp [hr])) (by simp; omega) (by omega)
        rw [e5, k4]
        refine ⟨p ++ x :: E, L ++ h :: w, ?_, fun r hr => ?_, fun r hr => ?_, ?_⟩
        · rw [h1, g1]
          have hp1 : (p ++ x :: E ++ (L ++ h :: w)).Perm (p ++ x :: ((E ++ L) ++ h :: w)) := by
            rw [show p ++ x :: E ++ (L ++ h :: w) = p ++ x :: ((E ++ L) ++ h :: w) by simp]
          refine hp1.trans (List.Perm.append_left p ?_)
          refine ((k1.append_right (h :: w)).cons x).trans ?_
          refine (List.perm_middle.cons x).trans ?_
          refine (List.Perm.swap h x _).trans ?_
          exact (List.perm_middle.symm).cons h
        · rcases List.mem_append.1 hr with hr | hr
          · exact h2 r hr
          · rcases List.mem_cons.1 hr with rfl | hr
            · exact g2
            · exact k2 r hr
        · rcases List.mem_append.1 hr with hr | hr
          · exact k3 r hr
          · rcases List.mem_cons.1 hr with rfl | hr
            · exact hh
            · exact g3 r hr
        · simp
          omega

/-- What `ss_partition` leaves for the numbers whose substring ends. -/
def grp : List Nat → List Int
  | [] => []
  | r :: E => (r : Int) :: E.map fun s : Nat => inv s

theorem ssPartition_ok (X : Pos e P m) {d first last : Nat} {xs : List Nat} {A B : List Int} (hm : ∀ r, r ∈ xs → r + 1 < m) (hf : first = A.length) (hl : last = first + xs.length) :
    ∃ E L : List Nat, (E ++ L).Perm xs ∧ (∀ r, r ∈ E → Ends P d r) ∧ (∀ r, r ∈ L → ¬ Ends P d r) ∧
      ssPartition e d first last (A ++ (xs.map Int.ofNat ++ B)) = .ok (first + E.length, A ++ (grp E ++ (L.map Int.ofNat ++ B))) := by
  obtain ⟨E, L, h1, h2, h3, h4⟩ := partLoop_ok X (d := d) (last - first + 1) xs A B first last (by omega) hm hf hl
  refine ⟨E, L, h1, h2, h3, ?_⟩
  unfold ssPartition
  rw [h4]
  simp only [Bind.bind, Except.bind]
  cases E with
  | nil =>
    rw [decide_eq_false (by simp), invIf_false]
    rfl
  | cons r E =>
    rw [decide_eq_true (by simp)]
    have e1 : A ++ ((r :: E).map (fun r : Nat => inv r) ++ (L.map Int.ofNat ++ B)) = A ++ inv (r : Int) :: (E.map (fun r : Nat => inv r) ++ (L.map Int.ofNat ++ B)) := by simp
    rw [e1, invIf_true hf, inv_inv]
    simp [grp]

theorem take_succ_get {a b : List Nat} {d c : Nat} (h : a.take d = b.take d) (ha : a[d]? = some c) (hb : b[d]? = some c) : a.take (d + 1) = b.take (d + 1) := by
  rw [List.take_add_one, List.take_add_one, h, ha, hb]

theorem lex_prefix {a b : List Nat} (n : Nat) (h : a.take n = b.take n) (ha : a.length = n) (hb : n < b.length) : Lex a b := by
  rw [← List.take_append_drop n b, ← h, List.take_of_length_le (by omega)]
  have : Lex [] (b.drop n) := by
    rw [List.drop_eq_getElem_cons hb]
    exact trivial
  conv => lhs; rw [← List.append_nil a]
  exact lex_append_left a this

/-- What is left of a segment in which the first characters are the same. -/
theorem partIf_ok (X : Pos e P m) {d first last v u : Nat} {xs : List Nat} {A B : List Int} (hd : 0 < d) (hseg : Seg e P m d xs) (hv : ∀ r, r ∈ xs → ch e.t (P r + d) = v)
    (hu : ∀ r, r ∈ xs → ch e.t (P r + (d - 1)) = u) (hf : first = A.length) (hl : last = first + xs.length) :
    ∃ (E L : List Nat) (o : List Int), (E ++ L).Perm xs ∧ Sorted (key e P) E o ∧ Seg e P m (d + 1) L ∧ (∀ p, p ∈ E → ∀ q, q ∈ L → Lex (key e P p) (key e P q)) ∧
      partIf (decide (u < v)) e d first last (A ++ (xs.map Int.ofNat ++ B)) = .ok (first + E.length, A ++ (o ++ (L.map Int.ofNat ++ B))) := by
  have hsame : ∀ r s, r ∈ xs → s ∈ xs → (key e P r).take (d + 1) = (key e P s).take (d + 1) := fun r s hr hs =>
    take_succ_get (hseg.same r s hr hs) (X.key_get (hseg.below r hr) (hseg.long r hr)) (by rw [X.key_get (hseg.below s hs) (hseg.long s hs), hv r hr, hv s hs])
  unfold partIf
  by_cases huv : u < v
  · rw [if_pos (by simp [huv])]
    obtain ⟨E, L, h1, h2, h3, h4⟩ := ssPartition_ok X (d := d) (A := A) (B := B) hseg.below hf hl
    have hE : ∀ r, r ∈ E → r ∈ xs := fun r hr => h1.subset (List.mem_append_left _ hr)
    have hL : ∀ r, r ∈ L → r ∈ xs := fun r hr => h1.subset (List.mem_append_right _ hr)
    have hEl : ∀ r, r ∈ E → (key e P r).length = d + 1 := fun r hr => by
      have k1 := h2 r hr
      have k2 := hseg.long r (hE r hr)
      rw [X.length (hseg.below r (hE r hr))]
      unfold Ends at k1
      unfold kl at *
      omega
    have hLl : ∀ r, r ∈ L → d + 1 < kl P r := fun r hr => by
      have k1 := h3 r hr
      have k2 := hseg.long r (hL r hr)
      unfold Ends at k1
      unfold kl at *
      omega
    refine ⟨E, L, grp E, h1, ?_, ⟨fun r hr => hseg.below r (hL r hr), hLl, fun r s hr hs => hsame r s (hL r hr) (hL s hs)⟩, fun p hp q hq => ?_, h4⟩
    · cases E with
      | nil => exact Sorted.nil
      | cons r E =>
        refine Sorted.group fun q hq => ?_
        have := hsame q r (hE q (List.mem_cons_of_mem _ hq)) (hE r (List.mem_cons_self ..))
        rw [List.take_of_length_le (by rw [hEl q (List.mem_cons_of_mem _ hq)]; omega), List.take_of_length_le (by rw [hEl r (List.mem_cons_self ..)]; omega)] at this
        exact this
    · exact lex_prefix (d + 1) (hsame p q (hE p hp) (hL q hq)) (hEl p hp) (by rw [X.length (hseg.below q (hL q hq))]; exact hLl q hq)
  · rw [if_neg (by simp [huv])]
    refine ⟨[], xs, [], .refl _, Sorted.nil, ⟨hseg.below, fun r hr => ?_, hsame⟩, fun p hp => (by cases hp), by simp⟩
    have k1 := hseg.long r hr
    have k2 := X.up (r + 1) (hseg.below r hr)
    have k3 := hv r hr
    have k4 := hu r hr
    have k5 := X.next r (hseg.below r hr)
    unfold kl at *
    rcases Nat.lt_or_ge (d + 1) (P (r + 1) + 2 - P r) with k | k
    · exact k
    · exfalso
      rw [show P r + d = P (r + 1) + 1 by omega] at k3
      rw [show P r + (d - 1) = P (r + 1) by omega] at k4
      omega

end

end Dss
end Detools
