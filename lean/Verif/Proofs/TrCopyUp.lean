import Verif.Proofs.TrCopy
/-
trsort: the first loop of the copies, and the second of `tr_partialcopy`.
-/
namespace Detools
namespace Dss

namespace Tr
open Sais

/-- What a copy is given: `L` and `G` are in place, `M` is to be placed between them in the order
of the elements `D` after them. Without `part` each rank is an index. -/
structure Cp (n : Nat) (isa0 : List Nat) (sa0 : List Int) (f a b l D : Nat) (L M G : List Nat) (part : Bool) : Prop where
  len : isa0.length = n
  salen : sa0.length = n
  hL : f + L.length = a
  hM : a + M.length = b
  hG : b + G.length = l
  fit : l ≤ n
  nodup : (L ++ (M ++ G)).Nodup
  lt : ∀ y, y ∈ L ∨ y ∈ M ∨ y ∈ G → y < n
  cls : ∀ y, y < n → (y ∈ M ↔ a ≤ ch isa0 y ∧ ch isa0 y < b)
  rM : ∀ y, y ∈ M → ch isa0 y = b - 1
  next : ∀ y, y ∈ M → y + D ∈ L ∨ y + D ∈ M ∨ y + D ∈ G
  pos : 0 < D
  ne : M ≠ []
  atL : At sa0 f (L.map Int.ofNat)
  atG : At sa0 b (G.map Int.ofNat)
  rL : ∀ y, y ∈ L → f ≤ ch isa0 y ∧ ch isa0 y < a
  rG : ∀ y, y ∈ G → b ≤ ch isa0 y ∧ ch isa0 y < l
  blkL : Blk isa0 f L
  blkG : Blk isa0 b G
  inj : part = false → (∀ i y, L[i]? = some y → ch isa0 y = f + i) ∧ ∀ i y, G[i]? = some y → ch isa0 y = b + i

/-- During the first loop `k` elements have been looked at, and `S` has been placed, the newest
first. -/
structure Up (n : Nat) (isa0 : List Nat) (sa0 : List Int) (f a b D : Nat) (L M : List Nat) (part : Bool) (k : Nat) (S : List Nat) (s : CopySt) : Prop where
  sub : ∀ y, y ∈ S → y ∈ M
  nodup : S.Nodup
  scan : S.reverse.map (· + D) = ((L ++ S.reverse).take k).filter (pM M D)
  arr : At s.sa f ((L ++ S.reverse).map Int.ofNat)
  upd : Upd sa0 s.sa a b
  len : s.isa.length = n
  out : ∀ y, y ∉ S → ch s.isa y = ch isa0 y
  grp : Grp (fun y => ch s.isa (y + D)) (ch s.isa) (fun i => a + i) S
  inj : part = false → ∀ i y, (L ++ S.reverse)[i]? = some y → ch s.isa y = f + i
  last : part = true → Last D s S

variable {n : Nat} {isa0 : List Nat} {sa0 : List Int} {f a b l D : Nat} {L M G : List Nat} {part : Bool}

theorem nodup_lt_idx {X : List Nat} (h : X.Nodup) {i j y : Nat} (hi : X[i]? = some y) (hj : X[j]? = some y) : i = j := by
  obtain ⟨i1, i2⟩ := List.getElem?_eq_some_iff.1 hi
  obtain ⟨j1, j2⟩ := List.getElem?_eq_some_iff.1 hj
  exact (List.getElem_inj h).1 (i2.trans j2.symm)

theorem Cp.disjoint (K : Cp n isa0 sa0 f a b l D L M G part) : (∀ y, y ∈ L → y ∉ M) ∧ (∀ y, y ∈ L → y ∉ G) ∧ (∀ y, y ∈ M → y ∉ G) ∧ L.Nodup ∧ M.Nodup ∧ G.Nodup := by
  have h := K.nodup
  rw [List.nodup_append] at h
  obtain ⟨h1, h2, h3⟩ := h
  rw [List.nodup_append] at h2
  exact ⟨fun y hy hy' => h3 y hy y (List.mem_append_left _ hy') rfl, fun y hy hy' => h3 y hy y (List.mem_append_right _ hy') rfl, fun y hy hy' => h2.2.2 y hy y hy' rfl, h1, h2.1, h2.2.1⟩

theorem Up.nodupZ (K : Cp n isa0 sa0 f a b l D L M G part) {k : Nat} {S : List Nat} {s : CopySt} (u : Up n isa0 sa0 f a b D L M part k S s) : (L ++ S.reverse).Nodup := by
  rw [List.nodup_append]
  refine ⟨K.disjoint.2.2.2.1, (List.reverse_perm S).nodup_iff.2 u.nodup, fun y hy y' hy' he => ?_⟩
  subst he
  exact K.disjoint.1 y hy (u.sub y (List.mem_reverse.1 hy'))

theorem Up.seen {k : Nat} {S : List Nat} {s : CopySt} (u : Up n isa0 sa0 f a b D L M part k S s) {y : Nat} (hy : y ∈ S) : y + D ∈ (L ++ S.reverse).take k := by
  have : y + D ∈ S.reverse.map (· + D) := List.mem_map.2 ⟨y, List.mem_reverse.2 hy, rfl⟩
  rw [u.scan] at this
  exact (List.mem_filter.1 this).1

/-- The elements of the next index. -/
theorem Up.fresh (K : Cp n isa0 sa0 f a b l D L M G part) {k z : Nat} {S : List Nat} {s : CopySt} (u : Up n isa0 sa0 f a b D L M part k S s) (hz : (L ++ S.reverse)[k]? = some z) (hD : D ≤ z) : z - D ∉ S := by
  intro hS
  have h1 := u.seen hS
  rw [show z - D + D = z by omega] at h1
  obtain ⟨i, hi⟩ := List.getElem?_of_mem h1
  rw [List.getElem?_take] at hi
  split at hi
  · have := nodup_lt_idx (u.nodupZ K) hi hz
    omega
  · cases hi

theorem Up.ltZ (K : Cp n isa0 sa0 f a b l D L M G part) {k z : Nat} {S : List Nat} {s : CopySt} (u : Up n isa0 sa0 f a b D L M part k S s) (hz : z ∈ L ++ S.reverse) : z < n := by
  rcases List.mem_append.1 hz with h | h
  · exact K.lt z (.inl h)
  · exact K.lt z (.inr (.inl (u.sub z (List.mem_reverse.1 h))))

theorem Cp.test (K : Cp n isa0 sa0 f a b l D L M G part) {y : Nat} (hy : y < n) : ch isa0 y = b - 1 ↔ y ∈ M := by
  have h1 := List.length_pos_iff.2 K.ne
  have h2 := K.hM
  constructor
  · intro h
    exact (K.cls y hy).2 (by omega)
  · exact K.rM y

theorem Up.test (K : Cp n isa0 sa0 f a b l D L M G part) {k z : Nat} {S : List Nat} {s : CopySt} (u : Up n isa0 sa0 f a b D L M part k S s) (hz : (L ++ S.reverse)[k]? = some z) :
    copyTest D (b - 1) (f + k) s = .ok (if pM M D z then some (z - D) else none) := by
  have hzn := u.ltZ K (List.mem_of_getElem? hz)
  have hk := (List.getElem?_eq_some_iff.1 hz).1
  have h1 := u.arr k (by simpa using hk)
  rw [List.getElem?_map, hz] at h1
  refine copyTest_ok h1 (by rw [u.len]; exact hzn) fun hD => ?_
  rw [u.out _ (u.fresh K hz hD)]
  exact K.test (by omega)

theorem Up.skip {k z : Nat} {S : List Nat} {s : CopySt} (u : Up n isa0 sa0 f a b D L M part k S s) (hz : (L ++ S.reverse)[k]? = some z) (hp : pM M D z = false) : Up n isa0 sa0 f a b D L M part (k + 1) S s := by
  refine { u with scan := ?_ }
  rw [u.scan, List.take_add_one, hz, List.filter_append]
  simp [hp]

theorem Up.room (K : Cp n isa0 sa0 f a b l D L M G part) {k r : Nat} {S : List Nat} {s : CopySt} (u : Up n isa0 sa0 f a b D L M part k S s) (h1 : r ∈ M) (h2 : r ∉ S) : S.length < M.length := by
  have := List.Nodup.length_le_of_subset (l₁ := r :: S) (l₂ := M) (List.nodup_cons.2 ⟨h2, u.nodup⟩) (fun y hy => by
    rcases List.mem_cons.1 hy with rfl | hy
    · exact h1
    · exact u.sub y hy)
  simp at this
  omega

theorem Up.put (K : Cp n isa0 sa0 f a b l D L M G part) {k z : Nat} {S : List Nat} {s : CopySt} (u : Up n isa0 sa0 f a b D L M part k S s) (hz : (L ++ S.reverse)[k]? = some z) (hp : pM M D z = true) :
    ∃ s', copyPut part D (a + S.length) (z - D) s = .ok s' ∧ Up n isa0 sa0 f a b D L M part (k + 1) ((z - D) :: S) s' := by
  obtain ⟨hD, hM⟩ : D ≤ z ∧ z - D ∈ M := of_decide_eq_true hp
  have hfr := u.fresh K hz hD
  have hroom := u.room K hM hfr
  have hzn := u.ltZ K (List.mem_of_getElem? hz)
  have hk := (List.getElem?_eq_some_iff.1 hz).1
  have hsal := u.upd.1.trans K.salen
  have h1 := K.hM
  have h2 := K.hG
  have h3 := K.fit
  have h4 := K.hL
  have h5 := u.len
  have hpos := K.pos
  have hrL : ∀ y, y ∈ S → y + D ≠ z - D := by
    intro y hy he
    have := List.mem_of_mem_take (u.seen hy)
    rw [he] at this
    rcases List.mem_append.1 this with h | h
    · exact K.disjoint.1 _ h hM
    · exact hfr (List.mem_reverse.1 h)
  obtain ⟨s', p1, p2, p3, p4⟩ := copyPut_ok (part := part) (D := D) (r := z - D) (j := a + S.length) (s := s) (l := S) (by omega) (by omega) u.last (by
    intro hpart x hx
    have hxS : x ∈ S := List.mem_of_head? hx
    obtain ⟨i, hi⟩ := List.getElem?_of_mem (u.seen hxS)
    rw [List.getElem?_take] at hi
    split at hi
    · have i1 := u.inj hpart i _ hi
      have i2 := u.inj hpart k _ hz
      rw [show z - D + D = z by omega]
      omega
    · cases hi)
  refine ⟨s', p1, ?_⟩
  have hin : z - D < s.isa.length := by omega
  have e0 : L ++ ((z - D) :: S).reverse = (L ++ S.reverse) ++ [z - D] := by simp
  have hj : f + (L ++ S.reverse).length = a + S.length := by simp; omega
  have hset : Upd s.sa s'.sa (a + S.length) (a + S.length + 1) := by
    rw [p2]
    refine ⟨by simp, fun p hp => ?_⟩
    rw [List.getElem?_set_ne (by omega)]
  refine ⟨?_, List.nodup_cons.2 ⟨hfr, u.nodup⟩, ?_, ?_, u.upd.trans (hset.mono (by omega) (by omega)), by rw [p3]; simpa using u.len, ?_, ?_, ?_, ?_⟩
  · intro y hy
    rcases List.mem_cons.1 hy with rfl | hy
    · exact hM
    · exact u.sub y hy
  · rw [e0, List.take_append_of_le_length (by omega), List.take_add_one, hz, List.filter_append, ← u.scan]
    simp [hp]
    omega
  · rw [e0, List.map_append, at_append]
    refine ⟨hset.at u.arr (by simp; omega), ?_⟩
    rw [List.length_map, hj]
    intro i hi
    simp at hi
    subst hi
    rw [p2, Nat.add_zero, List.getElem?_set_self (by omega)]
    rfl
  · intro y hy
    rw [p3, ch_set y hin, if_neg (fun e => hy (by rw [e]; simp))]
    exact u.out y fun h => hy (List.mem_cons_of_mem _ h)
  · rw [p3]
    exact u.grp.put hin rfl hpos hfr hrL
  · intro hpart i y hi
    rw [e0] at hi
    rw [p3, ch_set y hin]
    by_cases hl : i < (L ++ S.reverse).length
    · rw [List.getElem?_append_left hl] at hi
      have hne : y ≠ z - D := by
        intro e
        subst e
        rcases List.mem_append.1 (List.mem_of_getElem? hi) with h | h
        · exact K.disjoint.1 _ h hM
        · exact hfr (List.mem_reverse.1 h)
      rw [if_neg hne]
      exact u.inj hpart i y hi
    · rw [List.getElem?_append_right (by omega)] at hi
      have h6 := (List.getElem?_eq_some_iff.1 hi).1
      simp only [List.length_singleton] at h6
      rw [show i - (L ++ S.reverse).length = 0 by omega] at hi
      injection hi with hi
      rw [if_pos hi.symm]
      -- a rank of its own
      cases S with
      | nil => simp only [rankFor]; omega
      | cons x S =>
        simp only [rankFor]
        rw [if_neg]
        · omega
        · obtain ⟨q, hq⟩ := List.getElem?_of_mem (u.seen (y := x) (by simp))
          rw [List.getElem?_take] at hq
          split at hq
          · have i1 := u.inj hpart q _ hq
            have i2 := u.inj hpart k _ hz
            rw [show z - D + D = z by omega]
            omega
          · cases hq
  · intro hpart
    exact Last.put hin hpos p3 (p4 hpart)

theorem copyUp_ok (K : Cp n isa0 sa0 f a b l D L M G part) : ∀ (fuel k : Nat) (S : List Nat) (s : CopySt), Up n isa0 sa0 f a b D L M part k S s → k ≤ L.length + S.length → L.length + M.length < fuel + k →
    ∃ S' s', copyUp part D (b - 1) fuel (f + k) (a + S.length) s = .ok (a + S'.length, s') ∧ Up n isa0 sa0 f a b D L M part (L.length + S'.length) S' s'
  | 0, k, S, s, u, hk, hf => by
    have := List.Nodup.length_le_of_subset u.nodup u.sub
    omega
  | fuel + 1, k, S, s, u, hk, hf => by
    have hL := K.hL
    simp only [copyUp, Bind.bind, Except.bind]
    by_cases hc : f + k < a + S.length
    · rw [if_pos hc]
      have hkl : k < (L ++ S.reverse).length := by simp; omega
      have hz : (L ++ S.reverse)[k]? = some (L ++ S.reverse)[k] := List.getElem?_eq_getElem hkl
      generalize (L ++ S.reverse)[k] = z at hz
      rw [u.test K hz]
      simp only []
      cases hp : pM M D z with
      | true =>
        obtain ⟨s', p1, u'⟩ := u.put K hz hp
        simp only [if_true]
        rw [p1]
        simp only []
        obtain ⟨S2, s2, g1, g2⟩ := copyUp_ok K fuel (k + 1) ((z - D) :: S) s' u' (by simp; omega) (by omega)
        exact ⟨S2, s2, g1, g2⟩
      | false =>
        simp only [Bool.false_eq_true, if_false]
        exact copyUp_ok K fuel (k + 1) S s (u.skip hz hp) (by omega) (by omega)
    · rw [if_neg hc]
      rw [show k = L.length + S.length by omega] at u
      exact ⟨S, s, rfl, u⟩

/-! ### The second loop of `tr_partialcopy` -/

/-- The ranks become the last place of each group. -/
theorem copyFix_ok {isa1 : List Nat} (Z : List Nat) (hnd : Z.Nodup) (hlt : ∀ y, y ∈ Z → y < n) (hlen : isa1.length = n) {e : Nat} (he : e = f + Z.length) : ∀ (todo : Nat) (P Q : List Nat) (s : CopySt),
    Z = P ++ Q → P.length = todo → At s.sa f (Z.map Int.ofNat) → s.isa.length = n → (∀ y, y ∉ Q → ch s.isa y = ch isa1 y) → Grp (ch isa1) (ch s.isa) (fun i => e - 1 - i) Q →
    (Q = [] → s.lastrank = none) → (∀ u, Q.head? = some u → s.lastrank = some (ch isa1 u) ∧ s.newrank = ch s.isa u) →
    ∃ s', copyFix f todo s = .ok s' ∧ s'.sa = s.sa ∧ s'.isa.length = n ∧ (∀ y, y ∉ Z → ch s'.isa y = ch isa1 y) ∧ Grp (ch isa1) (ch s'.isa) (fun i => e - 1 - i) Z
  | 0, P, Q, s, hZ, hP, _, h2, h3, h4, _, _ => by
    have : P = [] := List.length_eq_zero_iff.1 hP
    subst this
    rw [List.nil_append] at hZ
    subst hZ
    exact ⟨s, rfl, rfl, h2, h3, h4⟩
  | todo + 1, P, Q, s, hZ, hP, h1, h2, h3, h4, h5, h6 => by
    obtain ⟨P', r, rfl⟩ : ∃ P' r, P = P' ++ [r] := by
      rcases List.eq_nil_or_concat P with h | ⟨P', r, h⟩
      · rw [h] at hP; cases hP
      · exact ⟨P', r, by rw [h, List.concat_eq_append]⟩
    have hP' : P'.length = todo := by simpa using hP
    have hrZ : r ∈ Z := by rw [hZ]; simp
    have hrn := hlt r hrZ
    have hrQ : r ∉ Q := by
      rw [hZ, List.nodup_append] at hnd
      exact fun h => hnd.2.2 r (by simp) r h rfl
    have hr : s.sa[f + todo]? = some (r : Int) := by
      have := h1 todo (by rw [hZ]; simp; omega)
      rw [this, hZ, List.getElem?_map, List.append_assoc, List.getElem?_append_right (by omega), hP', Nat.sub_self]
      rfl
    simp only [copyFix, Bind.bind, Except.bind]
    rw [getNo_ok hr]
    simp only []
    have hisa : ch s.isa r = ch isa1 r := h3 r hrQ
    rw [rd_ch (by omega)]
    simp only []
    -- the rank
    have hzl := congrArg List.length hZ
    simp only [List.length_append, List.length_singleton] at hzl
    obtain ⟨v, hv0, hv, s1, n1, n2, n3, n4, n5⟩ : ∃ v, (Q = [] → v = f + todo) ∧ (∀ u, Q.head? = some u → v = if ch isa1 r = ch isa1 u then ch s.isa u else f + todo) ∧
        ∃ s1, nextRank r (f + todo) s = .ok s1 ∧ s1.sa = s.sa ∧ s1.isa = s.isa ∧ s1.lastrank = some (ch isa1 r) ∧ s1.newrank = v := by
      unfold nextRank
      simp only [Bind.bind, Except.bind]
      rw [rd_ch (by omega)]
      simp only []
      rw [hisa]
      cases hQ : Q with
      | nil =>
        rw [if_neg (by rw [h5 hQ]; exact fun h => by cases h)]
        exact ⟨f + todo, fun _ => rfl, (fun _ h => by cases h), _, rfl, rfl, rfl, rfl, rfl⟩
      | cons u Q' =>
        obtain ⟨k1, k2⟩ := h6 u (by rw [hQ]; rfl)
        by_cases hk : ch isa1 r = ch isa1 u
        · rw [if_pos (by rw [k1, hk])]
          refine ⟨ch s.isa u, (fun h => by cases h), fun u' h => ?_, _, rfl, rfl, rfl, by rw [k1, hk], k2⟩
          injection h with h
          rw [← h, if_pos hk]
        · rw [if_neg (by rw [k1]; intro h; injection h with h; exact hk h.symm)]
          refine ⟨f + todo, (fun h => by cases h), fun u' h => ?_, _, rfl, rfl, rfl, rfl, rfl⟩
          injection h with h
          rw [← h, if_neg hk]
    rw [n1]
    simp only []
    -- what is to follow
    have follow : ∀ isa2 : List Nat, isa2.length = n → (∀ y, ch isa2 y = if y = r then v else ch s.isa y) →
        ∃ s', copyFix f todo { s1 with isa := isa2 } = .ok s' ∧ s'.sa = s.sa ∧ s'.isa.length = n ∧ (∀ y, y ∉ Z → ch s'.isa y = ch isa1 y) ∧ Grp (ch isa1) (ch s'.isa) (fun i => e - 1 - i) Z := by
      intro isa2 hl2 hv2
      have a1 : ∀ y, y ∉ r :: Q → ch isa2 y = ch isa1 y := by
        intro y hy
        rw [hv2 y, if_neg (fun h => hy (by rw [h]; simp))]
        exact h3 y fun h => hy (List.mem_cons_of_mem _ h)
      have a2 : Grp (ch isa1) (ch isa2) (fun i => e - 1 - i) (r :: Q) := by
        have hold := h4.congr (κ' := ch isa1) (r' := ch isa2) (fun y hy => ⟨rfl, by rw [hv2 y, if_neg (fun h => hrQ (by rw [← h]; exact hy))]⟩)
        cases Q with
        | nil =>
          show ch isa2 r = e - 1 - 0
          rw [hv2 r, if_pos rfl, hv0 rfl]
          simp only [List.length_nil] at hzl
          omega
        | cons u Q =>
          refine ⟨?_, hold⟩
          have a0 : ch isa2 u = ch s.isa u := by rw [hv2 u, if_neg (fun h => hrQ (by rw [← h]; simp))]
          rw [hv2 r, if_pos rfl, a0, hv u rfl]
          simp only [List.length_cons] at hzl
          rw [show f + todo = e - 1 - (Q.length + 1) by omega]
      have a3 : ∀ u, (r :: Q).head? = some u → s1.lastrank = some (ch isa1 u) ∧ s1.newrank = ch isa2 u := by
        intro u hu
        injection hu with hu
        subst hu
        refine ⟨n4, ?_⟩
        rw [hv2 r, if_pos rfl]
        exact n5
      obtain ⟨s', g1, g2, g3⟩ := copyFix_ok Z hnd hlt hlen he todo P' (r :: Q) { s1 with isa := isa2 } (by rw [hZ]; simp) hP' (by show At s1.sa _ _; rw [n2]; exact h1) hl2 a1 a2 (fun h => by cases h) a3
      exact ⟨s', g1, by rw [g2]; exact n2, g3⟩
    subst n5
    by_cases hne : s1.newrank ≠ ch s.isa r
    · rw [if_pos hne, wr_ok _ (by rw [n3]; omega)]
      simp only []
      rw [n3]
      exact follow _ (by simpa using h2) (fun y => ch_set y (by omega))
    · rw [if_neg hne]
      have := follow s1.isa (by rw [n3]; exact h2) (fun y => by
        rw [n3]
        split
        · rename_i h
          rw [h]
          simp only [ne_eq, Decidable.not_not] at hne
          exact hne.symm
        · rfl)
      exact this

end Tr

end Dss
end Detools
