import Verif.Proofs.TrCopyUp
/-
trsort: the last loop of the copies.
-/
namespace Detools
namespace Dss

namespace Tr
open Sais

/-- What the first loop leaves to the last one. -/
structure Mid (n : Nat) (isa0 isa2 : List Nat) (sa2 : List Int) (a b D : Nat) (L M G S : List Nat) : Prop where
  sub : ∀ y, y ∈ S → y ∈ M
  nodup : S.Nodup
  seen : ∀ y, y ∈ S → y + D ∈ L ∨ y + D ∈ S
  all : ∀ z, z ∈ L ∨ z ∈ S → D ≤ z → z - D ∈ M → z - D ∈ S
  len : isa2.length = n
  salen : sa2.length = n
  atG : At sa2 b (G.map Int.ofNat)
  out : ∀ y, y ∉ S → ch isa2 y = ch isa0 y
  rS : ∀ y, y ∈ S → a ≤ ch isa2 y ∧ ch isa2 y < a + S.length

/-- During the last loop `T` has been placed, the newest first, and everything from `c` on has
been looked at. -/
structure Dn (n : Nat) (isa2 : List Nat) (sa2 : List Int) (a b D : Nat) (M G S : List Nat) (part : Bool) (c : Nat) (T : List Nat) (s : CopySt) : Prop where
  sub : ∀ y, y ∈ T → y ∈ M
  nodup : T.Nodup
  disj : ∀ y, y ∈ T → y ∉ S
  scan : T.map (· + D) = ((T ++ G).drop (c - (b - T.length))).filter (pM M D)
  arr : At s.sa (b - T.length) ((T ++ G).map Int.ofNat)
  upd : Upd sa2 s.sa (a + S.length) b
  len : s.isa.length = n
  out : ∀ y, y ∉ T → ch s.isa y = ch isa2 y
  grp : Grp (fun y => ch s.isa (y + D)) (ch s.isa) (fun i => b - 1 - i) T
  inj : part = false → ∀ i y, (T ++ G)[i]? = some y → ch s.isa y = b - T.length + i
  last : part = true → Last D s T

variable {n : Nat} {isa0 isa2 : List Nat} {sa0 sa2 : List Int} {f a b l D : Nat} {L M G S : List Nat} {part : Bool}

theorem Dn.room (m : Mid n isa0 isa2 sa2 a b D L M G S) {c : Nat} {T : List Nat} {s : CopySt} (u : Dn n isa2 sa2 a b D M G S part c T s) : S.length + T.length ≤ M.length := by
  have := List.Nodup.length_le_of_subset (l₁ := S ++ T) (l₂ := M) (by
    rw [List.nodup_append]
    exact ⟨m.nodup, u.nodup, fun y hy y' hy' he => u.disj y' hy' (he ▸ hy)⟩) (fun y hy => by
    rcases List.mem_append.1 hy with hy | hy
    · exact m.sub y hy
    · exact u.sub y hy)
  simpa using this

theorem Dn.seen {c : Nat} {T : List Nat} {s : CopySt} (u : Dn n isa2 sa2 a b D M G S part c T s) {y : Nat} (hy : y ∈ T) : y + D ∈ (T ++ G).drop (c - (b - T.length)) := by
  have : y + D ∈ T.map (· + D) := List.mem_map.2 ⟨y, hy, rfl⟩
  rw [u.scan] at this
  exact (List.mem_filter.1 this).1

theorem Dn.nodupY (K : Cp n isa0 sa0 f a b l D L M G part) {c : Nat} {T : List Nat} {s : CopySt} (u : Dn n isa2 sa2 a b D M G S part c T s) : (T ++ G).Nodup := by
  rw [List.nodup_append]
  refine ⟨u.nodup, K.disjoint.2.2.2.2.2, fun y hy y' hy' he => ?_⟩
  subst he
  exact K.disjoint.2.2.1 y (u.sub y hy) hy'

theorem Dn.ltY (K : Cp n isa0 sa0 f a b l D L M G part) {c z : Nat} {T : List Nat} {s : CopySt} (u : Dn n isa2 sa2 a b D M G S part c T s) (hz : z ∈ T ++ G) : z < n := by
  rcases List.mem_append.1 hz with h | h
  · exact K.lt z (.inr (.inl (u.sub z h)))
  · exact K.lt z (.inr (.inr h))

/-- What is placed above is not below. -/
theorem Dn.above (K : Cp n isa0 sa0 f a b l D L M G part) (m : Mid n isa0 isa2 sa2 a b D L M G S) {c z : Nat} {T : List Nat} {s : CopySt} (u : Dn n isa2 sa2 a b D M G S part c T s)
    (hz : z ∈ T ++ G) (hD : D ≤ z) : z - D ∉ S := by
  intro hS
  have h1 := m.seen _ hS
  rw [show z - D + D = z by omega] at h1
  rcases List.mem_append.1 hz with h | h
  · rcases h1 with h1 | h1
    · exact K.disjoint.1 z h1 (u.sub z h)
    · exact u.disj z h h1
  · rcases h1 with h1 | h1
    · exact K.disjoint.2.1 z h1 h
    · exact K.disjoint.2.2.1 z (m.sub z h1) h

theorem Dn.fresh (K : Cp n isa0 sa0 f a b l D L M G part) {q c z : Nat} {T : List Nat} {s : CopySt} (u : Dn n isa2 sa2 a b D M G S part c T s) (hq : q < c - (b - T.length)) (hz : (T ++ G)[q]? = some z) (hD : D ≤ z) : z - D ∉ T := by
  intro hT
  have h1 := u.seen hT
  rw [show z - D + D = z by omega] at h1
  obtain ⟨i, hi⟩ := List.getElem?_of_mem h1
  rw [List.getElem?_drop] at hi
  have := nodup_lt_idx (u.nodupY K) hi hz
  omega

theorem Dn.test (K : Cp n isa0 sa0 f a b l D L M G part) (m : Mid n isa0 isa2 sa2 a b D L M G S) {q c z : Nat} {T : List Nat} {s : CopySt} (u : Dn n isa2 sa2 a b D M G S part c T s) (hq : q < c - (b - T.length)) (hz : (T ++ G)[q]? = some z) :
    copyTest D (b - 1) (b - T.length + q) s = .ok (if pM M D z then some (z - D) else none) := by
  have hzm := List.mem_of_getElem? hz
  have hzn := u.ltY K hzm
  have hk := (List.getElem?_eq_some_iff.1 hz).1
  have h1 := u.arr q (by simpa using hk)
  rw [List.getElem?_map, hz] at h1
  refine copyTest_ok h1 (by rw [u.len]; exact hzn) fun hD => ?_
  rw [u.out _ (u.fresh K hq hz hD), m.out _ (u.above K m hzm hD)]
  exact K.test (by omega)

theorem Dn.skip {q c z : Nat} {T : List Nat} {s : CopySt} (u : Dn n isa2 sa2 a b D M G S part (c + 1) T s) (hq : b - T.length + q = c) (hz : (T ++ G)[q]? = some z) (hp : pM M D z = false) : Dn n isa2 sa2 a b D M G S part c T s := by
  refine { u with scan := ?_ }
  rw [u.scan]
  obtain ⟨h1, h2⟩ := List.getElem?_eq_some_iff.1 hz
  rw [show c - (b - T.length) = q by omega, show c + 1 - (b - T.length) = q + 1 by omega, List.drop_eq_getElem_cons h1, h2, List.filter_cons, hp]
  rfl

theorem Dn.put (K : Cp n isa0 sa0 f a b l D L M G part) (m : Mid n isa0 isa2 sa2 a b D L M G S) {q c z : Nat} {T : List Nat} {s : CopySt} (u : Dn n isa2 sa2 a b D M G S part (c + 1) T s)
    (hq : b - T.length + q = c) (hz : (T ++ G)[q]? = some z) (hp : pM M D z = true) (he : a + S.length < b - T.length) :
    ∃ s', copyPut part D (b - T.length - 1) (z - D) s = .ok s' ∧ Dn n isa2 sa2 a b D M G S part c ((z - D) :: T) s' := by
  obtain ⟨hD, hM⟩ : D ≤ z ∧ z - D ∈ M := of_decide_eq_true hp
  have hzm := List.mem_of_getElem? hz
  have hfr := u.fresh K (q := q) (by omega) hz hD
  have hab := u.above K m hzm hD
  have hzn := u.ltY K hzm
  have hsal := u.upd.1.trans m.salen
  have h1 := K.hM
  have h2 := K.hG
  have h3 := K.fit
  have h4 := K.hL
  have h5 := u.len
  have hpos := K.pos
  have hrL : ∀ y, y ∈ T → y + D ≠ z - D := by
    intro y hy he
    have := List.mem_of_mem_drop (u.seen hy)
    rw [he] at this
    rcases List.mem_append.1 this with h | h
    · exact hfr h
    · exact K.disjoint.2.2.1 _ hM h
  have hne : part = false → ∀ x, x ∈ T → ch s.isa (x + D) ≠ ch s.isa (z - D + D) := by
    intro hpart x hxS
    obtain ⟨i, hi⟩ := List.getElem?_of_mem (u.seen hxS)
    rw [List.getElem?_drop] at hi
    have i1 := u.inj hpart _ _ hi
    have i2 := u.inj hpart q _ hz
    rw [show z - D + D = z by omega]
    omega
  obtain ⟨s', p1, p2, p3, p4⟩ := copyPut_ok (part := part) (D := D) (r := z - D) (j := b - T.length - 1) (s := s) (l := T) (by omega) (by omega) u.last (fun hpart x hx => (hne hpart x (List.mem_of_head? hx)).symm)
  refine ⟨s', p1, ?_⟩
  have hin : z - D < s.isa.length := by omega
  have hset : Upd s.sa s'.sa (b - T.length - 1) (b - T.length) := by
    rw [p2]
    refine ⟨by simp, fun p hp => ?_⟩
    rw [List.getElem?_set_ne (by omega)]
  have hl : b - ((z - D) :: T).length = b - T.length - 1 := by simp; omega
  refine ⟨?_, List.nodup_cons.2 ⟨hfr, u.nodup⟩, ?_, ?_, ?_, u.upd.trans (hset.mono (by omega) (by omega)), by rw [p3]; simpa using u.len, ?_, ?_, ?_, ?_⟩
  · intro y hy
    rcases List.mem_cons.1 hy with rfl | hy
    · exact hM
    · exact u.sub y hy
  · intro y hy
    rcases List.mem_cons.1 hy with rfl | hy
    · exact hab
    · exact u.disj y hy
  · obtain ⟨g1, g2⟩ := List.getElem?_eq_some_iff.1 hz
    rw [hl, List.map_cons, u.scan, show c - (b - T.length - 1) = q + 1 by omega, List.cons_append, List.drop_succ_cons, List.drop_eq_getElem_cons g1, g2, List.filter_cons, hp, show c + 1 - (b - T.length) = q + 1 by omega, show z - D + D = z by omega]
    rfl
  · rw [hl, List.cons_append, List.map_cons, show ∀ (x : Int) t, x :: t = [x] ++ t from fun _ _ => rfl, at_append]
    refine ⟨?_, ?_⟩
    · intro i hi
      simp at hi
      subst hi
      rw [p2, Nat.add_zero, List.getElem?_set_self (by omega)]
      rfl
    · rw [show b - T.length - 1 + [Int.ofNat (z - D)].length = b - T.length by simp; omega]
      have := u.arr
      intro i hi
      rw [hset.2 _ (by omega)]
      exact this i hi
  · intro y hy
    rw [p3, ch_set y hin, if_neg (fun e => hy (by rw [e]; simp))]
    exact u.out y fun h => hy (List.mem_cons_of_mem _ h)
  · rw [p3]
    exact u.grp.put hin (by omega) hpos hfr hrL
  · intro hpart i y hi
    rw [p3, ch_set y hin, hl]
    cases i with
    | zero =>
      injection hi with hi
      rw [if_pos hi.symm]
      cases T with
      | nil => simp only [rankFor]; omega
      | cons x T =>
        simp only [rankFor]
        rw [if_neg]
        · omega
        · exact fun h => hne hpart x (by simp) h.symm
    | succ i =>
      have hi : (T ++ G)[i]? = some y := hi
      have hne : y ≠ z - D := by
        intro e
        subst e
        rcases List.mem_append.1 (List.mem_of_getElem? hi) with h | h
        · exact hfr h
        · exact K.disjoint.2.2.1 _ hM h
      rw [if_neg hne, u.inj hpart i y hi]
      omega
  · intro hpart
    exact Last.put hin hpos p3 (p4 hpart)

/-- Once everything above has been looked at, nothing is left. -/
theorem Dn.full (K : Cp n isa0 sa0 f a b l D L M G part) (m : Mid n isa0 isa2 sa2 a b D L M G S) {c : Nat} {T : List Nat} {s : CopySt} (u : Dn n isa2 sa2 a b D M G S part c T s) (hc : c ≤ b - T.length) :
    ∀ (k y : Nat), y ∈ M → n ≤ y + k → y ∈ S ∨ y ∈ T
  | 0, y, hy, hk => by
    have := K.lt y (.inr (.inl hy))
    omega
  | k + 1, y, hy, hk => by
    have hpos := K.pos
    have e1 : y + D - D = y := by omega
    have up : y + D ∈ T ++ G → y ∈ S ∨ y ∈ T := by
      intro h
      have : y + D ∈ ((T ++ G).drop (c - (b - T.length))).filter (pM M D) := by
        rw [show c - (b - T.length) = 0 by omega, List.drop_zero]
        refine List.mem_filter.2 ⟨h, decide_eq_true ⟨by omega, by rw [e1]; exact hy⟩⟩
      rw [← u.scan] at this
      obtain ⟨y', h1, h2⟩ := List.mem_map.1 this
      rw [show y' = y by omega] at h1
      exact .inr h1
    have dn : y + D ∈ L ∨ y + D ∈ S → y ∈ S ∨ y ∈ T := by
      intro h
      have := m.all _ h (by omega) (by rw [e1]; exact hy)
      rw [e1] at this
      exact .inl this
    rcases K.next y hy with h | h | h
    · exact dn (.inl h)
    · rcases Dn.full K m u hc k _ h (by omega) with h' | h'
      · exact dn (.inr h')
      · exact up (List.mem_append_left _ h')
    · exact up (List.mem_append_right _ h)

theorem copyDown_ok (K : Cp n isa0 sa0 f a b l D L M G part) (m : Mid n isa0 isa2 sa2 a b D L M G S) : ∀ (c : Nat) (T : List Nat) (s : CopySt), Dn n isa2 sa2 a b D M G S part c T s → c ≤ l →
    ∃ T' s' c', copyDown part D (b - 1) (a + S.length) c (b - T.length) s = .ok s' ∧ Dn n isa2 sa2 a b D M G S part c' T' s' ∧ S.length + T'.length = M.length := by
  intro c
  have hMb := K.hM
  have hGl := K.hG
  -- while there is something left
  have more : ∀ (c : Nat) (T : List Nat) (s : CopySt), Dn n isa2 sa2 a b D M G S part c T s → a + S.length < b - T.length → b - T.length < c := by
    intro c T s u he
    refine Classical.byContradiction fun hc => ?_
    have hf := u.full K m (by omega) n
    have := List.Nodup.length_le_of_subset (l₁ := M) (l₂ := S ++ T) K.disjoint.2.2.2.2.1 (fun y hy => by
      rcases hf y hy (by omega) with h | h
      · exact List.mem_append_left _ h
      · exact List.mem_append_right _ h)
    simp at this
    omega
  induction c with
  | zero =>
    intro T s u _
    have hr := u.room m
    simp only [copyDown]
    by_cases he : a + S.length < b - T.length
    · have := more 0 T s u he
      omega
    · rw [if_neg he]
      exact ⟨T, s, 0, rfl, u, by omega⟩
  | succ c ih =>
    intro T s u hcl
    have hr := u.room m
    simp only [copyDown, Bind.bind, Except.bind]
    by_cases he : a + S.length < b - T.length
    · rw [if_pos he]
      have hm := more (c + 1) T s u he
      have hql : c - (b - T.length) < (T ++ G).length := by simp; omega
      have hz : (T ++ G)[c - (b - T.length)]? = some (T ++ G)[c - (b - T.length)] := List.getElem?_eq_getElem hql
      generalize (T ++ G)[c - (b - T.length)] = z at hz
      have ht := u.test K m (q := c - (b - T.length)) (by omega) hz
      rw [show b - T.length + (c - (b - T.length)) = c by omega] at ht
      rw [ht]
      simp only []
      cases hp : pM M D z with
      | true =>
        obtain ⟨s', p1, u'⟩ := u.put K m (by omega) hz hp he
        simp only [if_true]
        rw [p1]
        simp only []
        have := ih ((z - D) :: T) s' u' (by omega)
        rw [show b - ((z - D) :: T).length = b - T.length - 1 by simp; omega] at this
        exact this
      | false =>
        simp only [Bool.false_eq_true, if_false]
        exact ih T s (u.skip (by omega) hz hp) (by omega)
    · rw [if_neg he]
      exact ⟨T, s, c + 1, rfl, u, by omega⟩

end Tr

end Dss
end Detools
