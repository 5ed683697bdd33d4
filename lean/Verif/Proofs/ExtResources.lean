import Verif.Spec.ExtResources
/-
Proofs for C65.
-/
namespace Detools.Ext

/-- The objects of `m_create_patch`: the list and its items. -/
def listObjs (ds : List Bytes) : List (Option Obj) := some ⟨1, List.range' 1 ds.length, []⟩ :: ds.map (fun d => some ⟨1, [], d⟩)

theorem listObjs_length (ds : List Bytes) : (listObjs ds).length = ds.length + 1 := by simp [listObjs]

/-- All but the objects. -/
def SameRest (s s' : State) : Prop := s'.views = s.views ∧ s'.blocks = s.blocks ∧ s'.files = s.files

theorem appendBytes_ok (A : Luck) (s : State) (ds : List Bytes) (d : Bytes) (h : s.objs = listObjs ds) :
    ∃ ok s', appendBytes A s 0 d = .ok (ok, s') ∧ SameRest s s' ∧
      ((ok = true ∧ s'.objs = listObjs (ds ++ [d]) ∧ s'.raised = s.raised) ∨
        (ok = false ∧ s'.raised = true ∧ (s'.objs = listObjs ds ∨ s'.objs = listObjs ds ++ [none]) ∧ ∃ n, A n = false)) := by
  have hl : (listObjs ds)[(listObjs ds).length]? = none := by simp
  have g0 : ∀ x, (listObjs ds ++ [x])[0]? = some (some ⟨1, List.range' 1 ds.length, []⟩) := fun x => by simp [listObjs]
  have g1 : ∀ x, (listObjs ds ++ [x])[ds.length + 1]? = some x := fun x => by
    rw [List.getElem?_append_right (by rw [listObjs_length]; omega), listObjs_length]; simp
  unfold appendBytes new call
  cases h0 : A s.calls with
  | false => exact ⟨false, _, rfl, ⟨rfl, rfl, rfl⟩, .inr ⟨rfl, by simp, .inl h, s.calls, h0⟩⟩
  | true =>
    simp only [h, listObjs_length, append, get, g0, g1, Bind.bind, Except.bind, call]
    cases h1 : A (s.calls + 1) with
    | false =>
      simp only [decref, get, g1, Bind.bind, Except.bind]
      rw [if_neg (by decide)]
      simp only [dropAll]
      refine ⟨false, _, rfl, ⟨rfl, rfl, rfl⟩, .inr ⟨rfl, by simp, .inr ?_, _, h1⟩⟩
      simp only
      rw [List.set_append_right _ _ (by rw [listObjs_length]; omega), listObjs_length]
      simp
    | true =>
      have g2 : ∀ x y, ((listObjs ds ++ [some x]).set 0 y).set (ds.length + 1) (some { x with refs := x.refs + 1 }) =
          y :: (ds.map (fun d => some (⟨1, [], d⟩ : Obj)) ++ [some { x with refs := x.refs + 1 }]) := fun x y => by
        simp only [listObjs, List.cons_append, List.set_cons_zero, List.set_cons_succ]
        rw [List.set_append_right _ _ (by simp)]
        simp
      simp only [g2, decref, get, Bind.bind, Except.bind]
      have g3 : ∀ (y x : Option Obj), (y :: (ds.map (fun d => some (⟨1, [], d⟩ : Obj)) ++ [x]))[ds.length + 1]? = some x := fun y x => by
        rw [List.getElem?_cons_succ, List.getElem?_append_right (by simp)]; simp
      rw [g3]
      simp only
      rw [if_pos (by decide)]
      refine ⟨true, _, rfl, ⟨rfl, rfl, rfl⟩, .inl ⟨rfl, ?_, by simp⟩⟩
      simp only [listObjs, List.set_cons_succ, List.map_append, List.length_append, List.length_singleton]
      rw [List.set_append_right _ _ (by simp)]
      simp [List.range'_concat, Nat.add_comm]

theorem appendAll_ok (A : Luck) : ∀ (cs : List Bytes) (s : State) (ds : List Bytes), s.objs = listObjs ds →
    ∃ ok s', appendAll A 0 cs s = .ok (ok, s') ∧ SameRest s s' ∧
      ((ok = true ∧ s'.objs = listObjs (ds ++ cs) ∧ s'.raised = s.raised) ∨
        (ok = false ∧ s'.raised = true ∧ (∃ ds', s'.objs = listObjs ds' ∨ s'.objs = listObjs ds' ++ [none]) ∧ ∃ n, A n = false))
  | [], s, ds, h => ⟨true, s, rfl, ⟨rfl, rfl, rfl⟩, .inl ⟨rfl, by rw [List.append_nil]; exact h, rfl⟩⟩
  | c :: cs, s, ds, h => by
    obtain ⟨ok, s1, k1, k2, k3⟩ := appendBytes_ok A s ds c h
    rcases k3 with ⟨rfl, m1, m2⟩ | ⟨rfl, m1, m2, m3⟩
    · obtain ⟨ok, s2, n1, n2, n3⟩ := appendAll_ok A cs s1 (ds ++ [c]) m1
      refine ⟨ok, s2, by simp only [appendAll, k1, Bind.bind, Except.bind, n1, if_true], ⟨n2.1.trans k2.1, n2.2.1.trans k2.2.1, n2.2.2.trans k2.2.2⟩, ?_⟩
      rcases n3 with ⟨e, p1, p2⟩ | p
      · exact .inl ⟨e, by rw [p1, List.append_assoc]; rfl, p2.trans m2⟩
      · exact .inr p
    · exact ⟨false, s1, by simp [appendAll, k1, Bind.bind, Except.bind], k2, .inr ⟨rfl, m1, ⟨ds, m2⟩, m3⟩⟩

theorem dropAll_ok : ∀ (ds : List Bytes) (pre t : List (Option Obj)),
    dropAll (List.range' pre.length ds.length) (pre ++ ds.map (fun d => some ⟨1, [], d⟩) ++ t) =
      .ok (pre ++ List.replicate ds.length none ++ t)
  | [], pre, t => by simp [dropAll]
  | d :: ds, pre, t => by
    have ih := dropAll_ok ds (pre ++ [none]) t
    rw [List.length_append, List.length_singleton] at ih
    simp only [List.length_cons, List.range'_succ, dropAll, drop, Bind.bind, Except.bind, List.map_cons]
    rw [show (pre ++ (some ⟨1, [], d⟩ :: ds.map (fun d => some (⟨1, [], d⟩ : Obj))) ++ t)[pre.length]? = some (some ⟨1, [], d⟩) by simp]
    simp only
    rw [if_neg (by decide)]
    rw [List.append_assoc, List.set_append_right _ _ (Nat.le_refl _), Nat.sub_self]
    simp only [List.cons_append, List.set_cons_zero]
    rw [show pre ++ none :: (ds.map (fun d => some (⟨1, [], d⟩ : Obj)) ++ t) = pre ++ [none] ++ ds.map (fun d => some (⟨1, [], d⟩ : Obj)) ++ t by simp, ih]
    simp [List.replicate_succ]

theorem decref_list (s : State) (ds : List Bytes) (t : List (Option Obj)) (h : s.objs = listObjs ds ++ t) (ht : ∀ o ∈ t, o = none) :
    ∃ s', decref s 0 = .ok s' ∧ SameRest s s' ∧ NoObjects s' ∧ s'.raised = s.raised := by
  have hd := dropAll_ok ds [none] t
  unfold decref get
  simp only [h, listObjs, List.cons_append, List.getElem?_cons_zero, Bind.bind, Except.bind]
  rw [if_neg (by decide), List.set_cons_zero]
  simp only [List.length_singleton, List.cons_append, List.nil_append] at hd
  rw [hd]
  refine ⟨_, rfl, ⟨rfl, rfl, rfl⟩, fun o ho => ?_, rfl⟩
  simp only [List.mem_cons, List.mem_append, List.mem_replicate] at ho
  rcases ho with e | ⟨-, e⟩ | e
  · exact e
  · exact e
  · exact ht o e

/-- Nothing is held, and an exception is set. -/
def Nothing (s : State) : Prop := s.views = [] ∧ s.blocks = [] ∧ s.files = 0 ∧ s.objs = [] ∧ s.raised = true ∧ s.refused = false

theorem Nothing.tidy {s : State} (h : Nothing s) : Tidy s := ⟨h.1, h.2.1, h.2.2.1⟩

theorem Nothing.noObjects {s : State} (h : Nothing s) : NoObjects s := fun o ho => by rw [h.2.2.2.1] at ho; cases ho

theorem range_four : List.range 4 = [0, 1, 2, 3] := by decide
theorem range_two : List.range 2 = [0, 1] := by decide

theorem parse_four (A : Luck) : (∃ s, parseArgs A 4 = .ok (false, s) ∧ Nothing s ∧ ∃ n, A n = false) ∨
    parseArgs A 4 = .ok (true, { calls := 5, views := [3, 2, 1, 0] }) := by
  cases h0 : A 0
  · exact .inl ⟨_, by simp only [parseArgs, call, h0]; rfl, ⟨rfl, rfl, rfl, rfl, rfl, rfl⟩, 0, h0⟩
  cases h1 : A 1
  · exact .inl ⟨_, by simp only [parseArgs, call, h0, range_four, getBuffers, getBuffer, h1]; rfl, ⟨rfl, rfl, rfl, rfl, rfl, rfl⟩, 1, h1⟩
  cases h2 : A 2
  · exact .inl ⟨_, by simp only [parseArgs, call, h0, range_four, getBuffers, getBuffer, h1, h2]; rfl, ⟨rfl, rfl, rfl, rfl, rfl, rfl⟩, 2, h2⟩
  cases h3 : A 3
  · exact .inl ⟨_, by simp only [parseArgs, call, h0, range_four, getBuffers, getBuffer, h1, h2, h3]; rfl, ⟨rfl, rfl, rfl, rfl, rfl, rfl⟩, 3, h3⟩
  cases h4 : A 4
  · exact .inl ⟨_, by simp only [parseArgs, call, h0, range_four, getBuffers, getBuffer, h1, h2, h3, h4]; rfl, ⟨rfl, rfl, rfl, rfl, rfl, rfl⟩, 4, h4⟩
  · exact .inr (by simp only [parseArgs, call, h0, range_four, getBuffers, getBuffer, h1, h2, h3, h4]; rfl)

theorem parse_two (A : Luck) : (∃ s, parseArgs A 2 = .ok (false, s) ∧ Nothing s ∧ ∃ n, A n = false) ∨
    parseArgs A 2 = .ok (true, { calls := 3, views := [1, 0] }) := by
  cases h0 : A 0
  · exact .inl ⟨_, by simp only [parseArgs, call, h0]; rfl, ⟨rfl, rfl, rfl, rfl, rfl, rfl⟩, 0, h0⟩
  cases h1 : A 1
  · exact .inl ⟨_, by simp only [parseArgs, call, h0, range_two, getBuffers, getBuffer, h1]; rfl, ⟨rfl, rfl, rfl, rfl, rfl, rfl⟩, 1, h1⟩
  cases h2 : A 2
  · exact .inl ⟨_, by simp only [parseArgs, call, h0, range_two, getBuffers, getBuffer, h1, h2]; rfl, ⟨rfl, rfl, rfl, rfl, rfl, rfl⟩, 2, h2⟩
  · exact .inr (by simp only [parseArgs, call, h0, range_two, getBuffers, getBuffer, h1, h2]; rfl)

theorem release_four {s : State} (h : s.views = [3, 2, 1, 0]) : [0, 1, 2, 3].foldlM release s = .ok { s with views := [] } := by
  obtain ⟨c, v, o, b, f, r, q⟩ := s
  simp only at h
  subst h
  rfl

theorem release_two {s : State} (h : s.views = [1, 0]) : [0, 1].foldlM release s = .ok { s with views := [] } := by
  obtain ⟨c, v, o, b, f, r, q⟩ := s
  simp only at h
  subst h
  rfl

theorem onlyList {s : State} {ds : List Bytes} (h : s.objs = listObjs ds) : OnlyList ds 0 s := by
  refine ⟨List.range' 1 ds.length, by rw [h]; rfl, ?_, fun j o hj => ?_⟩
  · rw [h]
    apply List.ext_getElem?
    intro n
    simp only [List.getElem?_map, List.getElem?_range', listObjs]
    by_cases hn : n < ds.length
    · simp [hn, Nat.add_comm 1 n]
    · simp [hn]
  · rw [h] at hj
    cases j with
    | zero => exact .inl rfl
    | succ j =>
      refine .inr (List.mem_range'_1.2 ?_)
      have := (List.getElem?_eq_some_iff.1 hj).1
      rw [listObjs_length] at this
      omega

theorem createPatch_ok (A : Luck) (chunks : List Bytes) :
    ∃ r s, createPatch A chunks = .ok (r, s) ∧ Tidy s ∧ Proper (OnlyList chunks) r s ∧ (r = .null → ∃ n, A n = false) := by
  unfold createPatch
  rcases parse_four A with ⟨s, k1, k2, k3⟩ | k
  · rw [k1]
    exact ⟨.null, s, rfl, k2.tidy, .inr ⟨rfl, k2.2.2.2.2.1, k2.noObjects⟩, fun _ => k3⟩
  · rw [k]
    simp only [Bind.bind, Except.bind, Bool.not_true, Bool.false_eq_true, if_false, new, call]
    cases h5 : A 5 with
    | false =>
      simp only
      rw [release_four rfl]
      exact ⟨.null, _, rfl, ⟨rfl, rfl, rfl⟩, .inr ⟨rfl, rfl, fun o ho => by cases ho⟩, fun _ => ⟨5, h5⟩⟩
    | true =>
      simp only [List.length_nil, List.nil_append]
      obtain ⟨ok, s, m1, m2, m3⟩ := appendAll_ok A chunks { calls := 6, views := [3, 2, 1, 0], objs := [some ⟨1, [], []⟩] } [] rfl
      have m1' : appendAll A 0 chunks { calls := 5 + 1, views := [3, 2, 1, 0], objs := [some ⟨1, [], []⟩], raised := false || !true } = .ok (ok, s) := m1
      rw [m1']
      simp only
      rcases m3 with ⟨rfl, n1, n2⟩ | ⟨rfl, n1, ⟨ds, n2⟩, n3⟩
      · rw [if_pos rfl, release_four m2.1]
        refine ⟨.obj 0, _, rfl, ⟨rfl, m2.2.1, m2.2.2⟩, .inl ⟨0, rfl, n2, onlyList (by simpa using n1)⟩, (fun e => by cases e)⟩
      · rw [if_neg (by decide)]
        have hx : ∃ s', decref s 0 = .ok s' ∧ SameRest s s' ∧ NoObjects s' ∧ s'.raised = s.raised := by
          rcases n2 with e | e
          · exact decref_list s ds [] (by rw [List.append_nil]; exact e) (fun o ho => by cases ho)
          · exact decref_list s ds [none] e (fun o ho => by simpa using ho)
        obtain ⟨s', p1, p2, p3, p4⟩ := hx
        rw [p1]
        simp only
        rw [release_four (p2.1.trans m2.1)]
        exact ⟨.null, _, rfl, ⟨rfl, p2.2.1.trans m2.2.1, p2.2.2.trans m2.2.2⟩, .inr ⟨rfl, p4.trans n1, p3⟩, fun _ => n3⟩

/-! ### sais -/

theorem free_front {s : State} {b : Nat} {bs : List Nat} (h : s.blocks = b :: bs) : free s (some b) = .ok { s with blocks := bs } := by
  unfold free
  rw [h]
  simp

theorem free_second {s : State} {b c : Nat} {bs : List Nat} (h : s.blocks = b :: c :: bs) (hn : b ≠ c) :
    free s (some c) = .ok { s with blocks := b :: bs } := by
  unfold free
  rw [h]
  simp [List.erase_cons, hn]

/-- The same but for the blocks, the calls and whether one was refused. -/
def Else (s s' : State) : Prop := s'.views = s.views ∧ s'.objs = s.objs ∧ s'.files = s.files ∧ s'.raised = s.raised ∧ s.calls ≤ s'.calls

theorem Else.trans {s s' s''} (h : Else s s') (h' : Else s' s'') : Else s s'' :=
  ⟨h'.1.trans h.1, h'.2.1.trans h.2.1, h'.2.2.1.trans h.2.2.1, h'.2.2.2.1.trans h.2.2.2.1, Nat.le_trans h.2.2.2.2 h'.2.2.2.2⟩

/-- What the arrays own, over the blocks `bs`. -/
def Owns (a : Arrays) (bs : List Nat) (s : State) : Prop :=
  (a.f1 = true ∧ a.f2 = true ∧ a.f4 = false ∧ ∃ b c, a.b = some b ∧ a.c = some c ∧ b ≠ c ∧ c < s.calls ∧ s.blocks = b :: c :: bs) ∨
  (a.f1 = true ∧ a.f2 = false ∧ a.f4 = false ∧ ∃ c, a.c = some c ∧ c < s.calls ∧ s.blocks = c :: bs) ∨
  (a.f1 = false ∧ a.f2 = true ∧ a.f4 = false ∧ ∃ b, a.b = some b ∧ s.blocks = b :: bs) ∨
  (a.f1 = false ∧ a.f2 = false ∧ a.f4 = true ∧ ∃ c, a.c = some c ∧ s.blocks = c :: bs) ∨
  (a.f1 = false ∧ a.f2 = false ∧ a.f4 = false ∧ s.blocks = bs)

theorem malloc_cases (A : Luck) (s : State) :
    malloc A s = (some s.calls, { s with calls := s.calls + 1, blocks := s.calls :: s.blocks }) ∨
    malloc A s = (none, { s with calls := s.calls + 1, refused := true }) := by
  unfold malloc
  cases A s.calls
  · exact .inr rfl
  · exact .inl rfl

theorem arrays_ok (A : Luck) (v : Level) (s : State) : ∃ o s', arrays A v s = .ok (o, s') ∧ Else s s' ∧
    ((o = none ∧ s'.blocks = s.blocks ∧ s'.refused = true) ∨ (∃ a, o = some a ∧ Owns a s.blocks s' ∧ s'.refused = s.refused)) := by
  unfold arrays
  by_cases h1 : v.k ≤ 256
  · rw [if_pos h1]
    rcases malloc_cases A s with e | e
    · rw [e]
      simp only
      by_cases h2 : v.k ≤ v.fs
      · rw [if_pos h2]
        exact ⟨_, _, rfl, ⟨rfl, rfl, rfl, rfl, by (try simp only); omega⟩, .inr ⟨_, rfl, .inr (.inl ⟨rfl, rfl, rfl, s.calls, rfl, Nat.lt_succ_self _, rfl⟩), rfl⟩⟩
      · rw [if_neg h2]
        rcases malloc_cases A { s with calls := s.calls + 1, blocks := s.calls :: s.blocks } with e' | e'
        · rw [e']
          exact ⟨_, _, rfl, ⟨rfl, rfl, rfl, rfl, by simp only; omega⟩,
            .inr ⟨_, rfl, .inl ⟨rfl, rfl, rfl, s.calls + 1, s.calls, rfl, rfl, by omega, by simp only; omega, rfl⟩, rfl⟩⟩
        · rw [e']
          simp only [Bind.bind, Except.bind]
          rw [free_front (bs := s.blocks) rfl]
          exact ⟨_, _, rfl, ⟨rfl, rfl, rfl, rfl, by (try simp only); omega⟩, .inl ⟨rfl, rfl, rfl⟩⟩
    · rw [e]
      exact ⟨_, _, rfl, ⟨rfl, rfl, rfl, rfl, by (try simp only); omega⟩, .inl ⟨rfl, rfl, rfl⟩⟩
  · rw [if_neg h1]
    by_cases h2 : v.k ≤ v.fs
    · rw [if_pos h2]
      by_cases h3 : v.k ≤ v.fs - v.k
      · rw [if_pos h3]
        exact ⟨_, _, rfl, ⟨rfl, rfl, rfl, rfl, by (try simp only); omega⟩, .inr ⟨_, rfl, .inr (.inr (.inr (.inr ⟨rfl, rfl, rfl, rfl⟩))), rfl⟩⟩
      · rw [if_neg h3]
        by_cases h4 : v.k ≤ 1024
        · rw [if_pos h4]
          rcases malloc_cases A s with e | e
          · rw [e]
            exact ⟨_, _, rfl, ⟨rfl, rfl, rfl, rfl, by (try simp only); omega⟩, .inr ⟨_, rfl, .inr (.inr (.inl ⟨rfl, rfl, rfl, s.calls, rfl, rfl⟩)), rfl⟩⟩
          · rw [e]
            exact ⟨_, _, rfl, ⟨rfl, rfl, rfl, rfl, by (try simp only); omega⟩, .inl ⟨rfl, rfl, rfl⟩⟩
        · rw [if_neg h4]
          exact ⟨_, _, rfl, ⟨rfl, rfl, rfl, rfl, by (try simp only); omega⟩, .inr ⟨_, rfl, .inr (.inr (.inr (.inr ⟨rfl, rfl, rfl, rfl⟩))), rfl⟩⟩
    · rw [if_neg h2]
      rcases malloc_cases A s with e | e
      · rw [e]
        exact ⟨_, _, rfl, ⟨rfl, rfl, rfl, rfl, by (try simp only); omega⟩, .inr ⟨_, rfl, .inr (.inr (.inr (.inl ⟨rfl, rfl, rfl, s.calls, rfl, rfl⟩))), rfl⟩⟩
      · rw [e]
        exact ⟨_, _, rfl, ⟨rfl, rfl, rfl, rfl, by (try simp only); omega⟩, .inl ⟨rfl, rfl, rfl⟩⟩

/-- All the arrays are freed. -/
theorem freeBoth_ok {a : Arrays} {bs : List Nat} {s : State} (h : Owns a bs s) :
    ∃ s1 s', freeIf (a.f1 || a.f4) s a.c = .ok s1 ∧ freeIf a.f2 s1 a.b = .ok s' ∧ Else s s' ∧ s'.blocks = bs ∧ s'.refused = s.refused := by
  rcases h with ⟨f1, f2, f4, b, c, hb, hc, hn, -, h⟩ | ⟨f1, f2, f4, c, hc, -, h⟩ | ⟨f1, f2, f4, b, hb, h⟩ | ⟨f1, f2, f4, c, hc, h⟩ | ⟨f1, f2, f4, h⟩
  · refine ⟨{ s with blocks := b :: bs }, { s with blocks := bs }, ?_, ?_, ⟨rfl, rfl, rfl, rfl, by (try simp only); omega⟩, rfl, rfl⟩
    · rw [f1, hc]; exact free_second h hn
    · rw [f2, hb]; exact free_front rfl
  · refine ⟨{ s with blocks := bs }, { s with blocks := bs }, ?_, ?_, ⟨rfl, rfl, rfl, rfl, by (try simp only); omega⟩, rfl, rfl⟩
    · rw [f1, hc]; exact free_front h
    · rw [f2]; rfl
  · refine ⟨s, { s with blocks := bs }, ?_, ?_, ⟨rfl, rfl, rfl, rfl, by (try simp only); omega⟩, rfl, rfl⟩
    · rw [f1, f4]; rfl
    · rw [f2, hb]; exact free_front h
  · refine ⟨{ s with blocks := bs }, { s with blocks := bs }, ?_, ?_, ⟨rfl, rfl, rfl, rfl, by (try simp only); omega⟩, rfl, rfl⟩
    · rw [f1, f4, hc]; exact free_front h
    · rw [f2]; rfl
  · refine ⟨s, s, ?_, ?_, ⟨rfl, rfl, rfl, rfl, Nat.le_refl _⟩, h, rfl⟩
    · rw [f1, f4]; rfl
    · rw [f2]; rfl

/-- What is kept while `sais_main` calls itself. -/
def Keeps1 (a : Arrays) (bs : List Nat) (n : Nat) (s : State) : Prop :=
  (a.f1 = true ∧ a.f4 = false ∧ ∃ c, a.c = some c ∧ c < n ∧ s.blocks = c :: bs) ∨ (a.f1 = false ∧ (a.f4 = true → a.f2 = false) ∧ s.blocks = bs)

theorem freeForCall_ok {a : Arrays} {bs : List Nat} {s : State} (h : Owns a bs s) :
    ∃ s1 s', freeIf a.f4 s a.c = .ok s1 ∧ freeIf a.f2 s1 a.b = .ok s' ∧ Else s s' ∧ Keeps1 a bs s'.calls s' ∧ s'.refused = s.refused := by
  rcases h with ⟨f1, f2, f4, b, c, hb, hc, hn, hl, h⟩ | ⟨f1, f2, f4, c, hc, hl, h⟩ | ⟨f1, f2, f4, b, hb, h⟩ | ⟨f1, f2, f4, c, hc, h⟩ | ⟨f1, f2, f4, h⟩
  · refine ⟨s, { s with blocks := c :: bs }, by rw [f4]; rfl, by rw [f2, hb]; exact free_front h, ⟨rfl, rfl, rfl, rfl, by (try simp only); omega⟩, .inl ⟨f1, f4, c, hc, hl, rfl⟩, rfl⟩
  · exact ⟨s, s, by rw [f4]; rfl, by rw [f2]; rfl, ⟨rfl, rfl, rfl, rfl, by (try simp only); omega⟩, .inl ⟨f1, f4, c, hc, hl, h⟩, rfl⟩
  · exact ⟨s, { s with blocks := bs }, by rw [f4]; rfl, by rw [f2, hb]; exact free_front h, ⟨rfl, rfl, rfl, rfl, by (try simp only); omega⟩, .inr ⟨f1, fun _ => by rw [f4] at *; contradiction, rfl⟩, rfl⟩
  · exact ⟨{ s with blocks := bs }, { s with blocks := bs }, by rw [f4, hc]; exact free_front h, by rw [f2]; rfl, ⟨rfl, rfl, rfl, rfl, by (try simp only); omega⟩, .inr ⟨f1, fun _ => f2, rfl⟩, rfl⟩
  · exact ⟨s, s, by rw [f4]; rfl, by rw [f2]; rfl, ⟨rfl, rfl, rfl, rfl, by (try simp only); omega⟩, .inr ⟨f1, fun _ => f2, h⟩, rfl⟩

theorem freeC_ok {a : Arrays} {bs : List Nat} {n : Nat} {s : State} (h : Keeps1 a bs n s) :
    ∃ s', freeIf a.f1 s a.c = .ok s' ∧ Else s s' ∧ s'.blocks = bs ∧ s'.refused = s.refused := by
  rcases h with ⟨f1, -, c, hc, -, h⟩ | ⟨f1, -, h⟩
  · exact ⟨{ s with blocks := bs }, by rw [f1, hc]; exact free_front h, ⟨rfl, rfl, rfl, rfl, by (try simp only); omega⟩, rfl, rfl⟩
  · exact ⟨s, by rw [f1]; rfl, ⟨rfl, rfl, rfl, rfl, Nat.le_refl _⟩, h, rfl⟩

theorem sortArray_ok (A : Luck) (v : Level) {a : Arrays} {bs : List Nat} {s : State} (h : Owns a bs s) :
    ∃ ok s', sortArray A v a s = .ok (ok, s') ∧ Else s s' ∧
      ((ok = false ∧ s'.blocks = bs ∧ s'.refused = true) ∨ (ok = true ∧ Owns a bs s' ∧ s'.refused = s.refused)) := by
  have more : Owns a bs { s with calls := s.calls + 1 } := by
    rcases h with ⟨f1, f2, f4, b, c, hb, hc, hn, hl, h⟩ | ⟨f1, f2, f4, c, hc, hl, h⟩ | h
    · exact .inl ⟨f1, f2, f4, b, c, hb, hc, hn, by simp only; omega, h⟩
    · exact .inr (.inl ⟨f1, f2, f4, c, hc, by simp only; omega, h⟩)
    · exact .inr (.inr h)
  unfold sortArray
  by_cases h1 : 1 < v.m ∧ a.f16 = true
  · rw [if_pos h1]
    rcases malloc_cases A s with e | e
    · rw [e]
      simp only [Bind.bind, Except.bind]
      rw [free_front (bs := s.blocks) rfl]
      exact ⟨_, _, rfl, ⟨rfl, rfl, rfl, rfl, by (try simp only); omega⟩, .inr ⟨rfl, more, rfl⟩⟩
    · rw [e]
      have more' : Owns a bs { s with calls := s.calls + 1, refused := true } := more
      obtain ⟨s1, s2, k1, k2, k3, k4, k5⟩ := freeBoth_ok more'
      simp only [Bind.bind, Except.bind, k1, k2]
      exact ⟨_, _, rfl, Else.trans (s' := { s with calls := s.calls + 1, refused := true }) ⟨rfl, rfl, rfl, rfl, by simp only; omega⟩ k3, .inl ⟨rfl, k4, k5⟩⟩
  · rw [if_neg h1]
    exact ⟨_, _, rfl, ⟨rfl, rfl, rfl, rfl, by (try simp only); omega⟩, .inr ⟨rfl, h, rfl⟩⟩

theorem arraysAgain_ok (A : Luck) {a : Arrays} {bs : List Nat} {n : Nat} {s : State} (h : Keeps1 a bs n s) (hn : n ≤ s.calls) :
    ∃ o s', arraysAgain A a s = .ok (o, s') ∧ Else s s' ∧
      ((o = none ∧ s'.blocks = bs ∧ s'.refused = true) ∨ (∃ a', o = some a' ∧ Owns a' bs s' ∧ s'.refused = s.refused)) := by
  unfold arraysAgain
  rcases h with ⟨f1, f4, c, hc, hl, h⟩ | ⟨f1, f42, h⟩
  · rw [if_neg (by rw [f4]; decide)]
    rcases Bool.eq_false_or_eq_true a.f2 with f2 | f2
    · rw [if_pos f2]
      rcases malloc_cases A s with e | e
      · rw [e]
        exact ⟨_, _, rfl, ⟨rfl, rfl, rfl, rfl, by (try simp only); omega⟩, .inr ⟨_, rfl, .inl ⟨f1, f2, f4, s.calls, c, rfl, hc, by omega, by simp only; omega, by simp only; rw [h]⟩, rfl⟩⟩
      · rw [e, f1, hc]
        simp only [Bind.bind, Except.bind, freeIf, if_true]
        rw [free_front (bs := bs) (s := { s with calls := s.calls + 1, refused := true }) h]
        exact ⟨_, _, rfl, ⟨rfl, rfl, rfl, rfl, by (try simp only); omega⟩, .inl ⟨rfl, rfl, rfl⟩⟩
    · rw [if_neg (by rw [f2]; decide)]
      exact ⟨_, _, rfl, ⟨rfl, rfl, rfl, rfl, by (try simp only); omega⟩, .inr ⟨_, rfl, .inr (.inl ⟨f1, f2, f4, c, hc, by omega, h⟩), rfl⟩⟩
  · rcases Bool.eq_false_or_eq_true a.f4 with f4 | f4
    · rw [if_pos f4]
      rcases malloc_cases A s with e | e
      · rw [e]
        exact ⟨_, _, rfl, ⟨rfl, rfl, rfl, rfl, by (try simp only); omega⟩, .inr ⟨_, rfl, .inr (.inr (.inr (.inl ⟨f1, f42 f4, f4, s.calls, rfl, by simp only; rw [h]⟩))), rfl⟩⟩
      · rw [e]
        exact ⟨_, _, rfl, ⟨rfl, rfl, rfl, rfl, by (try simp only); omega⟩, .inl ⟨rfl, h, rfl⟩⟩
    · rw [if_neg (by rw [f4]; decide)]
      rcases Bool.eq_false_or_eq_true a.f2 with f2 | f2
      · rw [if_pos f2]
        rcases malloc_cases A s with e | e
        · rw [e]
          exact ⟨_, _, rfl, ⟨rfl, rfl, rfl, rfl, by (try simp only); omega⟩, .inr ⟨_, rfl, .inr (.inr (.inl ⟨f1, f2, f4, s.calls, rfl, by simp only; rw [h]⟩)), rfl⟩⟩
        · rw [e, f1]
          simp only [Bind.bind, Except.bind, freeIf, Bool.false_eq_true, if_false]
          exact ⟨_, _, rfl, ⟨rfl, rfl, rfl, rfl, by (try simp only); omega⟩, .inl ⟨rfl, h, rfl⟩⟩
      · rw [if_neg (by rw [f2]; decide)]
        exact ⟨_, _, rfl, ⟨rfl, rfl, rfl, rfl, by (try simp only); omega⟩, .inr ⟨_, rfl, .inr (.inr (.inr (.inr ⟨f1, f2, f4, h⟩))), rfl⟩⟩

theorem saisMain_ok (A : Luck) : ∀ (levels : List Level) (s : State), ∃ res s', saisMain A levels s = .ok (res, s') ∧ Else s s' ∧
    s'.blocks = s.blocks ∧ ((res = 0 ∧ s'.refused = s.refused) ∨ (res = -2 ∧ s'.refused = true))
  | [], s => ⟨0, s, rfl, ⟨rfl, rfl, rfl, rfl, Nat.le_refl _⟩, rfl, .inl ⟨rfl, rfl⟩⟩
  | v :: below, s => by
    simp only [saisMain, Bind.bind, Except.bind]
    obtain ⟨o, s1, k1, k2, k3⟩ := arrays_ok A v s
    rw [k1]
    rcases k3 with ⟨rfl, m1, m2⟩ | ⟨a, rfl, m1, m2⟩
    · exact ⟨-2, s1, rfl, k2, m1, .inr ⟨rfl, m2⟩⟩
    · simp only
      obtain ⟨ok, s2, n1, n2, n3⟩ := sortArray_ok A v m1
      rw [n1]
      rcases n3 with ⟨rfl, p1, p2⟩ | ⟨rfl, p1, p2⟩
      · exact ⟨-2, s2, rfl, k2.trans n2, p1, .inr ⟨rfl, p2⟩⟩
      · simp only [Bool.not_true, Bool.false_eq_true, if_false]
        by_cases hr : v.reduces = true
        · rw [if_pos hr]
          obtain ⟨s3, s4, q1, q2, q3, q4, q5⟩ := freeForCall_ok p1
          simp only [q1, q2]
          obtain ⟨res, s5, t1, t2, t3, t4⟩ := saisMain_ok A below s4
          rw [t1]
          have q4' : Keeps1 a s.blocks s4.calls s5 := by
            rcases q4 with ⟨f1, f4, c, hc, hl, hb⟩ | ⟨f1, f4, hb⟩
            · exact .inl ⟨f1, f4, c, hc, hl, t3.trans hb⟩
            · exact .inr ⟨f1, f4, t3.trans hb⟩
          rcases t4 with ⟨rfl, t4⟩ | ⟨rfl, t4⟩
          · simp only [ne_eq, not_true_eq_false, if_false]
            obtain ⟨o, s6, u1, u2, u3⟩ := arraysAgain_ok A q4' t2.2.2.2.2
            rw [u1]
            have hel := ((k2.trans n2).trans (q3.trans t2)).trans u2
            rcases u3 with ⟨rfl, w1, w2⟩ | ⟨a', rfl, w1, w2⟩
            · exact ⟨-2, s6, rfl, hel, w1, .inr ⟨rfl, w2⟩⟩
            · obtain ⟨s7, s8, x1, x2, x3, x4, x5⟩ := freeBoth_ok w1
              simp only [x1, x2]
              exact ⟨0, s8, rfl, hel.trans x3, x4, .inl ⟨rfl, by rw [x5, w2, t4, q5, p2, m2]⟩⟩
          · simp only
            rw [if_pos (by decide)]
            obtain ⟨s6, u1, u2, u3, u4⟩ := freeC_ok q4'
            simp only [u1]
            exact ⟨-2, s6, rfl, ((k2.trans n2).trans (q3.trans t2)).trans u2, u3, .inr ⟨rfl, u4.trans t4⟩⟩
        · rw [if_neg hr]
          obtain ⟨s7, s8, x1, x2, x3, x4, x5⟩ := freeBoth_ok p1
          simp only [x1, x2]
          exact ⟨0, s8, rfl, (k2.trans n2).trans x3, x4, .inl ⟨rfl, by rw [x5, p2, m2]⟩⟩

theorem divsufsort_ok (A : Luck) (s : State) : ∃ res s', divsufsort A s = .ok (res, s') ∧ Else s s' ∧
    s'.blocks = s.blocks ∧ ((res = 0 ∧ s'.refused = s.refused) ∨ (res = -2 ∧ s'.refused = true)) := by
  unfold divsufsort
  rcases malloc_cases A s with e | e
  · rw [e]
    simp only
    rcases malloc_cases A { s with calls := s.calls + 1, blocks := s.calls :: s.blocks } with e' | e'
    · rw [e']
      simp only [Bind.bind, Except.bind]
      rw [free_front (bs := s.calls :: s.blocks) rfl]
      simp only
      rw [free_front (bs := s.blocks) rfl]
      exact ⟨_, _, rfl, ⟨rfl, rfl, rfl, rfl, by simp only; omega⟩, rfl, .inl ⟨rfl, rfl⟩⟩
    · rw [e']
      simp only [Bind.bind, Except.bind, free]
      rw [if_pos (by simp)]
      exact ⟨_, _, rfl, ⟨rfl, rfl, rfl, rfl, by simp only; omega⟩, by simp, .inr ⟨rfl, rfl⟩⟩
  · rw [e]
    simp only
    rcases malloc_cases A { s with calls := s.calls + 1, refused := true } with e' | e'
    · rw [e']
      simp only [Bind.bind, Except.bind]
      rw [free_front (bs := s.blocks) rfl]
      exact ⟨_, _, rfl, ⟨rfl, rfl, rfl, rfl, by simp only; omega⟩, rfl, .inr ⟨rfl, rfl⟩⟩
    · rw [e']
      exact ⟨_, _, rfl, ⟨rfl, rfl, rfl, rfl, by simp only; omega⟩, rfl, .inr ⟨rfl, rfl⟩⟩

theorem noObjects_nil {s : State} (h : s.objs = []) : NoObjects s := fun o ho => by rw [h] at ho; cases ho

theorem noObjects_one {s : State} (h : s.objs = [none]) : NoObjects s := fun o ho => by rw [h] at ho; simpa using ho

theorem onlyBytes_one {s : State} {d : Bytes} (h : s.objs = [some ⟨1, [], d⟩]) : OnlyBytes d 0 s := by
  refine ⟨by rw [h]; rfl, fun j o hj => ?_⟩
  rw [h] at hj
  cases j with
  | zero => rfl
  | succ j => cases hj

theorem createSuffixArray_ok (A : Luck) (algorithm : State → P (Int × State))
    (ha : ∀ s, ∃ res s', algorithm s = .ok (res, s') ∧ Else s s' ∧ s'.blocks = s.blocks ∧
      ((res = 0 ∧ s'.refused = s.refused) ∨ (res = -2 ∧ s'.refused = true))) :
    ∃ r s, createSuffixArray A algorithm = .ok (r, s) ∧ Tidy s ∧
      ((r = .obj 0 ∧ s.raised = false ∧ s.refused = false ∧ OnlyBytes [] 0 s) ∨
        (r = .null ∧ NoObjects s ∧ s.raised = !s.refused)) := by
  unfold createSuffixArray
  rcases parse_two A with ⟨s, k1, k2, -⟩ | k
  · rw [k1]
    exact ⟨.null, s, rfl, k2.tidy, .inr ⟨rfl, k2.noObjects, by rw [k2.2.2.2.2.1, k2.2.2.2.2.2]; rfl⟩⟩
  · rw [k]
    simp only [Bind.bind, Except.bind, Bool.not_true, Bool.false_eq_true, if_false]
    obtain ⟨res, ⟨c, v, o, b, f, r, q⟩, k1, ⟨e1, e2, e3, e4, -⟩, k3, k4⟩ := ha { calls := 3, views := [1, 0] }
    rw [k1]
    simp only at e1 e2 e3 e4 k3 k4 ⊢
    subst e1 e2 e3 e4 k3
    rcases k4 with ⟨rfl, rfl⟩ | ⟨rfl, rfl⟩
    · exact ⟨_, _, rfl, ⟨rfl, rfl, rfl⟩, .inl ⟨rfl, rfl, rfl, onlyBytes_one rfl⟩⟩
    · exact ⟨_, _, rfl, ⟨rfl, rfl, rfl⟩, .inr ⟨rfl, noObjects_nil rfl, rfl⟩⟩

theorem packSize_ok (A : Luck) (packed : Bytes) :
    ∃ r s, packSize A packed = .ok (r, s) ∧ Tidy s ∧ Proper (OnlyBytes packed) r s ∧ (r = .null → ∃ n, A n = false) := by
  unfold packSize
  cases h0 : A 0
  · simp only [call, h0]; exact ⟨_, _, rfl, ⟨rfl, rfl, rfl⟩, .inr ⟨rfl, rfl, noObjects_nil rfl⟩, fun _ => ⟨0, h0⟩⟩
  cases h1 : A 1
  · simp only [call, h0, new, h1]; exact ⟨_, _, rfl, ⟨rfl, rfl, rfl⟩, .inr ⟨rfl, rfl, noObjects_nil rfl⟩, fun _ => ⟨1, h1⟩⟩
  · simp only [call, h0, new, h1]; exact ⟨_, _, rfl, ⟨rfl, rfl, rfl⟩, .inl ⟨0, rfl, rfl, onlyBytes_one rfl⟩, (fun e => by cases e)⟩

theorem addBytes_ok (A : Luck) (a b : Bytes) (hab : a.length = b.length) :
    ∃ r s, addBytes A a b = .ok (r, s) ∧ Tidy s ∧ Proper (OnlyBytes (List.zipWith (· + ·) a b)) r s ∧ (r = .null → ∃ n, A n = false) := by
  unfold addBytes
  rcases parse_two A with ⟨s, k1, k2, k3⟩ | k
  · rw [k1]
    exact ⟨.null, s, rfl, k2.tidy, .inr ⟨rfl, k2.2.2.2.2.1, k2.noObjects⟩, fun _ => k3⟩
  · rw [k]
    simp only [Bind.bind, Except.bind, Bool.not_true, Bool.false_eq_true, if_false, ne_eq, hab, not_true_eq_false]
    cases h3 : A 3
    · simp only [new, call, h3]
      exact ⟨_, _, rfl, ⟨rfl, rfl, rfl⟩, .inr ⟨rfl, rfl, noObjects_nil rfl⟩, fun _ => ⟨3, h3⟩⟩
    cases h4 : A 4
    · simp only [new, call, h3, resize, get, List.nil_append, List.length_nil, List.getElem?_cons_zero, Bind.bind, Except.bind, h4]
      exact ⟨_, _, rfl, ⟨rfl, rfl, rfl⟩, .inr ⟨rfl, rfl, noObjects_one rfl⟩, fun _ => ⟨4, h4⟩⟩
    · simp only [new, call, h3, resize, get, List.nil_append, List.length_nil, List.getElem?_cons_zero, Bind.bind, Except.bind, h4]
      exact ⟨_, _, rfl, ⟨rfl, rfl, rfl⟩, .inl ⟨0, rfl, rfl, onlyBytes_one rfl⟩, (fun e => by cases e)⟩

theorem hdiffCreate_ok (A : Luck) (blocks : Bool) (diff : Option Bytes) :
    ∃ r s, hdiffCreate A blocks diff = .ok (r, s) ∧
      ((r = .ended ∧ blocks = true ∧ diff = none) ∨
        (Tidy s ∧ Proper (fun i s => ∃ d, diff = some d ∧ OnlyBytes d i s) r s ∧ (r = .null → diff = none ∨ ∃ n, A n = false))) := by
  unfold hdiffCreate
  rcases parse_two A with ⟨s, k1, k2, k3⟩ | k
  · rw [k1]
    exact ⟨.null, s, rfl, .inr ⟨k2.tidy, .inr ⟨rfl, k2.2.2.2.2.1, k2.noObjects⟩, fun _ => .inr k3⟩⟩
  · rw [k]
    simp only [Bind.bind, Except.bind, Bool.not_true, Bool.false_eq_true, if_false]
    cases blocks with
    | false =>
      simp only [Bool.false_eq_true, if_false]
      cases diff with
      | none => exact ⟨_, _, rfl, .inr ⟨⟨rfl, rfl, rfl⟩, .inr ⟨rfl, rfl, noObjects_nil rfl⟩, fun _ => .inl rfl⟩⟩
      | some d =>
        cases h3 : A 3
        · simp only [patchSuffixArray, new, call, h3]
          exact ⟨_, _, rfl, .inr ⟨⟨rfl, rfl, rfl⟩, .inr ⟨rfl, rfl, noObjects_nil rfl⟩, fun _ => .inr ⟨3, h3⟩⟩⟩
        · simp only [patchSuffixArray, new, call, h3]
          exact ⟨_, _, rfl, .inr ⟨⟨rfl, rfl, rfl⟩, .inl ⟨0, rfl, rfl, d, rfl, onlyBytes_one rfl⟩, (fun e => by cases e)⟩⟩
    | true =>
      simp only [if_true]
      cases diff with
      | none => exact ⟨_, _, rfl, .inl ⟨rfl, by simp, rfl⟩⟩
      | some d =>
        cases h3 : A 3
        · simp only [patchMatchBlocks, new, call, h3]
          exact ⟨_, _, rfl, .inr ⟨⟨rfl, rfl, rfl⟩, .inr ⟨rfl, rfl, noObjects_nil rfl⟩, fun _ => .inr ⟨3, h3⟩⟩⟩
        cases h4 : A 4
        · simp only [patchMatchBlocks, new, call, h3, resize, get, List.nil_append, List.length_nil, List.getElem?_cons_zero, Bind.bind, Except.bind, h4]
          exact ⟨_, _, rfl, .inr ⟨⟨rfl, rfl, rfl⟩, .inr ⟨rfl, rfl, noObjects_one rfl⟩, fun _ => .inr ⟨4, h4⟩⟩⟩
        cases h5 : A 5
        · simp only [patchMatchBlocks, new, call, h3, resize, get, List.nil_append, List.length_nil, List.getElem?_cons_zero, Bind.bind, Except.bind, h4, stdio, h5]
          exact ⟨_, _, rfl, .inr ⟨⟨rfl, rfl, rfl⟩, .inr ⟨rfl, rfl, noObjects_one rfl⟩, fun _ => .inr ⟨5, h5⟩⟩⟩
        cases h6 : A 6
        · simp only [patchMatchBlocks, new, call, h3, resize, get, List.nil_append, List.length_nil, List.getElem?_cons_zero, Bind.bind, Except.bind, h4, stdio, h5, h6]
          exact ⟨_, _, rfl, .inr ⟨⟨rfl, rfl, rfl⟩, .inr ⟨rfl, rfl, noObjects_one rfl⟩, fun _ => .inr ⟨6, h6⟩⟩⟩
        · simp only [patchMatchBlocks, new, call, h3, resize, get, List.nil_append, List.length_nil, List.getElem?_cons_zero, Bind.bind, Except.bind, h4, stdio, h5, h6]
          exact ⟨_, _, rfl, .inr ⟨⟨rfl, rfl, rfl⟩, .inl ⟨0, rfl, rfl, d, rfl, onlyBytes_one rfl⟩, (fun e => by cases e)⟩⟩

theorem hdiffApply_ok (A : Luck) (header : Option Nat) (to : Option Bytes) :
    ∃ r s, hdiffApply A header to = .ok (r, s) ∧
      ((r = .ended ∧ to = none) ∨
       (r = .null ∧ header = none ∧ Tidy s ∧ NoObjects s ∧ s.raised = false) ∨
       (A 4 = false ∧ header ≠ none ∧ r = .null ∧ s.raised = true ∧ Tidy s ∧ OnlyBytes [0] 0 s) ∨
       (Tidy s ∧ Proper (fun i s => ∃ d, to = some d ∧ OnlyBytes d i s) r s)) := by
  unfold hdiffApply
  cases h0 : A 0
  · simp only [call, h0]; exact ⟨_, _, rfl, .inr (.inr (.inr ⟨⟨rfl, rfl, rfl⟩, .inr ⟨rfl, rfl, noObjects_nil rfl⟩⟩))⟩
  cases h1 : A 1
  · simp only [call, h0, h1]; exact ⟨_, _, rfl, .inr (.inr (.inr ⟨⟨rfl, rfl, rfl⟩, .inr ⟨rfl, rfl, noObjects_nil rfl⟩⟩))⟩
  cases h2 : A 2
  · simp only [call, h0, h1, h2]; exact ⟨_, _, rfl, .inr (.inr (.inr ⟨⟨rfl, rfl, rfl⟩, .inr ⟨rfl, rfl, noObjects_nil rfl⟩⟩))⟩
  cases header with
  | none => simp only [call, h0, h1, h2]; exact ⟨_, _, rfl, .inr (.inl ⟨rfl, by simp, ⟨rfl, rfl, rfl⟩, noObjects_nil rfl, rfl⟩)⟩
  | some n =>
    cases h3 : A 3
    · simp only [call, h0, h1, h2, new, h3]; exact ⟨_, _, rfl, .inr (.inr (.inr ⟨⟨rfl, rfl, rfl⟩, .inr ⟨rfl, rfl, noObjects_nil rfl⟩⟩))⟩
    cases h4 : A 4
    · simp only [call, h0, h1, h2, h3, new, resize, get, List.nil_append, List.length_nil, List.getElem?_cons_zero, Bind.bind, Except.bind, h4]
      exact ⟨_, _, rfl, .inr (.inr (.inl ⟨by simp, (fun e => by cases e), rfl, rfl, ⟨rfl, rfl, rfl⟩, onlyBytes_one rfl⟩))⟩
    · simp only [call, h0, h1, h2, h3, new, resize, get, List.nil_append, List.length_nil, List.getElem?_cons_zero, Bind.bind, Except.bind, h4]
      cases to with
      | none => exact ⟨_, _, rfl, .inl ⟨rfl, rfl⟩⟩
      | some d => exact ⟨_, _, rfl, .inr (.inr (.inr ⟨⟨rfl, rfl, rfl⟩, .inl ⟨0, rfl, rfl, d, rfl, onlyBytes_one rfl⟩⟩))⟩

end Detools.Ext
