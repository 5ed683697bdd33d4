import Verif.Spec.Elf
/-
Lemmas for C53.
-/
namespace Detools

theorem mem_elfSymbols {elf : Elf} {s : ElfSymbol} : s ∈ elfSymbols elf ↔ s.In elf .func ∨ s.In elf .object := by
  unfold elfSymbols
  rw [List.mem_flatMap]
  constructor
  · rintro ⟨sec, h1, h2⟩
    cases hs : sec.symbols with
    | none => rw [hs] at h2; cases h2
    | some l =>
      rw [hs] at h2
      simp only [List.mem_filter, decide_eq_true_eq] at h2
      obtain ⟨h3, h4, h5⟩ := h2
      have hin : ∃ sec ∈ elf, ∃ symbols, sec.symbols = some symbols ∧ s ∈ symbols := ⟨sec, h1, l, hs, h3⟩
      cases ht : s.type with
      | func => exact .inl ⟨hin, ht, by omega⟩
      | object => exact .inr ⟨hin, ht, by omega⟩
      | other => exact absurd ht h4
  · intro h
    have : ∃ t, t ≠ SymbolType.other ∧ s.In elf t := by
      rcases h with h | h
      · exact ⟨_, by decide, h⟩
      · exact ⟨_, by decide, h⟩
    obtain ⟨t, ht, ⟨sec, h1, l, h2, h3⟩, h4, h5⟩ := this
    refine ⟨sec, h1, ?_⟩
    rw [h2]
    simp only [List.mem_filter, decide_eq_true_eq]
    exact ⟨h3, by rw [h4]; exact ht, by omega⟩

theorem findSectionIndex_iff : ∀ (elf : Elf) (k address i : Nat), findSectionIndex elf k address = some i ↔
    k ≤ i ∧ (∃ sec, elf[i - k]? = some sec ∧ sec.addr ≤ address ∧ address < sec.addr + sec.size) ∧
      ∀ j < i - k, ∀ sec, elf[j]? = some sec → ¬ (sec.addr ≤ address ∧ address < sec.addr + sec.size)
  | [], k, address, i => by simp [findSectionIndex]
  | s :: rest, k, address, i => by
    rw [findSectionIndex]
    by_cases h : s.addr ≤ address ∧ address < s.addr + s.size
    · rw [if_pos h]
      constructor
      · intro he
        injection he with he
        subst he
        refine ⟨Nat.le_refl _, ⟨s, by simp, h⟩, fun j hj => by omega⟩
      · rintro ⟨h1, _, h3⟩
        by_cases hk : k = i
        · rw [hk]
        · exact absurd h (h3 0 (by omega) s (by simp))
    · rw [if_neg h, findSectionIndex_iff rest (k + 1) address i]
      constructor
      · rintro ⟨h1, h2, h3⟩
        have e : i - k = (i - (k + 1)) + 1 := by omega
        refine ⟨by omega, ?_, ?_⟩
        · rw [e]; simpa using h2
        · intro j hj sec hs
          cases j with
          | zero =>
            simp at hs
            subst hs
            exact h
          | succ j => exact h3 j (by omega) sec (by simpa using hs)
      · rintro ⟨h1, h2, h3⟩
        have hne : i ≠ k := by
          rintro rfl
          obtain ⟨sec, g1, g2⟩ := h2
          simp at g1
          subst g1
          exact h g2
        have e : i - k = (i - (k + 1)) + 1 := by omega
        rw [e] at h2 h3
        refine ⟨by omega, by simpa using h2, fun j hj sec hs => h3 (j + 1) (by omega) sec (by simpa using hs)⟩

theorem startsIn_iff {elf : Elf} {s : ElfSymbol} {i : Nat} : findSectionIndex elf 0 s.value = some i ↔ s.StartsIn elf i := by
  rw [findSectionIndex_iff]
  simp [ElfSymbol.StartsIn]

/-! ### Symbols per section -/

/-- The symbols of each section of `done`. -/
structure Groups (elf : Elf) (done : List ElfSymbol) (groups : List (Nat × List ElfSymbol)) : Prop where
  keys : (groups.map Prod.fst).Nodup
  group : ∀ i l, (i, l) ∈ groups → l = done.filter (fun s => findSectionIndex elf 0 s.value = some i) ∧ l ≠ []
  all : ∀ s ∈ done, ∃ i l, findSectionIndex elf 0 s.value = some i ∧ (i, l) ∈ groups

theorem addSymbol_keys (k : Nat) (s : ElfSymbol) : ∀ groups : List (Nat × List ElfSymbol),
    (addSymbol k s groups).map Prod.fst = groups.map Prod.fst ∨
    k ∉ groups.map Prod.fst ∧ (addSymbol k s groups).map Prod.fst = groups.map Prod.fst ++ [k]
  | [] => .inr (by simp [addSymbol])
  | (i, l) :: rest => by
    rw [addSymbol]
    by_cases h : i = k
    · rw [if_pos h]; exact .inl rfl
    · rw [if_neg h]
      rcases addSymbol_keys k s rest with h1 | ⟨h1, h2⟩
      · exact .inl (by simp [h1])
      · refine .inr ⟨by simp only [List.map_cons, List.mem_cons, not_or]; exact ⟨fun h' => h h'.symm, h1⟩, by simp [h2]⟩

theorem mem_addSymbol {k : Nat} {s : ElfSymbol} : ∀ {groups : List (Nat × List ElfSymbol)}, (groups.map Prod.fst).Nodup → ∀ {i l},
    (i, l) ∈ addSymbol k s groups ↔ (i ≠ k ∧ (i, l) ∈ groups) ∨ (i = k ∧ ((∃ l', (k, l') ∈ groups ∧ l = l' ++ [s]) ∨ (k ∉ groups.map Prod.fst ∧ l = [s])))
  | [], _, i, l => by
    simp [addSymbol]
  | (i', l') :: rest, hn, i, l => by
    rw [addSymbol]
    have hn' : (rest.map Prod.fst).Nodup := (List.nodup_cons.1 hn).2
    have hnot : i' ∉ rest.map Prod.fst := (List.nodup_cons.1 hn).1
    by_cases h : i' = k
    · rw [if_pos h]
      subst h
      have hk : ∀ m, (i', m) ∉ rest := fun m hm => hnot (List.mem_map.2 ⟨(i', m), hm, rfl⟩)
      constructor
      · intro hm
        rcases List.mem_cons.1 hm with hm | hm
        · injection hm with e1 e2
          subst e1 e2
          exact .inr ⟨rfl, .inl ⟨l', List.mem_cons_self, rfl⟩⟩
        · refine .inl ⟨?_, List.mem_cons_of_mem _ hm⟩
          intro e
          rw [e] at hm
          exact hk _ hm
      · rintro (⟨h1, h2⟩ | ⟨rfl, ⟨m, h2, rfl⟩ | ⟨h2, _⟩⟩)
        · rcases List.mem_cons.1 h2 with h2 | h2
          · injection h2 with e1 _
            exact absurd e1 h1
          · exact List.mem_cons_of_mem _ h2
        · rcases List.mem_cons.1 h2 with h2 | h2
          · injection h2 with _ e
            rw [e]; exact List.mem_cons_self
          · exact absurd h2 (hk _)
        · exact absurd (by simp) h2
    · rw [if_neg h, List.mem_cons, mem_addSymbol hn']
      simp only [List.mem_cons, List.map_cons, not_or, Prod.mk.injEq]
      constructor
      · rintro (⟨rfl, rfl⟩ | ⟨h1, h2⟩ | ⟨rfl, ⟨m, h2, rfl⟩ | ⟨h2, h3⟩⟩)
        · exact .inl ⟨h, .inl ⟨rfl, rfl⟩⟩
        · exact .inl ⟨h1, .inr h2⟩
        · exact .inr ⟨rfl, .inl ⟨m, .inr h2, rfl⟩⟩
        · exact .inr ⟨rfl, .inr ⟨⟨fun e => h e.symm, h2⟩, h3⟩⟩
      · rintro (⟨h1, ⟨rfl, rfl⟩ | h2⟩ | ⟨rfl, ⟨m, ⟨e, _⟩ | h2, rfl⟩ | ⟨⟨_, h2⟩, h3⟩⟩)
        · exact .inl ⟨rfl, rfl⟩
        · exact .inr (.inl ⟨h1, h2⟩)
        · exact absurd e.symm h
        · exact .inr (.inr ⟨rfl, .inl ⟨m, h2, rfl⟩⟩)
        · exact .inr (.inr ⟨rfl, .inr ⟨h2, h3⟩⟩)

theorem Groups.add {elf : Elf} {done : List ElfSymbol} {groups : List (Nat × List ElfSymbol)} (G : Groups elf done groups) {s : ElfSymbol} {k : Nat}
    (hk : findSectionIndex elf 0 s.value = some k) : Groups elf (done ++ [s]) (addSymbol k s groups) := by
  refine ⟨?_, ?_, ?_⟩
  · rcases addSymbol_keys k s groups with h | ⟨h1, h2⟩
    · rw [h]; exact G.keys
    · rw [h2, List.nodup_append]
      refine ⟨G.keys, by simp, ?_⟩
      intro a ha b hb
      simp at hb
      subst hb
      rintro rfl
      exact h1 ha
  · intro i l hm
    rw [List.filter_append]
    rcases (mem_addSymbol G.keys).1 hm with ⟨h1, h2⟩ | ⟨rfl, ⟨m, h2, rfl⟩ | ⟨h2, rfl⟩⟩
    · obtain ⟨e, hne⟩ := G.group i l h2
      have : [s].filter (fun s => findSectionIndex elf 0 s.value = some i) = [] := by
        simp [hk]; exact fun h => h1 h.symm
      rw [this, List.append_nil]
      exact ⟨e, hne⟩
    · obtain ⟨e, hne⟩ := G.group _ m h2
      have : [s].filter (fun s => findSectionIndex elf 0 s.value = some i) = [s] := by simp [hk]
      rw [this, ← e]
      exact ⟨rfl, by simp⟩
    · have : [s].filter (fun s => findSectionIndex elf 0 s.value = some i) = [s] := by simp [hk]
      rw [this]
      have h0 : done.filter (fun s => findSectionIndex elf 0 s.value = some i) = [] := by
        rw [List.filter_eq_nil_iff]
        intro t ht he
        obtain ⟨i', l', g1, g2⟩ := G.all t ht
        have he : findSectionIndex elf 0 t.value = some i := by simpa using he
        rw [g1] at he
        injection he with he
        subst he
        exact h2 (List.mem_map.2 ⟨_, g2, rfl⟩)
      rw [h0]
      exact ⟨rfl, by simp⟩
  · intro t ht
    rw [List.mem_append] at ht
    rcases ht with ht | ht
    · obtain ⟨i, l, g1, g2⟩ := G.all t ht
      by_cases hik : i = k
      · subst hik
        exact ⟨i, _, g1, (mem_addSymbol G.keys).2 (.inr ⟨rfl, .inl ⟨l, g2, rfl⟩⟩)⟩
      · exact ⟨i, l, g1, (mem_addSymbol G.keys).2 (.inl ⟨hik, g2⟩)⟩
    · simp at ht
      subst ht
      by_cases hm : k ∈ groups.map Prod.fst
      · obtain ⟨⟨i, l⟩, h1, rfl⟩ := List.mem_map.1 hm
        exact ⟨i, _, hk, (mem_addSymbol G.keys).2 (.inr ⟨rfl, .inl ⟨l, h1, rfl⟩⟩)⟩
      · exact ⟨k, _, hk, (mem_addSymbol G.keys).2 (.inr ⟨rfl, .inr ⟨hm, rfl⟩⟩)⟩

theorem symbolsPerSection_groups {elf : Elf} : ∀ (todo done : List ElfSymbol) (groups : List (Nat × List ElfSymbol)), Groups elf done groups →
    (∀ g, symbolsPerSection elf todo groups = .ok g → Groups elf (done ++ todo) g) ∧
    ((∀ s ∈ todo, ∃ i, s.StartsIn elf i) → ∃ g, symbolsPerSection elf todo groups = .ok g) ∧
    ((∃ s ∈ todo, ∀ i, ¬ s.StartsIn elf i) → symbolsPerSection elf todo groups = .error (.error "Symbol ... not part of any section."))
  | [], done, groups, G => by
    refine ⟨?_, fun _ => ⟨_, rfl⟩, fun ⟨_, h, _⟩ => by cases h⟩
    intro g h
    injection h with h
    subst h
    rw [List.append_nil]
    exact G
  | s :: todo, done, groups, G => by
    rw [symbolsPerSection]
    cases hk : findSectionIndex elf 0 s.value with
    | none =>
      refine ⟨fun g h => (by cases h), fun h => ?_, fun _ => rfl⟩
      obtain ⟨i, hi⟩ := h s List.mem_cons_self
      rw [startsIn_iff.2 hi] at hk
      cases hk
    | some k =>
      simp only []
      obtain ⟨h1, h2, h3⟩ := symbolsPerSection_groups todo (done ++ [s]) (addSymbol k s groups) (G.add hk)
      refine ⟨fun g h => ?_, fun h => h2 fun t ht => h t (List.mem_cons_of_mem _ ht), ?_⟩
      · have := h1 g h
        rwa [List.append_assoc, List.singleton_append] at this
      · rintro ⟨t, ht, hn⟩
        rcases List.mem_cons.1 ht with rfl | ht
        · exact absurd (startsIn_iff.1 hk) (hn k)
        · exact h3 ⟨t, ht, hn⟩

/-! ### Sorting -/

theorem insertByValue_perm (s : ElfSymbol) : ∀ l, (insertByValue s l).Perm (s :: l)
  | [] => .refl _
  | t :: rest => by
    rw [insertByValue]
    split
    · exact .refl _
    · exact ((insertByValue_perm s rest).cons t).trans (.swap s t rest)

theorem sortByValue_perm : ∀ l, (sortByValue l).Perm l
  | [] => .refl _
  | s :: rest => (insertByValue_perm s _).trans ((sortByValue_perm rest).cons s)

theorem insertByValue_sorted (s : ElfSymbol) : ∀ l : List ElfSymbol, l.Pairwise (fun a b => a.value ≤ b.value) → (insertByValue s l).Pairwise (fun a b => a.value ≤ b.value)
  | [], _ => by simp [insertByValue]
  | t :: rest, h => by
    rw [insertByValue]
    obtain ⟨h1, h2⟩ := List.pairwise_cons.1 h
    split
    · rename_i hle
      refine List.pairwise_cons.2 ⟨?_, h⟩
      intro x hx
      rcases List.mem_cons.1 hx with rfl | hx
      · exact hle
      · exact Nat.le_trans hle (h1 x hx)
    · rename_i hlt
      refine List.pairwise_cons.2 ⟨?_, insertByValue_sorted s rest h2⟩
      intro x hx
      rcases List.mem_cons.1 ((insertByValue_perm s rest).mem_iff.1 hx) with rfl | hx
      · omega
      · exact h1 x hx

theorem sortByValue_sorted : ∀ l, (sortByValue l).Pairwise (fun a b => a.value ≤ b.value)
  | [] => .nil
  | s :: rest => insertByValue_sorted s _ (sortByValue_sorted rest)

/-! ### Blocks -/

/-- `mid` is a block of `l` with the given range. -/
structure IsBlock (index : Nat) (type : SymbolType) (r : AddressRange) (l pre mid post : List ElfSymbol) : Prop where
  whole : l = pre ++ mid ++ post
  notEmpty : mid ≠ []
  types : ∀ s ∈ mid, s.type = type
  begin_ : ∀ s, mid.head? = some s → r.begin_ = s.value
  end_ : ∀ s, mid.getLast? = some s → r.end_ = (s.value + s.size : Nat)
  section_ : r.sectionIndex = some index
  before : ∀ s, pre.getLast? = some s → s.type ≠ type
  after : ∀ s, post.head? = some s → s.type ≠ type

/-- `run` is the block being read: the blocks of `pre ++ run ++ l`. -/
theorem blockLoop_blocks (index : Nat) : ∀ (l : List ElfSymbol) (type : SymbolType) (b e : Int) (pre run : List ElfSymbol),
    run ≠ [] → (∀ s ∈ run, s.type = type) → (∀ s, run.head? = some s → b = s.value) → (∀ s, run.getLast? = some s → e = (s.value + s.size : Nat)) →
    (∀ s, pre.getLast? = some s → s.type ≠ type) →
    (∀ t r, (t, r) ∈ blockLoop index type b e l → ∃ pre' mid post, IsBlock index t r (pre ++ run ++ l) pre' mid post) ∧
    (∀ s ∈ run ++ l, ∃ t r pre' mid post, (t, r) ∈ blockLoop index type b e l ∧ IsBlock index t r (pre ++ run ++ l) pre' mid post ∧ s ∈ mid)
  | [], type, b, e, pre, run, h1, h2, h3, h4, h5 => by
    have hb : IsBlock index type ⟨b, e, some index⟩ (pre ++ run ++ []) pre run [] :=
      ⟨by simp, h1, h2, h3, h4, rfl, h5, fun s hs => by cases hs⟩
    refine ⟨fun t r hm => ?_, fun s hs => ⟨type, _, pre, run, [], List.mem_cons_self, hb, by simpa using hs⟩⟩
    simp only [blockLoop, List.mem_singleton, Prod.mk.injEq] at hm
    obtain ⟨rfl, rfl⟩ := hm
    exact ⟨pre, run, [], hb⟩
  | x :: l, type, b, e, pre, run, h1, h2, h3, h4, h5 => by
    rw [blockLoop]
    by_cases hx : x.type = type
    · rw [if_neg (by simpa using hx)]
      have := blockLoop_blocks index l type b (x.value + x.size : Nat) pre (run ++ [x]) (by simp)
        (by intro s hs; rcases List.mem_append.1 hs with hs | hs; exact h2 s hs; simp at hs; rw [hs]; exact hx)
        (by
          intro s hs
          cases run with
          | nil => exact absurd rfl h1
          | cons y ys => exact h3 s (by simpa using hs))
        (by intro s hs; simp at hs; rw [← hs]) h5
      have e1 : pre ++ (run ++ [x]) ++ l = pre ++ run ++ x :: l := by simp
      have e2 : run ++ [x] ++ l = run ++ x :: l := by simp
      rw [e1, e2] at this
      exact this
    · rw [if_pos (by simpa using hx)]
      have hb : IsBlock index type ⟨b, e, some index⟩ (pre ++ run ++ x :: l) pre run (x :: l) :=
        ⟨by simp, h1, h2, h3, h4, rfl, h5, fun s hs => by simp at hs; rw [← hs]; exact hx⟩
      have hlast : ∀ s, (pre ++ run).getLast? = some s → s.type ≠ x.type := by
        intro s hs
        have hs : run.getLast? = some s := by
          rw [List.getLast?_append] at hs
          cases hr : run.getLast? with
          | none => exact absurd (List.getLast?_eq_none_iff.1 hr) h1
          | some y => rw [hr] at hs; exact hs
        have := h2 s (List.mem_of_getLast? hs)
        rw [this]
        exact fun h => hx h.symm
      obtain ⟨g1, g2⟩ := blockLoop_blocks index l x.type x.value (x.value + x.size : Nat) (pre ++ run) [x] (by simp)
        (by intro s hs; simp at hs; rw [hs]) (by intro s hs; simp at hs; rw [← hs]) (by intro s hs; simp at hs; rw [← hs]) hlast
      have e1 : pre ++ run ++ [x] ++ l = pre ++ run ++ x :: l := by simp
      rw [e1] at g1 g2
      refine ⟨fun t r hm => ?_, fun s hs => ?_⟩
      · rcases List.mem_cons.1 hm with hm | hm
        · injection hm with e1 e2
          subst e1 e2
          exact ⟨pre, run, x :: l, hb⟩
        · exact g1 t r hm
      · rcases List.mem_append.1 hs with hs | hs
        · exact ⟨type, _, pre, run, x :: l, List.mem_cons_self, hb, hs⟩
        · obtain ⟨t, r, p, m, q, k1, k2, k3⟩ := g2 s (by simpa using hs)
          exact ⟨t, r, p, m, q, List.mem_cons_of_mem _ k1, k2, k3⟩

theorem blocksOf_blocks (index : Nat) (l : List ElfSymbol) :
    (∀ t r, (t, r) ∈ blocksOf index l → ∃ pre mid post, IsBlock index t r l pre mid post) ∧
    (∀ s ∈ l, ∃ t r pre mid post, (t, r) ∈ blocksOf index l ∧ IsBlock index t r l pre mid post ∧ s ∈ mid) := by
  cases l with
  | nil => exact ⟨fun t r h => (by cases h), fun s h => (by cases h)⟩
  | cons x l =>
    have h := blockLoop_blocks index l x.type x.value (x.value + x.size : Nat) [] [x] (by simp)
      (by intro s hs; simp at hs; rw [hs]) (by intro s hs; simp at hs; rw [← hs]) (by intro s hs; simp at hs; rw [← hs]) (by intro s hs; cases hs)
    have e : blocksOf index (x :: l) = blockLoop index x.type x.value (x.value + x.size : Nat) l := by
      show blockLoop index x.type x.value x.size (x :: l) = _
      rw [blockLoop, if_neg (by simp)]
    rw [e]
    exact h

/-- The ranges of functions: the first begins at the first function and the last ends at the
end of the last one. -/
theorem blockLoop_span (index : Nat) (ty : SymbolType) : ∀ (l : List ElfSymbol) (type : SymbolType) (b e : Int),
    (((blockLoop index type b e l).filter fun x => x.1 = ty).map Prod.snd).head?.map AddressRange.begin_ =
      (if type = ty then some b else (l.filter fun s => s.type = ty).head?.map fun s => (s.value : Int)) ∧
    (((blockLoop index type b e l).filter fun x => x.1 = ty).map Prod.snd).getLast?.map AddressRange.end_ =
      (match (l.filter fun s => s.type = ty).getLast? with
        | some s => some ((s.value + s.size : Nat) : Int)
        | none => if type = ty then some e else none)
  | [], type, b, e => by
    by_cases h : type = ty <;> simp [blockLoop, h]
  | x :: l, type, b, e => by
    rw [blockLoop]
    by_cases hx : x.type = type
    · rw [if_neg (by simpa using hx)]
      obtain ⟨g1, g2⟩ := blockLoop_span index ty l type b (x.value + x.size : Nat)
      rw [g1, g2]
      by_cases h : type = ty
      · have hxt : x.type = ty := hx.trans h
        simp only [if_pos h, List.filter_cons, hxt, decide_true, if_true, true_and]
        cases hf : (l.filter fun s => s.type = ty).getLast? with
        | none =>
          have : l.filter (fun s => s.type = ty) = [] := List.getLast?_eq_none_iff.1 hf
          rw [this]; simp
        | some s =>
          rw [List.getLast?_cons, hf]; simp
      · have hxt : ¬ x.type = ty := by rw [hx]; exact h
        simp only [if_neg h, List.filter_cons, hxt, decide_false]
        exact ⟨rfl, rfl⟩
    · rw [if_pos (by simpa using hx)]
      obtain ⟨g1, g2⟩ := blockLoop_span index ty l x.type x.value (x.value + x.size : Nat)
      by_cases h : type = ty
      · have hxt : ¬ x.type = ty := by rw [← h]; exact hx
        simp only [List.filter_cons, h, decide_true, if_true, List.map_cons, List.head?_cons, Option.map_some, hxt, decide_false, true_and]
        rw [if_neg hxt] at g2
        rw [List.getLast?_cons]
        simp only [Option.map_some]
        cases hf : (l.filter fun s => s.type = ty).getLast? with
        | none =>
          rw [hf] at g2
          simp only [Option.map_eq_none_iff] at g2
          rw [g2]
          rw [if_neg (by simp), hf]
          rfl
        | some s =>
          rw [hf] at g2
          simp only [Option.map_eq_some_iff] at g2
          obtain ⟨r, k1, k2⟩ := g2
          rw [k1]
          rw [if_neg (by simp), hf]
          simp [k2]
      · simp only [List.filter_cons, h, decide_false, if_false]
        by_cases hxt : x.type = ty
        · rw [if_pos hxt] at g1 g2
          simp only [hxt, decide_true, if_true, List.head?_cons, Option.map_some]
          refine ⟨by simpa [hxt] using g1, ?_⟩
          rw [List.getLast?_cons]
          simp only [hxt] at g2
          simp only [Bool.false_eq_true, if_false]
          rw [g2]
          cases (l.filter fun s => s.type = ty).getLast? <;> rfl
        · rw [if_neg hxt] at g1 g2
          simp only [hxt, decide_false, Bool.false_eq_true, if_false]
          exact ⟨g1, g2⟩

theorem blocksOf_span (index : Nat) (ty : SymbolType) (l : List ElfSymbol) :
    (((blocksOf index l).filter fun x => x.1 = ty).map Prod.snd).head?.map AddressRange.begin_ = (l.filter fun s => s.type = ty).head?.map (fun s => (s.value : Int)) ∧
    (((blocksOf index l).filter fun x => x.1 = ty).map Prod.snd).getLast?.map AddressRange.end_ =
      (l.filter fun s => s.type = ty).getLast?.map (fun s => ((s.value + s.size : Nat) : Int)) := by
  cases l with
  | nil => exact ⟨rfl, rfl⟩
  | cons x l =>
    have e : blocksOf index (x :: l) = blockLoop index x.type x.value (x.value + x.size : Nat) l := by
      show blockLoop index x.type x.value x.size (x :: l) = _
      rw [blockLoop, if_neg (by simp)]
    obtain ⟨h1, h2⟩ := blockLoop_span index ty l x.type x.value (x.value + x.size : Nat)
    rw [e, h1, h2]
    by_cases hx : x.type = ty
    · simp only [if_pos hx, List.filter_cons, hx, decide_true, if_true, List.head?_cons, Option.map_some, true_and]
      rw [List.getLast?_cons]
      cases (l.filter fun s => s.type = ty).getLast? <;> rfl
    · simp only [if_neg hx, List.filter_cons, hx, decide_false, Bool.false_eq_true, if_false, true_and]
      cases (l.filter fun s => s.type = ty).getLast? <;> rfl

/-! ### The largest range -/

theorem foldl_larger {α : Type} (f : α → AddressRange) : ∀ (l : List α) (a : AddressRange),
    (l.foldl (fun largest x => largest.larger (f x)) a = a ∨ ∃ x ∈ l, l.foldl (fun largest x => largest.larger (f x)) a = f x ∧ a.size < (f x).size) ∧
    a.size ≤ (l.foldl (fun largest x => largest.larger (f x)) a).size ∧
    ∀ x ∈ l, (f x).size ≤ (l.foldl (fun largest x => largest.larger (f x)) a).size
  | [], a => ⟨.inl rfl, Int.le_refl _, fun x h => by cases h⟩
  | y :: l, a => by
    obtain ⟨h1, h2, h3⟩ := foldl_larger f l (a.larger (f y))
    rw [List.foldl_cons]
    have hl : (a.larger (f y) = a ∧ (f y).size ≤ a.size) ∨ (a.larger (f y) = f y ∧ a.size < (f y).size) := by
      unfold AddressRange.larger
      by_cases h : a.size < (f y).size
      · exact .inr ⟨if_pos h, h⟩
      · exact .inl ⟨if_neg h, by omega⟩
    rcases hl with ⟨e, hle⟩ | ⟨e, hlt⟩
    · rw [e] at h1 h2 h3 ⊢
      refine ⟨?_, h2, ?_⟩
      · rcases h1 with h1 | ⟨x, hx, h1⟩
        · exact .inl h1
        · exact .inr ⟨x, List.mem_cons_of_mem _ hx, h1⟩
      · intro x hx
        rcases List.mem_cons.1 hx with rfl | hx
        · omega
        · exact h3 x hx
    · rw [e] at h1 h2 h3 ⊢
      refine ⟨?_, by omega, ?_⟩
      · rcases h1 with h1 | ⟨x, hx, h1, h4⟩
        · exact .inr ⟨y, List.mem_cons_self, h1, hlt⟩
        · exact .inr ⟨x, List.mem_cons_of_mem _ hx, h1, by omega⟩
      · intro x hx
        rcases List.mem_cons.1 hx with rfl | hx
        · exact h2
        · exact h3 x hx

/-! ### The symbols of a section -/

theorem noOverlap_mem {l : List ElfSymbol} (h : l.Pairwise fun s t => s.value + s.size ≤ t.value ∨ t.value + t.size ≤ s.value) :
    ∀ {a b}, a ∈ l → b ∈ l → a = b ∨ a.value + a.size ≤ b.value ∨ b.value + b.size ≤ a.value := by
  induction l with
  | nil => intro a b ha; cases ha
  | cons x l ih =>
    obtain ⟨h1, h2⟩ := List.pairwise_cons.1 h
    intro a b ha hb
    rcases List.mem_cons.1 ha with e | ha' <;> rcases List.mem_cons.1 hb with e' | hb'
    · exact .inl (e.trans e'.symm)
    · rw [e]; exact .inr (h1 b hb')
    · rw [e']; exact .inr (h1 a ha').symm
    · exact ih h2 ha' hb'

/-- The symbols of section `i` are `l`, sorted. -/
structure SectionSorted (elf : Elf) (i : Nat) (l : List ElfSymbol) : Prop where
  mem : ∀ s, s ∈ l ↔ (s.In elf .func ∨ s.In elf .object) ∧ s.StartsIn elf i
  sorted : l.Pairwise fun a b => a.value ≤ b.value

theorem Groups.sorted {elf : Elf} {groups : List (Nat × List ElfSymbol)} (G : Groups elf (elfSymbols elf) groups) {i : Nat} {l : List ElfSymbol}
    (h : (i, l) ∈ groups) : SectionSorted elf i (sortByValue l) := by
  refine ⟨fun s => ?_, sortByValue_sorted l⟩
  rw [(sortByValue_perm l).mem_iff, (G.group i l h).1, List.mem_filter, mem_elfSymbols, decide_eq_true_eq, startsIn_iff]

theorem SectionSorted.positive {elf : Elf} {i : Nat} {l : List ElfSymbol} (S : SectionSorted elf i l) {s : ElfSymbol} (h : s ∈ l) : 0 < s.size := by
  rcases ((S.mem s).1 h).1 with h | h <;> exact h.notEmpty

theorem SectionSorted.mem_type {elf : Elf} {i : Nat} {l : List ElfSymbol} (S : SectionSorted elf i l) {s : ElfSymbol} {t : SymbolType} (ht : t ≠ .other) :
    s ∈ l.filter (fun s => s.type = t) ↔ s.In elf t ∧ s.StartsIn elf i := by
  rw [List.mem_filter, S.mem, decide_eq_true_eq]
  constructor
  · rintro ⟨⟨h1, h2⟩, h3⟩
    refine ⟨?_, h2⟩
    rcases h1 with h1 | h1
    · rw [← h3, h1.type_]; exact h1
    · rw [← h3, h1.type_]; exact h1
  · rintro ⟨h1, h2⟩
    refine ⟨⟨?_, h2⟩, h1.type_⟩
    cases t with
    | func => exact .inl h1
    | object => exact .inr h1
    | other => exact absurd rfl ht

theorem SectionSorted.apart {elf : Elf} {i : Nat} {l : List ElfSymbol} (S : SectionSorted elf i l) (hno : NoOverlap elf) {a b : ElfSymbol} (ha : a ∈ l) (hb : b ∈ l) :
    a = b ∨ a.value + a.size ≤ b.value ∨ b.value + b.size ≤ a.value :=
  noOverlap_mem hno (mem_elfSymbols.2 ((S.mem a).1 ha).1) (mem_elfSymbols.2 ((S.mem b).1 hb).1)

theorem pairwise_head {l : List ElfSymbol} (h : l.Pairwise fun a b => a.value ≤ b.value) {f : ElfSymbol} (hf : l.head? = some f) {s : ElfSymbol} (hs : s ∈ l) :
    f.value ≤ s.value := by
  cases l with
  | nil => cases hs
  | cons x l =>
    simp at hf
    subst hf
    rcases List.mem_cons.1 hs with rfl | hs
    · exact Nat.le_refl _
    · exact (List.pairwise_cons.1 h).1 s hs

theorem pairwise_last {l : List ElfSymbol} (h : l.Pairwise fun a b => a.value ≤ b.value) {g : ElfSymbol} (hg : l.getLast? = some g) {s : ElfSymbol} (hs : s ∈ l) :
    s.value ≤ g.value := by
  obtain ⟨l', rfl⟩ := List.getLast?_eq_some_iff.1 hg
  rcases List.mem_append.1 hs with hs | hs
  · exact (List.pairwise_append.1 h).2.2 s hs g (by simp)
  · simp at hs
    rw [hs]
    exact Nat.le_refl _

/-! ### The code range -/

/-- The range of the functions of section `i` is from the start of `f` to the end of `g`. -/
structure FunctionSpan (elf : Elf) (i : Nat) (f g : ElfSymbol) (r : AddressRange) : Prop where
  first : f.In elf .func ∧ f.StartsIn elf i
  last : g.In elf .func ∧ g.StartsIn elf i
  range : r = ⟨f.value, (g.value + g.size : Nat), some i⟩
  between : ∀ h : ElfSymbol, h.In elf .func → h.StartsIn elf i → f.value ≤ h.value ∧ h.value ≤ g.value

theorem FunctionSpan.pos {elf : Elf} {i : Nat} {f g : ElfSymbol} {r : AddressRange} (H : FunctionSpan elf i f g r) : 0 < r.size := by
  rw [H.range]
  have h1 := (H.between g H.last.1 H.last.2).1
  have h2 := H.last.1.notEmpty
  show 0 < ((g.value + g.size : Nat) : Int) - (f.value : Int)
  omega

theorem span_spec {elf : Elf} {i : Nat} {l : List ElfSymbol} (S : SectionSorted elf i l)
    (hne : ((blocksOf i l).filter fun b => b.1 = .func).map Prod.snd ≠ []) :
    ∃ f g, FunctionSpan elf i f g (spanOf (((blocksOf i l).filter fun b => b.1 = .func).map Prod.snd)) := by
  obtain ⟨h1, h2⟩ := blocksOf_span i .func l
  have hidx : ∀ r ∈ ((blocksOf i l).filter fun b => b.1 = .func).map Prod.snd, r.sectionIndex = some i := by
    intro r hr
    obtain ⟨⟨t, r'⟩, hm, rfl⟩ := List.mem_map.1 hr
    obtain ⟨pre, mid, post, hb⟩ := (blocksOf_blocks i l).1 t r' (List.mem_filter.1 hm).1
    exact hb.section_
  revert h1 h2 hidx hne
  generalize ((blocksOf i l).filter fun b => b.1 = .func).map Prod.snd = rs
  intro hne h1 h2 hidx
  cases rs with
  | nil => exact absurd rfl hne
  | cons r rest =>
    have hlast : (r :: rest).getLast? = some ((r :: rest).getLast (by simp)) := List.getLast?_eq_some_getLast (by simp)
    rw [hlast] at h2
    cases hf : (l.filter fun s => s.type = .func).head? with
    | none => rw [hf] at h1; simp at h1
    | some f =>
      cases hg : (l.filter fun s => s.type = .func).getLast? with
      | none => rw [hg] at h2; simp at h2
      | some g =>
        rw [hf] at h1
        rw [hg] at h2
        simp only [List.head?_cons, Option.map_some, Option.some.injEq] at h1 h2
        have hp := List.Pairwise.filter (fun s => decide (s.type = .func)) S.sorted
        refine ⟨f, g, (S.mem_type (by decide)).1 (List.mem_of_head? hf), (S.mem_type (by decide)).1 (List.mem_of_getLast? hg), ?_, ?_⟩
        · show (⟨r.begin_, ((r :: rest).getLast (by simp)).end_, r.sectionIndex⟩ : AddressRange) = _
          rw [h1, h2, hidx r List.mem_cons_self]
        · intro h k1 k2
          have hm := (S.mem_type (by decide : SymbolType.func ≠ .other)).2 ⟨k1, k2⟩
          exact ⟨pairwise_head hp hf hm, pairwise_last hp hg hm⟩

/-- A section with a function has a range of functions. -/
theorem ranges_of_function {elf : Elf} {groups : List (Nat × List ElfSymbol)} (G : Groups elf (elfSymbols elf) groups) {i : Nat} {s : ElfSymbol}
    (hs : s.In elf .func) (hi : s.StartsIn elf i) :
    ∃ l, (i, l) ∈ groups ∧ ((blocksOf i (sortByValue l)).filter fun b => b.1 = .func).map Prod.snd ≠ [] := by
  obtain ⟨i', l, g1, g2⟩ := G.all s (mem_elfSymbols.2 (.inl hs))
  rw [startsIn_iff.2 hi] at g1
  injection g1 with g1
  subst g1
  refine ⟨l, g2, ?_⟩
  intro he
  have hm := ((G.sorted g2).mem_type (by decide : SymbolType.func ≠ .other)).2 ⟨hs, hi⟩
  have h1 := (blocksOf_span i .func (sortByValue l)).1
  rw [he] at h1
  cases hf : ((sortByValue l).filter fun s => s.type = .func) with
  | nil => rw [hf] at hm; cases hm
  | cons x rest => rw [hf] at h1; simp at h1

theorem mem_rangesPerSection {type : SymbolType} {groups : List (Nat × List ElfSymbol)} {rs : List AddressRange} :
    rs ∈ rangesPerSection type groups ↔ ∃ i l, (i, l) ∈ groups ∧ rs = ((blocksOf i (sortByValue l)).filter fun b => b.1 = type).map Prod.snd ∧ rs ≠ [] := by
  unfold rangesPerSection
  rw [List.mem_filter, List.mem_map]
  constructor
  · rintro ⟨⟨⟨i, l⟩, h1, rfl⟩, h2⟩
    exact ⟨i, l, h1, rfl, by simpa using h2⟩
  · rintro ⟨i, l, h1, rfl, h2⟩
    exact ⟨⟨(i, l), h1, rfl⟩, by simpa using h2⟩

theorem codeRange_spec {elf : Elf} {groups : List (Nat × List ElfSymbol)} (G : Groups elf (elfSymbols elf) groups) :
    (createCodeRange (rangesPerSection .func groups) = {} ∧ (∀ s : ElfSymbol, ¬ s.In elf .func) ∨
      ∃ i f g, FunctionSpan elf i f g (createCodeRange (rangesPerSection .func groups))) ∧
    ∀ j, ∀ s : ElfSymbol, s.In elf .func → s.StartsIn elf j →
      ∃ f g r, FunctionSpan elf j f g r ∧ r.size ≤ (createCodeRange (rangesPerSection .func groups)).size := by
  obtain ⟨h1, h2, h3⟩ := foldl_larger spanOf (rangesPerSection .func groups) {}
  have hlarge : ∀ j, ∀ s : ElfSymbol, s.In elf .func → s.StartsIn elf j →
      ∃ f g r, FunctionSpan elf j f g r ∧ r.size ≤ (createCodeRange (rangesPerSection .func groups)).size := by
    intro j s hs hj
    obtain ⟨l, k1, k2⟩ := ranges_of_function G hs hj
    obtain ⟨f, g, k3⟩ := span_spec (G.sorted k1) k2
    exact ⟨f, g, _, k3, h3 _ (mem_rangesPerSection.2 ⟨j, l, k1, rfl, k2⟩)⟩
  refine ⟨?_, hlarge⟩
  rcases h1 with h1 | ⟨rs, hrs, h1, h4⟩
  · refine .inl ⟨h1, fun s hs => ?_⟩
    obtain ⟨j, l, g1, g2⟩ := G.all s (mem_elfSymbols.2 (.inl hs))
    obtain ⟨f, g, r, k1, k2⟩ := hlarge j s hs (startsIn_iff.1 g1)
    have := k1.pos
    have e : createCodeRange (rangesPerSection .func groups) = {} := h1
    rw [e] at k2
    change r.size ≤ 0 at k2
    omega
  · obtain ⟨i, l, k1, rfl, k3⟩ := mem_rangesPerSection.1 hrs
    obtain ⟨f, g, k4⟩ := span_spec (G.sorted k1) k3
    refine .inr ⟨i, f, g, ?_⟩
    have e : createCodeRange (rangesPerSection .func groups) = _ := h1
    rw [e]
    exact k4

/-! ### The data range -/

theorem trimRange_spec {code data : AddressRange} (hc : code.begin_ ≤ code.end_) (hd : data.begin_ ≤ data.end_) :
    (trimRange code data).sectionIndex = data.sectionIndex ∧ data.Contains (trimRange code data).begin_ (trimRange code data).end_ ∧
    (trimRange code data).begin_ ≤ (trimRange code data).end_ ∧
    (code.Disjoint (trimRange code data).begin_ (trimRange code data).end_ ∨ trimRange code data = data ∧ code.Contains data.begin_ data.end_) := by
  unfold trimRange AddressRange.Contains AddressRange.Disjoint
  by_cases h1 : data.begin_ < code.begin_ ∧ code.begin_ < data.end_ <;> by_cases h2 : data.begin_ < code.end_ ∧ code.end_ < data.end_
  · simp only [if_pos h1, if_pos h2]
    by_cases h3 : (⟨data.begin_, code.begin_, data.sectionIndex⟩ : AddressRange).size > (⟨code.end_, data.end_, data.sectionIndex⟩ : AddressRange).size
    · simp only [if_pos h3]
      refine ⟨trivial, ⟨?_, ?_⟩, ?_, ?_⟩ <;> omega
    · simp only [if_neg h3]
      refine ⟨trivial, ⟨?_, ?_⟩, ?_, ?_⟩ <;> omega
  · simp only [if_pos h1, if_neg h2]
    refine ⟨trivial, ⟨?_, ?_⟩, ?_, ?_⟩ <;> omega
  · simp only [if_neg h1, if_pos h2]
    refine ⟨trivial, ⟨?_, ?_⟩, ?_, ?_⟩ <;> omega
  · simp only [if_neg h1, if_neg h2]
    refine ⟨trivial, ⟨Int.le_refl _, Int.le_refl _⟩, hd, ?_⟩
    simp only [true_and]
    omega

/-- What is left of a range is at least as large as any part of it that is not code. -/
theorem trimRange_size {code data : AddressRange} (hc : code.begin_ ≤ code.end_) {b e : Int} (hbe : b < e) (hin : data.Contains b e) (hout : code.Disjoint b e) :
    e - b ≤ (trimRange code data).size := by
  obtain ⟨i1, i2⟩ := hin
  unfold trimRange AddressRange.Disjoint AddressRange.size at *
  by_cases h1 : data.begin_ < code.begin_ ∧ code.begin_ < data.end_ <;> by_cases h2 : data.begin_ < code.end_ ∧ code.end_ < data.end_
  · simp only [if_pos h1, if_pos h2]
    split <;> simp only [] <;> omega
  · simp only [if_pos h1, if_neg h2]
    omega
  · simp only [if_neg h1, if_pos h2]
    omega
  · simp only [if_neg h1, if_neg h2]
    omega

/-- The range `r` of the objects from `o` to `p` of section `i`, with no function between them. -/
structure ObjectBlock (elf : Elf) (i : Nat) (o p : ElfSymbol) (r : AddressRange) : Prop where
  first : o.In elf .object ∧ o.StartsIn elf i
  last : p.In elf .object ∧ p.StartsIn elf i
  range : r = ⟨o.value, (p.value + p.size : Nat), some i⟩
  order : o.value ≤ p.value
  functions : NoOverlap elf → ∀ f : ElfSymbol, f.In elf .func → f.StartsIn elf i → f.value + f.size ≤ o.value ∨ p.value + p.size ≤ f.value

theorem ObjectBlock.le {elf : Elf} {i : Nat} {o p : ElfSymbol} {r : AddressRange} (B : ObjectBlock elf i o p r) : r.begin_ ≤ r.end_ := by
  rw [B.range]
  have := B.order
  simp only []
  omega

theorem IsBlock.object {elf : Elf} {i : Nat} {l : List ElfSymbol} (S : SectionSorted elf i l) {r : AddressRange} {pre mid post : List ElfSymbol}
    (B : IsBlock i .object r l pre mid post) : ∃ o p, ObjectBlock elf i o p r ∧ mid.head? = some o ∧ mid.getLast? = some p := by
  cases ho : mid.head? with
  | none => exact absurd (List.head?_eq_none_iff.1 ho) B.notEmpty
  | some o =>
    cases hp : mid.getLast? with
    | none => exact absurd (List.getLast?_eq_none_iff.1 hp) B.notEmpty
    | some p =>
      have ms : ∀ s ∈ mid, s ∈ l := fun s hs => by rw [B.whole]; simp [hs]
      have mo := List.mem_of_head? ho
      have mp := List.mem_of_getLast? hp
      have ht : ∀ s ∈ mid, s.In elf .object ∧ s.StartsIn elf i := fun s hs =>
        (S.mem_type (by decide)).1 (List.mem_filter.2 ⟨ms s hs, by simpa using B.types s hs⟩)
      have hsort := S.sorted
      rw [B.whole] at hsort
      obtain ⟨q1, q2, q3⟩ := List.pairwise_append.1 hsort
      obtain ⟨q4, q5, q6⟩ := List.pairwise_append.1 q1
      refine ⟨o, p, ⟨ht o mo, ht p mp, ?_, pairwise_head q5 ho mp, ?_⟩, rfl, rfl⟩
      · cases r with
        | mk b e idx =>
          have h1 := B.begin_ o ho
          have h2 := B.end_ p hp
          have h3 := B.section_
          simp only [] at h1 h2 h3
          rw [h1, h2, h3]
      · intro hno f hf hi
        have hfl := (List.mem_filter.1 ((S.mem_type (by decide : SymbolType.func ≠ .other)).2 ⟨hf, hi⟩)).1
        have hne : ∀ s ∈ mid, f ≠ s := by
          rintro s hs rfl
          have := B.types f hs
          rw [hf.type_] at this
          cases this
        have pf := S.positive hfl
        have po := S.positive (ms o mo)
        have pp := S.positive (ms p mp)
        have ao := S.apart hno hfl (ms o mo)
        have ap := S.apart hno hfl (ms p mp)
        rw [B.whole, List.mem_append, List.mem_append] at hfl
        rcases hfl with (hfl | hfl) | hfl
        · left
          have := q6 f hfl o mo
          rcases ao with e | e | e
          · exact absurd e (hne o mo)
          · exact e
          · omega
        · exact absurd rfl (hne f hfl)
        · right
          have := q3 p (List.mem_append_right _ mp) f hfl
          rcases ap with e | e | e
          · exact absurd e (hne p mp)
          · omega
          · exact e

theorem dataRange_spec {elf : Elf} {groups : List (Nat × List ElfSymbol)} (G : Groups elf (elfSymbols elf) groups) {code : AddressRange}
    (hc : code.begin_ ≤ code.end_) :
    (createDataRange (rangesPerSection .object groups) code = {} ∨
      ∃ i o p r, ObjectBlock elf i o p r ∧ createDataRange (rangesPerSection .object groups) code = trimRange code r ∧
        0 < (createDataRange (rangesPerSection .object groups) code).size) ∧
    (NoOverlap elf → ∀ s : ElfSymbol, s.In elf .object → code.Disjoint s.value (s.value + s.size) →
      (s.size : Int) ≤ (createDataRange (rangesPerSection .object groups) code).size) := by
  obtain ⟨h1, h2, h3⟩ := foldl_larger (trimRange code) (rangesPerSection .object groups).flatten {}
  refine ⟨?_, ?_⟩
  · rcases h1 with h1 | ⟨r, hr, h1, h4⟩
    · exact .inl h1
    · right
      obtain ⟨rs, k1, k2⟩ := List.mem_flatten.1 hr
      obtain ⟨i, l, g1, rfl, g3⟩ := mem_rangesPerSection.1 k1
      obtain ⟨⟨t, r'⟩, m1, rfl⟩ := List.mem_map.1 k2
      obtain ⟨m1, m2⟩ := List.mem_filter.1 m1
      have m2 : t = .object := by simpa using m2
      subst m2
      obtain ⟨pre, mid, post, B⟩ := (blocksOf_blocks i (sortByValue l)).1 _ _ m1
      obtain ⟨o, p, B', _⟩ := B.object (G.sorted g1)
      have e : createDataRange (rangesPerSection .object groups) code = _ := h1
      refine ⟨i, o, p, r', B', e, ?_⟩
      rw [e]
      exact h4
  · intro hno s hs hout
    obtain ⟨i, l, g1, g2⟩ := G.all s (mem_elfSymbols.2 (.inr hs))
    have S := G.sorted g2
    have hsl := (List.mem_filter.1 ((S.mem_type (by decide : SymbolType.object ≠ .other)).2 ⟨hs, startsIn_iff.1 g1⟩)).1
    obtain ⟨t, r, pre, mid, post, b1, B, b3⟩ := (blocksOf_blocks i (sortByValue l)).2 s hsl
    have ht : t = .object := by rw [← B.types s b3, hs.type_]
    subst ht
    obtain ⟨o, p, B', ho, hp⟩ := B.object S
    have hmem : r ∈ ((blocksOf i (sortByValue l)).filter fun b => b.1 = .object).map Prod.snd :=
      List.mem_map.2 ⟨(.object, r), List.mem_filter.2 ⟨b1, by simp⟩, rfl⟩
    have hrs := mem_rangesPerSection.2 ⟨i, l, g2, rfl, List.ne_nil_of_mem hmem⟩
    have hle := h3 r (List.mem_flatten.2 ⟨_, hrs, hmem⟩)
    have hsort := S.sorted
    rw [B.whole] at hsort
    have q5 := (List.pairwise_append.1 (List.pairwise_append.1 hsort).1).2.1
    have ms : ∀ s ∈ mid, s ∈ sortByValue l := fun s hs => by rw [B.whole]; simp [hs]
    have v1 := pairwise_head q5 ho b3
    have v2 := pairwise_last q5 hp b3
    have v3 := S.apart hno (ms s b3) (ms p (List.mem_of_getLast? hp))
    have pp := S.positive (ms p (List.mem_of_getLast? hp))
    have ps := hs.notEmpty
    have hin : r.Contains s.value (s.value + s.size) := by
      rw [B'.range]
      constructor
      · simp only []
        omega
      · simp only []
        rcases v3 with e | e | e
        · rw [e]; omega
        · omega
        · omega
    have := trimRange_size hc (by omega) hin hout
    show _ ≤ AddressRange.size (List.foldl _ _ _)
    omega

theorem elfFromFile_groups {elf : Elf} {code data : AddressRange} (h : elfFromFile elf = .ok (code, data)) :
    ∃ groups, Groups elf (elfSymbols elf) groups ∧ code = createCodeRange (rangesPerSection .func groups) ∧
      data = createDataRange (rangesPerSection .object groups) code := by
  unfold elfFromFile at h
  have G0 : Groups elf [] [] := ⟨.nil, fun i l h => (by cases h), fun s h => (by cases h)⟩
  cases hs : symbolsPerSection elf (elfSymbols elf) [] with
  | error e => rw [hs] at h; cases h
  | ok groups =>
    rw [hs] at h
    have G := (symbolsPerSection_groups (elfSymbols elf) [] [] G0).1 groups hs
    rw [List.nil_append] at G
    injection h with h
    injection h with e1 e2
    refine ⟨groups, G, e1.symm, ?_⟩
    rw [← e2, e1]

/-! ### Offsets -/

theorem bytesIndex_some (needle : Bytes) : ∀ (hay : Bytes) (k i : Nat), bytesIndex needle hay k = some i ↔
    k ≤ i ∧ i - k ≤ hay.length ∧ needle <+: hay.drop (i - k) ∧ ∀ j < i - k, ¬ needle <+: hay.drop j
  | [], k, i => by
    rw [bytesIndex]
    by_cases h : needle = []
    · rw [if_pos h]
      subst h
      constructor
      · intro e
        injection e with e
        subst e
        simp
      · rintro ⟨h1, h2, _⟩
        simp at h2
        rw [show k = i by omega]
    · rw [if_neg h]
      constructor
      · intro e; cases e
      · rintro ⟨_, _, h3, _⟩
        simp at h3
        exact absurd h3 h
  | b :: rest, k, i => by
    rw [bytesIndex]
    by_cases h : needle.isPrefixOf (b :: rest) = true
    · rw [if_pos h]
      have hp := List.isPrefixOf_iff_prefix.1 h
      constructor
      · intro e
        injection e with e
        subst e
        refine ⟨Nat.le_refl _, by simp, by simpa using hp, fun j hj => by omega⟩
      · rintro ⟨h1, h2, h3, h4⟩
        by_cases hk : k = i
        · rw [hk]
        · exact absurd hp (h4 0 (by omega))
    · rw [if_neg h, bytesIndex_some needle rest (k + 1) i]
      have hp : ¬ needle <+: b :: rest := fun hp => h (List.isPrefixOf_iff_prefix.2 hp)
      constructor
      · rintro ⟨h1, h2, h3, h4⟩
        have e : i - k = (i - (k + 1)) + 1 := by omega
        rw [e]
        refine ⟨by omega, by simp; omega, by simpa using h3, ?_⟩
        intro j hj
        cases j with
        | zero => exact hp
        | succ j => exact h4 j (by omega)
      · rintro ⟨h1, h2, h3, h4⟩
        have hne : i ≠ k := by
          rintro rfl
          simp at h3
          exact hp h3
        have e : i - k = (i - (k + 1)) + 1 := by omega
        rw [e] at h2 h3 h4
        refine ⟨by omega, by simpa using h2, by simpa using h3, fun j hj => h4 (j + 1) (by omega)⟩

theorem insertSection_mem (s : ElfSection) : ∀ l t, t ∈ insertSection s l ↔ t = s ∨ t ∈ l
  | [], t => by simp [insertSection]
  | x :: rest, t => by
    rw [insertSection]
    split
    · simp
    · rw [List.mem_cons, insertSection_mem s rest t, List.mem_cons]
      constructor
      · rintro (h | h | h)
        · exact .inr (.inl h)
        · exact .inl h
        · exact .inr (.inr h)
      · rintro (h | h | h)
        · exact .inr (.inl h)
        · exact .inl h
        · exact .inr (.inr h)

theorem sortSections_mem : ∀ l t, t ∈ sortSections l ↔ t ∈ l
  | [], t => Iff.rfl
  | s :: rest, t => by rw [sortSections, insertSection_mem, sortSections_mem rest, List.mem_cons]

/-- The first section of the list that contains the address. -/
theorem offsetForAddress_spec : ∀ (l : List ElfSection) (address : Int),
    (∀ o, offsetForAddress l address = .ok o → ∃ s ∈ l, (s.addr : Int) ≤ address ∧ address < s.addr + s.size ∧ o = address - s.addr + s.offset) ∧
    ((∃ s ∈ l, (s.addr : Int) ≤ address ∧ address < s.addr + s.size) → ∃ o, offsetForAddress l address = .ok o)
  | [], address => ⟨fun o h => (by cases h), fun ⟨_, h, _⟩ => (by cases h)⟩
  | s :: rest, address => by
    rw [offsetForAddress]
    obtain ⟨h1, h2⟩ := offsetForAddress_spec rest address
    by_cases h : (s.addr : Int) ≤ address ∧ address < s.addr + s.size
    · rw [if_pos h]
      refine ⟨fun o ho => ?_, fun _ => ⟨_, rfl⟩⟩
      injection ho with ho
      exact ⟨s, List.mem_cons_self, h.1, h.2, ho.symm⟩
    · rw [if_neg h]
      refine ⟨fun o ho => ?_, ?_⟩
      · obtain ⟨t, t1, t2⟩ := h1 o ho
        exact ⟨t, List.mem_cons_of_mem _ t1, t2⟩
      · rintro ⟨t, t1, t2⟩
        rcases List.mem_cons.1 t1 with rfl | t1
        · exact absurd t2 h
        · exact h2 ⟨t, t1, t2⟩

end Detools
