import Verif.Spec.CLzmaHeap
import Verif.Proofs.Lzma
/-
The LZMA reader with its buffers on the heap does what the reader over byte lists does, and
owns exactly its two blocks, whatever malloc does.
-/
namespace Detools.LzmaHeap

theorem written_map (d : Bytes) : written (d.map some) = some d := by
  induction d with
  | nil => rfl
  | cons b d ih => simp only [List.map_cons, written, ih, Option.map_some]

/-- A live block. -/
def Heap.Has (h : Heap) (b : Nat) (cells : List (Option UInt8)) : Prop := h.blocks[b]? = some (some cells)

theorem Heap.Has.lt {h : Heap} {b cells} (hb : h.Has b cells) : b < h.blocks.length := by
  unfold Heap.Has at hb
  exact (List.getElem?_eq_some_iff.mp hb).1

theorem Heap.load_ok {h : Heap} {b off : Nat} {cells} {d : Bytes} (hb : h.Has b cells) (hl : off + d.length ≤ cells.length)
    (hd : (cells.drop off).take d.length = d.map some) : h.load (some (b, off)) d.length = .ok d := by
  unfold Heap.Has at hb
  simp only [Heap.load, Heap.cells, hb, Bind.bind, Except.bind]
  rw [if_neg (by simp only [Ptr.off]; omega)]
  simp only [Ptr.off, hd, written_map]

/-- The cells after a write. -/
def put (cells : List (Option UInt8)) (off : Nat) (d : Bytes) : List (Option UInt8) :=
  cells.take off ++ d.map some ++ cells.drop (off + d.length)

theorem put_length {cells off d} (h : off + d.length ≤ cells.length) : (put cells off d).length = cells.length := by
  simp only [put, List.length_append, List.length_take, List.length_map, List.length_drop]
  omega

theorem put_read {cells off d} (h : off + d.length ≤ cells.length) : ((put cells off d).drop off).take d.length = d.map some := by
  unfold put
  rw [List.append_assoc, List.drop_append, List.drop_of_length_le (by simp; omega), List.nil_append, List.length_take,
    Nat.min_eq_left (by omega), Nat.sub_self, List.drop_zero, List.take_append_of_le_length (by simp), List.take_of_length_le (by simp)]

theorem put_before {cells off d n} (h : off + d.length ≤ cells.length) (hn : n ≤ off) : (put cells off d).take n = cells.take n := by
  unfold put
  rw [List.append_assoc, List.take_append_of_le_length (by simp; omega), List.take_take, Nat.min_eq_left hn]

theorem Heap.store_ok {h : Heap} {b off : Nat} {cells} {d : Bytes} (hb : h.Has b cells) (hl : off + d.length ≤ cells.length) :
    h.store (some (b, off)) d = .ok { h with blocks := h.blocks.set b (some (put cells off d)) } := by
  unfold Heap.Has at hb
  simp only [Heap.store, Heap.cells, hb, Bind.bind, Except.bind]
  rw [if_neg (by simp only [Ptr.off]; omega)]
  rfl

theorem Heap.free_ok {h : Heap} {b : Nat} {cells} (hb : h.Has b cells) :
    h.free (some (b, 0)) = .ok { h with blocks := h.blocks.set b none } := by
  unfold Heap.Has at hb
  simp only [Heap.free, hb, if_true]

theorem Heap.has_set_self {h : Heap} {b cells cells'} (hb : h.Has b cells) :
    Heap.Has { h with blocks := h.blocks.set b (some cells') } b cells' := by
  have := hb.lt
  simp only [Heap.Has, List.getElem?_set_self this]

theorem Heap.has_set_ne {h : Heap} {b b' v cells} (hn : b ≠ b') : Heap.Has { h with blocks := h.blocks.set b v } b' cells ↔ h.Has b' cells := by
  simp only [Heap.Has, List.getElem?_set_ne hn]

theorem Heap.not_has_set_none {h : Heap} {b cells} : ¬ Heap.Has { h with blocks := h.blocks.set b none } b cells := by
  simp only [Heap.Has, List.getElem?_set]
  split
  · split <;> simp
  · simp_all

theorem Heap.has_new {h : Heap} {n k r cells b} :
    Heap.Has { blocks := h.blocks ++ [some (List.replicate n none)], mallocs := k, refused := r } b cells ↔
      h.Has b cells ∨ (b = h.blocks.length ∧ cells = List.replicate n none) := by
  simp only [Heap.Has]
  rcases Nat.lt_trichotomy b h.blocks.length with hb | hb | hb
  · rw [List.getElem?_append_left hb]
    constructor
    · exact .inl
    · rintro (h | ⟨h, -⟩)
      · exact h
      · omega
  · subst hb
    rw [List.getElem?_append_right (Nat.le_refl _), Nat.sub_self, List.getElem?_eq_none (Nat.le_refl _)]
    simp only [List.getElem?_cons_zero, Option.some.injEq, reduceCtorEq, true_and, false_or]
    exact eq_comm
  · rw [List.getElem?_append_right (by omega), List.getElem?_eq_none (l := h.blocks) (by omega), List.getElem?_eq_none (by simp; omega)]
    simp only [reduceCtorEq, false_or, false_iff]
    rintro ⟨h, -⟩
    omega

/-- The input buffer holds `d` from `next_in`. -/
def InRep (h : Heap) (s : Reader) (d : Bytes) : Prop :=
  (s.inputP = none ∧ s.nextIn = none ∧ d = []) ∨ ∃ b off cells, s.inputP = some (b, 0) ∧ s.nextIn = some (b, off) ∧ h.Has b cells ∧
    off + d.length ≤ cells.length ∧ (cells.drop off).take d.length = d.map some

/-- The output buffer begins with `d`. -/
def OutRep (h : Heap) (s : Reader) (d : Bytes) : Prop :=
  (s.outputP = none ∧ d = []) ∨ ∃ b cells, s.outputP = some (b, 0) ∧ h.Has b cells ∧
    d.length ≤ cells.length ∧ cells.take d.length = d.map some

/-- The live blocks are the input and the output buffer. -/
structure Own (h : Heap) (s : Reader) : Prop where
  inp : s.inputP = none ∨ ∃ b cells, s.inputP = some (b, 0) ∧ h.Has b cells
  out : s.outputP = none ∨ ∃ b cells, s.outputP = some (b, 0) ∧ h.Has b cells
  diff : ∀ q, s.inputP = some q → s.outputP ≠ some q
  only : ∀ b cells, h.Has b cells → s.inputP = some (b, 0) ∨ s.outputP = some (b, 0)

/-- The reader on the heap stands for the reader over byte lists. -/
structure Rep (h : Heap) (s : Reader) (a : CLzma) : Prop where
  own : Own h s
  dec : s.dec = some a.dec
  availIn : s.availIn = a.input.length
  outputSize : s.outputSize = a.output.length
  inRep : InRep h s a.input
  outRep : OutRep h s a.output

theorem Rep.start (L : LzmaLib) : Rep {} (init L) { dec := L.start } :=
  ⟨⟨.inl rfl, .inl rfl, fun _ h => (by cases h), fun b cells h => by simp [Heap.Has] at h⟩, rfl, rfl, rfl, .inl ⟨rfl, rfl, rfl⟩, .inl ⟨rfl, rfl⟩⟩

theorem has_eq_blocks {h h' : Heap} (e : h'.blocks = h.blocks) {b cells} : h'.Has b cells ↔ h.Has b cells := by
  unfold Heap.Has; rw [e]

/-- Other blocks only were changed. -/
theorem Own.congr {h h' : Heap} {s : Reader} (e : h'.blocks = h.blocks) (o : Own h s) : Own h' s := by
  refine ⟨?_, ?_, o.diff, fun b cells hb => o.only b cells ((has_eq_blocks e).1 hb)⟩
  · rcases o.inp with k | ⟨b, c, k1, k2⟩
    · exact .inl k
    · exact .inr ⟨b, c, k1, (has_eq_blocks e).2 k2⟩
  · rcases o.out with k | ⟨b, c, k1, k2⟩
    · exact .inl k
    · exact .inr ⟨b, c, k1, (has_eq_blocks e).2 k2⟩

theorem get_ok {h : Heap} {s : Reader} {a : CLzma} (r : Rep h s a) {size : Nat} (hs : 0 < size) :
    (lzmaGet a size = none ∧ get h s size = .ok (none, s, h)) ∨
    ∃ data a' s' h', lzmaGet a size = some (data, a') ∧ get h s size = .ok (some data, s', h') ∧ Rep h' s' a' ∧ a'.input = a.input ∧
      h'.refused = h.refused := by
  unfold lzmaGet get
  rw [r.outputSize]
  by_cases hge : a.output.length ≥ size
  · refine .inr ?_
    rw [if_pos hge, if_pos hge]
    rcases r.outRep with ⟨-, k⟩ | ⟨b, cells, k1, k2, k3, k4⟩
    · rw [k] at hge; simp at hge; omega
    · have l1 : h.load (some (b, 0)) size = .ok (a.output.take size) := by
        have := Heap.load_ok (off := 0) (d := a.output.take size) k2 (by simp; omega)
          (by rw [List.drop_zero, List.length_take, Nat.min_eq_left hge, List.map_take, ← k4, List.take_take, Nat.min_eq_left hge])
        rwa [List.length_take, Nat.min_eq_left hge] at this
      have l2 : h.load (some (b, size)) (a.output.length - size) = .ok (a.output.drop size) := by
        have := Heap.load_ok (off := size) (d := a.output.drop size) k2 (by simp; omega)
          (by rw [List.map_drop, ← k4, List.length_drop, List.drop_take])
        rwa [List.length_drop] at this
      have hlen : 0 + (a.output.drop size).length ≤ cells.length := by simp; omega
      have l3 := Heap.store_ok (off := 0) (d := a.output.drop size) k2 hlen
      refine ⟨_, _, { s with outputSize := a.output.length - size },
        { h with blocks := h.blocks.set b (some (put cells 0 (a.output.drop size))) }, rfl, ?_, ?_, rfl, ?_⟩
      · rw [k1, l1]
        simp only [Bind.bind, Except.bind, Heap.copy, Ptr.add, Option.map_some, Nat.zero_add, l2, l3]
      · have hin : ∀ {b' : Nat}, s.inputP = some (b', 0) → b ≠ b' := fun hb' e => r.own.diff _ hb' (by rw [k1, e])
        refine ⟨⟨?_, .inr ⟨b, _, k1, Heap.has_set_self k2⟩, r.own.diff, ?_⟩, r.dec, r.availIn, (by simp), ?_, ?_⟩
        · rcases r.own.inp with q | ⟨b', c', q1, q2⟩
          · exact .inl q
          · exact .inr ⟨b', c', q1, (Heap.has_set_ne (hin q1)).2 q2⟩
        · intro b' c' hb'
          by_cases e : b = b'
          · subst e; exact .inr k1
          · exact r.own.only b' c' ((Heap.has_set_ne e).1 hb')
        · rcases r.inRep with q | ⟨b', off, c', q1, q2, q3, q4⟩
          · exact .inl q
          · exact .inr ⟨b', off, c', q1, q2, (Heap.has_set_ne (hin q1)).2 q3, q4⟩
        · refine .inr ⟨b, _, k1, Heap.has_set_self k2, ?_, ?_⟩
          · rw [put_length hlen]; simp; omega
          · have := put_read hlen
            rwa [List.drop_zero] at this
      · rfl
  · exact .inl ⟨by rw [if_neg hge], by rw [if_neg hge]⟩

/-- Move `n` bytes at `src` to the new block `p` and free `old`. -/
def move (h : Heap) (src old : Ptr) (n p : Nat) : H Heap :=
  match src with
  | none => .ok h
  | some q => do
    let h ← h.copy (some (p, 0)) (some q) n
    h.free old

theorem moveInput_eq (h : Heap) (s : Reader) (p : Nat) : moveInput h s p = move h s.nextIn s.inputP s.availIn p := rfl
theorem moveOutput_eq (h : Heap) (s : Reader) (p : Nat) : moveOutput h s p = move h s.outputP s.outputP s.outputSize p := rfl

/-- The live blocks after `old` was replaced by `p`. -/
def Swap (h h' : Heap) (old : Ptr) (p : Nat) (cells : List (Option UInt8)) : Prop :=
  ∀ x c, h'.Has x c ↔ (x = p ∧ c = cells) ∨ (x ≠ p ∧ old ≠ some (x, 0) ∧ h.Has x c)

theorem move_ok {h : Heap} {src old : Ptr} {d : Bytes} {m k : Nat} {rf : Bool} (hm : d.length ≤ m)
    (hr : (old = none ∧ src = none ∧ d = []) ∨ ∃ b off cells, old = some (b, 0) ∧ src = some (b, off) ∧ h.Has b cells ∧
      off + d.length ≤ cells.length ∧ (cells.drop off).take d.length = d.map some) :
    ∃ h' cells, move { blocks := h.blocks ++ [some (List.replicate m none)], mallocs := k, refused := rf } src old d.length h.blocks.length = .ok h' ∧
      Swap h h' old h.blocks.length cells ∧ cells.length = m ∧ cells.take d.length = d.map some ∧ h'.refused = rf := by
  have fresh : ∀ {x c}, h.Has x c → x ≠ h.blocks.length := fun hx e => by have := hx.lt; omega
  rcases hr with ⟨rfl, rfl, rfl⟩ | ⟨b, off, cells, rfl, rfl, hb, hl, hd⟩
  · refine ⟨_, List.replicate m none, rfl, ?_, by simp, by simp, rfl⟩
    intro x c
    rw [Heap.has_new]
    constructor
    · rintro (q | q)
      · exact .inr ⟨fresh q, (fun e => by cases e), q⟩
      · exact .inl q
    · rintro (q | ⟨-, -, q⟩)
      · exact .inr q
      · exact .inl q
  · have hb1 : Heap.Has { blocks := h.blocks ++ [some (List.replicate m none)], mallocs := k, refused := rf } b cells := Heap.has_new.2 (.inl hb)
    have hp1 : Heap.Has { blocks := h.blocks ++ [some (List.replicate m none)], mallocs := k, refused := rf } h.blocks.length (List.replicate m none) :=
      Heap.has_new.2 (.inr ⟨rfl, rfl⟩)
    have hl2 : 0 + d.length ≤ (List.replicate m (none : Option UInt8)).length := by simp; omega
    have s1 := Heap.load_ok hb1 hl hd
    have s2 := Heap.store_ok (d := d) hp1 hl2
    have hne : h.blocks.length ≠ b := fun e => fresh hb e.symm
    have hb2 := (Heap.has_set_ne (v := some (put (List.replicate m none) 0 d)) hne).2 hb1
    have s3 := Heap.free_ok hb2
    refine ⟨{ blocks := ((h.blocks ++ [some (List.replicate m none)]).set h.blocks.length (some (put (List.replicate m none) 0 d))).set b none, mallocs := k, refused := rf }, put (List.replicate m none) 0 d, ?_, ?_, ?_, ?_, ?_⟩
    · simp only [move, Heap.copy, s1, s2, Bind.bind, Except.bind]
      exact s3
    · intro x c
      by_cases hx : b = x
      · subst hx
        constructor
        · intro q; exact absurd q (Heap.not_has_set_none (h := ⟨_, k, rf⟩))
        · rintro (⟨e, -⟩ | ⟨-, e, -⟩)
          · exact absurd e.symm hne
          · exact absurd rfl e
      · rw [Heap.has_set_ne (h := ⟨_, k, rf⟩) hx]
        by_cases hp : h.blocks.length = x
        · subst hp
          have := Heap.has_set_self (cells' := put (List.replicate m none) 0 d) hp1
          constructor
          · intro q
            unfold Heap.Has at q this
            rw [this] at q
            cases q
            exact .inl ⟨rfl, rfl⟩
          · rintro (⟨-, rfl⟩ | ⟨e, -⟩)
            · exact this
            · exact absurd rfl e
        · rw [Heap.has_set_ne (h := ⟨_, k, rf⟩) hp, Heap.has_new]
          constructor
          · rintro (q | ⟨q, -⟩)
            · exact .inr ⟨fun e => hp e.symm, fun e => (by cases e; exact hx rfl), q⟩
            · exact absurd q.symm hp
          · rintro (⟨q, -⟩ | ⟨-, -, q⟩)
            · exact absurd q.symm hp
            · exact .inl q
    · rw [put_length hl2]; simp
    · have := put_read hl2
      rwa [List.drop_zero] at this
    · rfl

theorem prepareOutput_ok {A : Alloc} {h : Heap} {s : Reader} {a : CLzma} (r : Rep h s a) {size : Nat} (hs : a.output.length < size)
    (h64 : size < 2 ^ 64) (hr : h.refused = false) :
    (∃ h', prepareOutput A h s size = .ok (OUT_OF_MEMORY, s, h') ∧ Own h' s ∧ h'.refused = true) ∨
    ∃ p cells h' s', prepareOutput A h s size = .ok (0, s', h') ∧ Rep h' s' a ∧ s'.outputP = some (p, 0) ∧
      s'.nextOut = some (p, a.output.length) ∧ s'.availOut = size - a.output.length ∧ h'.Has p cells ∧ cells.length = size ∧ h'.refused = false := by
  unfold prepareOutput Heap.malloc
  by_cases hA : A h.mallocs size
  · rw [if_pos hA]
    refine .inr ?_
    obtain ⟨h', cells, q1, q2, q3, q4, q5⟩ := move_ok (h := h) (src := s.outputP) (old := s.outputP) (d := a.output) (m := size) (k := h.mallocs + 1)
      (rf := h.refused) (by omega) (by
        rcases r.outRep with ⟨k1, k2⟩ | ⟨b, c, k1, k2, k3, k4⟩
        · exact .inl ⟨k1, k1, k2⟩
        · exact .inr ⟨b, 0, c, k1, k1, k2, by omega, by rw [List.drop_zero]; exact k4⟩)
    have hp : h'.Has h.blocks.length cells := (q2 _ _).2 (.inl ⟨rfl, rfl⟩)
    have keep : ∀ {b c}, s.inputP = some (b, 0) → h.Has b c → h'.Has b c := fun e hb =>
      (q2 _ _).2 (.inr ⟨fun e => by have := hb.lt; omega, r.own.diff _ e, hb⟩)
    refine ⟨h.blocks.length, cells, h', { s with outputP := some (h.blocks.length, 0), nextOut := some (h.blocks.length, s.outputSize), availOut := szOfInt ((size : Int) - s.outputSize) }, ?_, ?_, rfl, ?_, ?_, hp, q3, by rw [q5, hr]⟩
    · simp only [moveOutput_eq, r.outputSize, q1, Bind.bind, Except.bind]
    · refine ⟨⟨?_, .inr ⟨_, _, rfl, hp⟩, ?_, ?_⟩, r.dec, r.availIn, r.outputSize, ?_, .inr ⟨_, _, rfl, hp, by omega, q4⟩⟩
      · rcases r.own.inp with k | ⟨b, c, k1, k2⟩
        · exact .inl k
        · exact .inr ⟨b, c, k1, keep k1 k2⟩
      · intro q e1 e2
        cases e2
        rcases r.own.inp with k | ⟨b, c, k1, k2⟩
        · have e1 : s.inputP = _ := e1
          rw [k] at e1; cases e1
        · have e1 : s.inputP = _ := e1
          rw [k1] at e1; cases e1
          have := k2.lt
          omega
      · intro b c hb
        rcases (q2 _ _).1 hb with ⟨k, -⟩ | ⟨-, k1, k2⟩
        · exact .inr (by rw [k])
        · exact .inl ((r.own.only _ _ k2).resolve_right k1)
      · rcases r.inRep with k | ⟨b, off, c, k1, k2, k3, k4⟩
        · exact .inl k
        · exact .inr ⟨b, off, c, k1, k2, keep k1 k3, k4⟩
    · show some (_, s.outputSize) = _
      rw [r.outputSize]
    · show szOfInt ((size : Int) - s.outputSize) = _
      rw [r.outputSize]
      unfold szOfInt
      rw [Int.emod_eq_of_lt (by omega) (by omega)]
      omega
  · rw [if_neg hA]
    exact .inl ⟨_, rfl, Own.congr (h := h) rfl r.own, rfl⟩

theorem code_ok {L : LzmaLib} {h : Heap} {s : Reader} {a : CLzma} (r : Rep h s a) {room p : Nat} {cells} (hin : a.input ≠ [])
    (k1 : s.outputP = some (p, 0)) (k2 : s.nextOut = some (p, a.output.length)) (k3 : s.availOut = room) (k4 : h.Has p cells)
    (k5 : cells.length = a.output.length + room) :
    ∃ s' h', code L h s = .ok ((L.code a.dec a.input room).good, s', h') ∧ h'.refused = h.refused ∧
      Rep h' { s' with outputSize := s'.nextOut.off - s'.outputP.off }
        { a with dec := (L.code a.dec a.input room).st, input := a.input.drop (L.code a.dec a.input room).used, output := a.output ++ (L.code a.dec a.input room).out } := by
  rcases r.inRep with ⟨-, -, k⟩ | ⟨b, off, cin, i1, i2, i3, i4, i5⟩
  · exact absurd k hin
  · have hused := L.used_le a.dec a.input room
    have hout := L.out_le a.dec a.input room
    have l1 := Heap.load_ok i3 i4 i5
    have hlen : a.output.length + (L.code a.dec a.input room).out.length ≤ cells.length := by omega
    have l2 := Heap.store_ok (d := (L.code a.dec a.input room).out) k4 hlen
    have hne : p ≠ b := fun e => r.own.diff _ i1 (by rw [k1, e])
    have hcells : h.cells (some (p, a.output.length)) = .ok cells := by
      unfold Heap.Has at k4
      simp only [Heap.cells, k4]
    refine ⟨{ s with
        dec := some (L.code a.dec a.input room).st
        nextIn := some (b, off + (L.code a.dec a.input room).used)
        availIn := a.input.length - (L.code a.dec a.input room).used
        nextOut := some (p, a.output.length + (L.code a.dec a.input room).out.length)
        availOut := room - (L.code a.dec a.input room).out.length },
      { h with blocks := h.blocks.set p (some (put cells a.output.length (L.code a.dec a.input room).out)) }, ?_, rfl, ?_⟩
    · unfold code
      rw [r.dec, r.availIn, i2, k2, k3]
      simp only [l1, hcells, Bind.bind, Except.bind]
      rw [if_neg (by simp only [Ptr.off]; omega)]
      simp only [l2, Ptr.add, Option.map_some]
    · refine ⟨⟨.inr ⟨b, cin, i1, (Heap.has_set_ne hne).2 i3⟩, .inr ⟨p, _, k1, Heap.has_set_self k4⟩, r.own.diff, ?_⟩, rfl, by simp, ?_, ?_, ?_⟩
      · intro b' c' hb'
        by_cases e : p = b'
        · subst e; exact .inr k1
        · exact r.own.only b' c' ((Heap.has_set_ne e).1 hb')
      · show Ptr.off _ - Ptr.off s.outputP = _
        rw [k1]
        simp [Ptr.off]
      · refine .inr ⟨b, _, cin, i1, rfl, (Heap.has_set_ne hne).2 i3, ?_, ?_⟩
        · simp only [List.length_drop]; omega
        · rw [List.map_drop, ← i5, List.length_drop, List.drop_take, List.drop_drop]
      · refine .inr ⟨p, _, k1, Heap.has_set_self k4, ?_, ?_⟩
        · rw [put_length hlen, List.length_append]; exact hlen
        · have hb : cells.take a.output.length = a.output.map some := by
            rcases r.outRep with ⟨e, -⟩ | ⟨b', c', e1, e2, -, e3⟩
            · rw [k1] at e; cases e
            · rw [k1] at e1
              cases e1
              unfold Heap.Has at k4 e2
              rw [k4] at e2
              cases e2
              exact e3
          rw [List.length_append, List.map_append, ← hb, ← put_read hlen, List.take_add, put_before hlen (Nat.le_refl _)]

theorem step_ok {L : LzmaLib} {A : Alloc} {h : Heap} {s : Reader} {a : CLzma} (r : Rep h s a) {size : Nat} (hs : a.output.length < size)
    (h64 : size < 2 ^ 64) (hr : h.refused = false) :
    (∃ s' h', step L A h s size = .ok (OUT_OF_MEMORY, s', h') ∧ Own h' s' ∧ h'.refused = true) ∨
    ∃ good a' s' h', lzmaStep L a size = .ok (good, a') ∧ step L A h s size = .ok (if good then 0 else LZMA_DECODE, s', h') ∧
      Own h' s' ∧ (good = true → Rep h' s' a') ∧ h'.refused = false ∧ a'.input.length ≤ a.input.length := by
  unfold step lzmaStep
  rw [r.availIn]
  by_cases hi : a.input.length > 0
  · rw [if_pos hi, if_pos hi]
    rcases prepareOutput_ok (A := A) r hs h64 hr with ⟨h', q1, q2, q3⟩ | ⟨p, cells, h1, s1, q1, q2, q3, q4, q5, q6, q7, q8⟩
    · refine .inl ⟨s, h', ?_, q2, q3⟩
      rw [q1]
      rfl
    · obtain ⟨s2, h2, c1, c2, c3⟩ := code_ok (L := L) q2 (fun e => by rw [e] at hi; simp at hi) q3 q4 q5 q6 (by omega)
      refine .inr ⟨(L.code a.dec a.input (size - a.output.length)).good,
        { a with dec := (L.code a.dec a.input (size - a.output.length)).st, input := a.input.drop (L.code a.dec a.input (size - a.output.length)).used, output := a.output ++ (L.code a.dec a.input (size - a.output.length)).out }, ?_⟩
      simp only [q1, c1, Bind.bind, Except.bind]
      rw [if_neg (by omega), if_neg (by decide)]
      cases hg : (L.code a.dec a.input (size - a.output.length)).good with
      | true => exact ⟨_, _, rfl, rfl, c3.own, fun _ => c3, by rw [c2, q8], by simp⟩
      | false =>
        exact ⟨_, _, rfl, rfl, ⟨c3.own.inp, c3.own.out, c3.own.diff, c3.own.only⟩, (fun e => by cases e), by rw [c2, q8], by simp⟩
  · rw [if_neg hi, if_neg hi]
    exact .inr ⟨true, a, s, h, rfl, rfl, r.own, fun _ => r, hr, Nat.le_refl _⟩

theorem prepareInput_ok {A : Alloc} {h : Heap} {s : Reader} {a : CLzma} (r : Rep h s a) {c : Chunk} (hc : c.Inv) (hl : c.left ≠ 0)
    (h64 : a.input.length + c.rest.length < 2 ^ 64) (hr : h.refused = false) :
    (∃ h', prepareInput A h s c = .ok (OUT_OF_MEMORY, s, h', c) ∧ Own h' s ∧ h'.refused = true) ∨
    ∃ h' s', prepareInput A h s c = .ok (0, s', h', { c with offset := c.buf.length }) ∧ Rep h' s' { a with input := a.input ++ c.rest } ∧
      h'.refused = false := by
  have hle := c.left_eq hc
  have hrest : c.rest.length = c.buf.length - c.offset := by simp [Chunk.rest]
  have hcl : c.offset ≤ c.buf.length := hc
  unfold prepareInput Heap.malloc
  rw [if_neg hl, r.availIn, hle, show sz (a.input.length + c.rest.length) = a.input.length + c.rest.length from Nat.mod_eq_of_lt h64]
  by_cases hA : A h.mallocs (a.input.length + c.rest.length)
  · rw [if_pos hA]
    refine .inr ?_
    obtain ⟨h1, cells, q1, q2, q3, q4, q5⟩ := move_ok (h := h) (src := s.nextIn) (old := s.inputP) (d := a.input)
      (m := a.input.length + c.rest.length) (k := h.mallocs + 1) (rf := h.refused) (by omega) r.inRep
    have hp : h1.Has h.blocks.length cells := (q2 _ _).2 (.inl ⟨rfl, rfl⟩)
    have hlen : a.input.length + c.rest.length ≤ cells.length := by omega
    have st := Heap.store_ok (d := c.rest) hp hlen
    have hpo : ∀ {b c'}, h.Has b c' → h.blocks.length ≠ b := fun hb e => by have := hb.lt; omega
    have keep : ∀ {b c'}, s.outputP = some (b, 0) → h.Has b c' → h1.Has b c' := fun e hb =>
      (q2 _ _).2 (.inr ⟨fun e => hpo hb e.symm, fun e' => r.own.diff _ e' e, hb⟩)
    refine ⟨{ h1 with blocks := h1.blocks.set h.blocks.length (some (put cells a.input.length c.rest)) },
      { s with inputP := some (h.blocks.length, 0), nextIn := some (h.blocks.length, 0), availIn := a.input.length + c.rest.length }, ?_, ?_, by rw [← hr, ← q5]⟩
    · simp only [moveInput_eq, r.availIn, q1, Bind.bind, Except.bind]
      rw [if_neg (by omega), List.take_of_length_le (by simp [Chunk.rest])]
      simp only [Chunk.rest] at st hrest ⊢
      rw [st]
      simp only [hrest]
      rw [show c.offset + (c.buf.length - c.offset) = c.buf.length by omega]
    · refine ⟨⟨.inr ⟨_, _, rfl, Heap.has_set_self hp⟩, ?_, ?_, ?_⟩, r.dec, by simp, r.outputSize, ?_, ?_⟩
      · rcases r.own.out with k | ⟨b, c', k1, k2⟩
        · exact .inl k
        · exact .inr ⟨b, c', k1, (Heap.has_set_ne (hpo k2)).2 (keep k1 k2)⟩
      · intro q e1 e2
        cases e1
        have e2 : s.outputP = _ := e2
        rcases r.own.out with k | ⟨b, c', k1, k2⟩
        · rw [k] at e2; cases e2
        · rw [k1] at e2; cases e2
          exact hpo k2 rfl
      · intro b c' hb
        by_cases e : h.blocks.length = b
        · exact .inl (by rw [e])
        · rcases (q2 _ _).1 ((Heap.has_set_ne e).1 hb) with ⟨k, -⟩ | ⟨-, k1, k2⟩
          · exact absurd k.symm e
          · exact .inr ((r.own.only _ _ k2).resolve_left k1)
      · refine .inr ⟨_, 0, _, rfl, rfl, Heap.has_set_self hp, ?_, ?_⟩
        · rw [put_length hlen, List.length_append]; omega
        · rw [List.drop_zero, List.length_append, List.map_append, ← q4, ← put_read hlen, List.take_add, put_before hlen (Nat.le_refl _)]
      · rcases r.outRep with k | ⟨b, c', k1, k2, k3⟩
        · exact .inl k
        · exact .inr ⟨b, c', k1, (Heap.has_set_ne (hpo k2)).2 (keep k1 k2), k3⟩
  · rw [if_neg hA]
    exact .inl ⟨_, rfl, Own.congr (h := h) rfl r.own, rfl⟩

/-- What a call of decompress does, as against the reader over byte lists. -/
def Agrees (a : CLzma) (c : Chunk) (heap : H (DRes × Reader × Heap × Chunk)) (plain : C (DRes × CLzma × Chunk)) : Prop :=
  ∃ r s' h' c', heap = .ok (r, s', h', c') ∧ Own h' s' ∧ ((h'.refused = true ∧ r = .fail OUT_OF_MEMORY) ∨
    (h'.refused = false ∧ ∃ a', plain = .ok (r, a', c') ∧ ((∃ e, r = .fail e ∧ e ≠ OUT_OF_MEMORY) ∨
      ((∀ e, r ≠ .fail e) ∧ Rep h' s' a' ∧ c'.Inv ∧ a'.input.length + c'.rest.length ≤ a.input.length + c.rest.length))))

theorem loop_ok {L : LzmaLib} {A : Alloc} {size : Nat} (h0 : 0 < size) (h64 : size < 2 ^ 64) : ∀ (fuel : Nat) {h : Heap} {s : Reader} {a : CLzma} {c : Chunk},
    Rep h s a → c.Inv → a.output.length < size → h.refused = false → a.input.length + c.rest.length < 2 ^ 64 →
    (if c.rest = [] then 1 else 2) ≤ fuel → Agrees a c (loop L A fuel h s c size) (lzmaLoop L fuel a c size) := by
  intro fuel
  induction fuel with
  | zero => intro h s a c _ _ _ _ _ hf; split at hf <;> omega
  | succ fuel ih =>
    intro h s a c r hc hs hr hb hf
    unfold loop lzmaLoop
    rcases step_ok (L := L) (A := A) r hs h64 hr with ⟨s1, h1, q1, q2, q3⟩ | ⟨good, a1, s1, h1, q1, q2, q3, q4, q5, q6⟩
    · rw [q1]
      simp only [Bind.bind, Except.bind]
      rw [if_pos (by decide)]
      exact ⟨_, _, _, _, rfl, q2, .inl ⟨q3, rfl⟩⟩
    · rw [q1, q2]
      cases good with
      | false =>
        simp only [Bind.bind, Except.bind, Bool.false_eq_true, if_false]
        rw [if_pos (by decide)]
        exact ⟨_, _, _, _, rfl, q3, .inr ⟨q5, _, rfl, .inl ⟨_, rfl, by decide⟩⟩⟩
      | true =>
        simp only [Bind.bind, Except.bind, if_true]
        rw [if_neg (by decide)]
        rcases get_ok (q4 rfl) h0 with ⟨g1, g2⟩ | ⟨data, a2, s2, h2, g1, g2, g3, g4, g5⟩
        · rw [g1, g2]
          simp only
          by_cases hl : c.left = 0
          · have hp : prepareInput A h1 s1 c = .ok (1, s1, h1, c) := by unfold prepareInput; rw [if_pos hl]
            rw [hp, if_pos hl]
            simp only
            rw [if_pos trivial]
            exact ⟨_, _, _, _, rfl, q3, .inr ⟨q5, _, rfl, .inr ⟨(fun e k => by cases k), q4 rfl, hc, by omega⟩⟩⟩
          · rw [if_neg hl, Chunk.readAll hc]
            simp only
            rcases prepareInput_ok (A := A) (q4 rfl) hc hl (by omega) q5 with ⟨h2, p1, p2, p3⟩ | ⟨h2, s2, p1, p2, p3⟩
            · rw [p1]
              simp only
              rw [if_neg (by decide), if_pos (by decide)]
              exact ⟨_, _, _, _, rfl, p2, .inl ⟨p3, rfl⟩⟩
            · rw [p1]
              simp only
              rw [if_neg (by decide), if_neg (by decide)]
              have hr1 : c.rest ≠ [] := fun e => hl (by rw [c.left_eq hc, e]; rfl)
              rw [if_neg hr1] at hf
              obtain ⟨e1, e2⟩ := c.ended
              obtain ⟨r', s', h', c', k1, k2, k3⟩ := ih p2 e1 (show a1.output.length < size from lzmaGet_none g1) p3 (by rw [e2]; simp; omega) (by rw [if_pos e2]; omega)
              refine ⟨r', s', h', c', k1, k2, k3.imp id fun k3 => ⟨k3.1, ?_⟩⟩
              obtain ⟨a', m1, m2⟩ := k3.2
              refine ⟨a', m1, m2.imp id fun m => ⟨m.1, m.2.1, m.2.2.1, ?_⟩⟩
              have := m.2.2.2
              rw [e2] at this
              simp only [List.length_append, List.length_nil] at this
              omega
        · rw [g1, g2]
          simp only
          exact ⟨_, _, _, _, rfl, g3.own, .inr ⟨by rw [g5, q5], _, rfl, .inr ⟨(fun e k => by cases k), g3, hc, by rw [g4]; omega⟩⟩⟩

theorem decompress_ok {L : LzmaLib} {A : Alloc} {size : Nat} (h0 : 0 < size) (h64 : size < 2 ^ 64) {h : Heap} {s : Reader} {a : CLzma} {c : Chunk}
    (r : Rep h s a) (hc : c.Inv) (hr : h.refused = false) (hb : a.input.length + c.rest.length < 2 ^ 64) :
    Agrees a c (decompress L A h s c size) (lzmaDecompress L a c size size) := by
  unfold decompress lzmaDecompress
  rw [if_neg (by omega)]
  rcases get_ok r h0 with ⟨g1, g2⟩ | ⟨data, a2, s2, h2, g1, g2, g3, g4, g5⟩
  · rw [g1, g2]
    exact loop_ok h0 h64 3 r hc (lzmaGet_none g1) hr hb (by split <;> omega)
  · rw [g1, g2]
    exact ⟨_, _, _, _, rfl, g3.own, .inr ⟨by rw [g5, hr], _, rfl, .inr ⟨(fun e k => by cases k), g3, hc, by rw [g4]; omega⟩⟩⟩

theorem plainUses_ok (L : LzmaLib) : ∀ (us : List Use) (a : CLzma) (c : Chunk), (∀ c, Use.chunk c ∈ us → c.Inv) → c.Inv → ∃ rs a', plainUses L us a c = .ok (rs, a') := by
  intro us
  induction us with
  | nil => exact fun a c _ _ => ⟨_, _, rfl⟩
  | cons u us ih =>
    intro a c hu hc
    have hu' : ∀ c, Use.chunk c ∈ us → c.Inv := fun c h => hu c (List.mem_cons_of_mem _ h)
    cases u with
    | chunk c => exact ih a c hu' (hu c List.mem_cons_self)
    | decompress size =>
      obtain ⟨⟨r, a1, c1⟩, k1, k2⟩ := lzmaDecompress_safe L a hc (Nat.le_refl size)
      simp only [plainUses, k1, Bind.bind, Except.bind]
      cases r with
      | fail e => exact ⟨_, _, rfl⟩
      | ok data =>
        obtain ⟨rs, a', m⟩ := ih a1 c1 hu' k2.1
        simp only [m]
        exact ⟨_, _, rfl⟩
      | more =>
        obtain ⟨rs, a', m⟩ := ih a1 c1 hu' k2.1
        simp only [m]
        exact ⟨_, _, rfl⟩

/-- What uses of the reader do, as against the reader over byte lists. -/
def UsesAgree (heap : H (List DRes × Reader × Heap)) (plain : C (List DRes × CLzma)) : Prop :=
  ∃ rs s' h' ps a', heap = .ok (rs, s', h') ∧ Own h' s' ∧ plain = .ok (ps, a') ∧
    ((h'.refused = true ∧ ∃ before, rs = before ++ [.fail OUT_OF_MEMORY] ∧ before <+: ps ∧ ∀ e, .fail e ∉ before) ∨
      (h'.refused = false ∧ rs = ps ∧ .fail OUT_OF_MEMORY ∉ rs ∧ ((∀ e, .fail e ∉ rs) → Rep h' s' a')))

theorem uses_ok (L : LzmaLib) (A : Alloc) : ∀ (us : List Use) {h : Heap} {s : Reader} {a : CLzma} {c : Chunk},
    Rep h s a → c.Inv → h.refused = false → a.input.length + c.rest.length + given us < 2 ^ 64 →
    (∀ c, Use.chunk c ∈ us → c.Inv) → (∀ size, Use.decompress size ∈ us → 0 < size ∧ size ≤ 128) → UsesAgree (uses L A us h s c) (plainUses L us a c) := by
  intro us
  induction us with
  | nil =>
    intro h s a c r _ hr _ _ _
    exact ⟨_, _, _, _, _, rfl, r.own, rfl, .inr ⟨hr, rfl, by simp, fun _ => r⟩⟩
  | cons u us ih =>
    intro h s a c r hc hr hb hu hs
    have hu' : ∀ c, Use.chunk c ∈ us → c.Inv := fun c h => hu c (List.mem_cons_of_mem _ h)
    have hs' : ∀ size, Use.decompress size ∈ us → 0 < size ∧ size ≤ 128 := fun n hn => hs n (List.mem_cons_of_mem _ hn)
    cases u with
    | chunk c =>
      refine ih (c := c) r (hu c List.mem_cons_self) hr ?_ hu' hs'
      simp only [given] at hb
      simp only [Chunk.rest, List.length_drop]
      omega
    | decompress size =>
      simp only [given] at hb
      obtain ⟨h0, h128⟩ := hs size List.mem_cons_self
      have h64 : size < 2 ^ 64 := by omega
      obtain ⟨x, s1, h1, c1, k1, k2, k3⟩ := decompress_ok (L := L) (A := A) h0 h64 r hc hr (by omega)
      simp only [uses, k1, Bind.bind, Except.bind]
      rcases k3 with ⟨k3, rfl⟩ | ⟨k3, a1, k4, ⟨e, rfl, he⟩ | ⟨hne, k5, k6, k7⟩⟩
      · obtain ⟨ps, a', m⟩ := plainUses_ok L (.decompress size :: us) a c hu hc
        exact ⟨_, _, _, ps, a', rfl, k2, m, .inl ⟨k3, [], rfl, List.nil_prefix, by simp⟩⟩
      · simp only [plainUses, k4, Bind.bind, Except.bind]
        refine ⟨_, _, _, _, _, rfl, k2, rfl, .inr ⟨k3, rfl, ?_, fun hf => absurd List.mem_cons_self (hf e)⟩⟩
        intro hm
        cases List.mem_singleton.1 hm
        exact he rfl
      · obtain ⟨rs, s', h', ps, a', m1, m2, m3, m4⟩ := ih k5 k6 k3 (by omega) hu' hs'
        have key : UsesAgree (.ok (x :: rs, s', h')) (.ok (x :: ps, a')) := by
          refine ⟨_, _, _, _, _, rfl, m2, rfl, ?_⟩
          rcases m4 with ⟨n1, before, n2, n3, n4⟩ | ⟨n1, n2, n3, n4⟩
          · refine .inl ⟨n1, x :: before, by rw [n2]; rfl, ?_, ?_⟩
            · obtain ⟨t, ht⟩ := n3
              exact ⟨t, by rw [← ht]; rfl⟩
            · intro e hm
              rcases List.mem_cons.1 hm with hm | hm
              · exact hne e hm.symm
              · exact n4 e hm
          · refine .inr ⟨n1, by rw [n2], ?_, fun hf => n4 fun e hm => hf e (List.mem_cons_of_mem _ hm)⟩
            intro hm
            rcases List.mem_cons.1 hm with hm | hm
            · exact hne _ hm.symm
            · exact n3 hm
        simp only [plainUses, k4, Bind.bind, Except.bind]
        cases x with
        | fail e => exact absurd rfl (hne e)
        | ok data => simp only [m1, m3]; exact key
        | more => simp only [m1, m3]; exact key

theorem destroy_ok {h : Heap} {s : Reader} (o : Own h s) : ∃ h', destroy h s =
    .ok (if s.availIn = 0 ∧ s.outputSize = 0 then 0 else CORRUPT_PATCH, { s with dec := none }, h') ∧ h'.AllFreed ∧ h'.refused = h.refused := by
  have free : ∀ {h : Heap} {p : Ptr}, (p = none ∨ ∃ b cells, p = some (b, 0) ∧ h.Has b cells) →
      ∃ h', h.free p = .ok h' ∧ h'.refused = h.refused ∧ ∀ b cells, h'.Has b cells ↔ h.Has b cells ∧ p ≠ some (b, 0) := by
    rintro h p (rfl | ⟨b, cells, rfl, hb⟩)
    · exact ⟨h, rfl, rfl, fun b cells => ⟨fun k => ⟨k, (fun e => by cases e)⟩, fun k => k.1⟩⟩
    · refine ⟨_, Heap.free_ok hb, rfl, fun b' cells' => ?_⟩
      by_cases e : b = b'
      · subst e
        exact ⟨fun k => absurd k Heap.not_has_set_none, fun k => absurd rfl k.2⟩
      · rw [Heap.has_set_ne e]
        exact ⟨fun k => ⟨k, fun q => by cases q; exact e rfl⟩, fun k => k.1⟩
  obtain ⟨h1, f1, f2, f3⟩ := free o.inp
  obtain ⟨h2, g1, g2, g3⟩ := free (h := h1) (p := s.outputP) (by
    rcases o.out with k | ⟨b, cells, k1, k2⟩
    · exact .inl k
    · exact .inr ⟨b, cells, k1, (f3 _ _).2 ⟨k2, fun e => o.diff _ e k1⟩⟩)
  refine ⟨h2, ?_, ?_, by rw [g2, f2]⟩
  · simp only [destroy, f1, g1, Bind.bind, Except.bind]
  · intro b hb
    obtain ⟨i, hi⟩ := List.mem_iff_getElem?.1 hb
    cases b with
    | none => rfl
    | some cells =>
      have k := (g3 i cells).1 hi
      have k' := (f3 i cells).1 k.1
      rcases o.only i cells k'.1 with q | q
      · exact absurd q k'.2
      · exact absurd q k.2

/-- The life of a reader, as against the reader over byte lists. -/
theorem life_ok (L : LzmaLib) (A : Alloc) (us : List Use) (hs : Sized us) :
    ∃ rs res h ps a, life L A us = .ok (rs, res, h) ∧ h.AllFreed ∧ plainUses L us { dec := L.start } {} = .ok (ps, a) ∧
      ((h.refused = true ∧ ∃ before, rs = before ++ [.fail OUT_OF_MEMORY] ∧ before <+: ps ∧ ∀ e, .fail e ∉ before) ∨
        (h.refused = false ∧ rs = ps ∧ .fail OUT_OF_MEMORY ∉ rs ∧ ((∀ e, .fail e ∉ rs) → res = CReader.destroy (.lzma a)))) := by
  obtain ⟨rs, s, h, ps, a, k1, k2, k3, k4⟩ := uses_ok L A us (c := {}) (Rep.start L) (Nat.le_refl 0) rfl
    (by simp only [Chunk.rest, List.drop_zero, List.length_nil]; have := hs.1; omega) hs.2.1 hs.2.2
  obtain ⟨h', d1, d2, d3⟩ := destroy_ok k2
  refine ⟨rs, if s.availIn = 0 ∧ s.outputSize = 0 then 0 else CORRUPT_PATCH, h', ps, a, ?_, d2, k3, ?_⟩
  · simp only [life, k1, d1, Bind.bind, Except.bind]
  · rw [d3]
    refine k4.imp id fun k => ⟨k.1, k.2.1, k.2.2.1, fun hf => ?_⟩
    have r := k.2.2.2 hf
    rw [r.availIn, r.outputSize]
    rfl

end Detools.LzmaHeap
