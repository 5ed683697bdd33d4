import Verif.Proofs.DfBlocks
import Verif.Proofs.DfFields
import Verif.Proofs.MemFile
import Verif.Spec.DataFormat
/-
Encoding hides bytes of the from- and to-data; the readers hide the same bytes of the
from-data and show those of the to-data.
-/
namespace Detools

/-- `d` is `x` with zeros where `C` holds. -/
structure Hides (x : Bytes) (C : Nat → Prop) (d : Bytes) : Prop where
  length : d.length = x.length
  hidden : ∀ p, p < x.length → C p → d[p]? = some 0
  kept : ∀ p, p < x.length → ¬ C p → d[p]? = x[p]?

/-- `d` is zeros with `x` where `C` holds. -/
structure Shows (x : Bytes) (C : Nat → Prop) (d : Bytes) : Prop where
  length : d.length = x.length
  shown : ∀ p, p < x.length → C p → d[p]? = x[p]?
  zero : ∀ p, p < x.length → ¬ C p → d[p]? = some 0

/-- The positions of the items of `d`, each `w` bytes long. -/
def At (w : Nat) (d : Dict) (p : Nat) : Prop := ∃ e ∈ d, e.1 ≤ p ∧ p < e.1 + w

theorem Hides.congr {x C C' d} (h : Hides x C d) (hc : ∀ p, C p ↔ C' p) : Hides x C' d :=
  ⟨h.length, fun p hp hC => h.hidden p hp ((hc p).2 hC), fun p hp hC => h.kept p hp (fun h' => hC ((hc p).1 h'))⟩

theorem Shows.congr {x C C' d} (h : Shows x C d) (hc : ∀ p, C p ↔ C' p) : Shows x C' d :=
  ⟨h.length, fun p hp hC => h.shown p hp ((hc p).2 hC), fun p hp hC => h.zero p hp (fun h' => hC ((hc p).1 h'))⟩

theorem Hides.start (x : Bytes) : Hides x (fun _ => False) x := ⟨rfl, fun _ _ h => h.elim, fun _ _ _ => rfl⟩

theorem Shows.start (x : Bytes) : Shows x (fun _ => False) (List.replicate x.length 0) :=
  ⟨by simp, fun _ _ h => h.elim, fun p hp _ => by rw [List.getElem?_replicate, if_pos hp]⟩

theorem Hides.unique {x C d d'} (h : Hides x C d) (h' : Hides x C d') : d = d' := by
  apply List.ext_getElem?
  intro p
  by_cases hp : p < x.length
  · by_cases hC : C p
    · rw [h.hidden p hp hC, h'.hidden p hp hC]
    · rw [h.kept p hp hC, h'.kept p hp hC]
  · rw [List.getElem?_eq_none (by have := h.length; omega), List.getElem?_eq_none (by have := h'.length; omega)]

theorem Hides.add {x C d d'} (h : Hides x C d) (h' : Shows x C d') : List.zipWith (· + ·) d d' = x := by
  apply List.ext_getElem?
  intro p
  rw [List.getElem?_zipWith]
  by_cases hp : p < x.length
  · rw [List.getElem?_eq_getElem hp]
    by_cases hC : C p
    · rw [h.hidden p hp hC, h'.shown p hp hC, List.getElem?_eq_getElem hp]; simp
    · rw [h.kept p hp hC, h'.zero p hp hC, List.getElem?_eq_getElem hp]; simp
  · rw [List.getElem?_eq_none (by have := h.length; omega), List.getElem?_eq_none (l := x) (by omega)]

theorem Hides.write {x C d} (h : Hides x C d) {a w : Nat} (ha : a + w ≤ x.length) :
    Hides x (fun p => C p ∨ (a ≤ p ∧ p < a + w)) (fileWrite d a (List.replicate w 0)) := by
  have hl := h.length
  refine ⟨by rw [fileWrite_length _ _ _ (by simp; omega), hl], ?_, ?_⟩
  · intro p hp hC
    rw [fileWrite_get, List.length_replicate]
    by_cases h1 : p < a
    · rw [if_pos h1, if_pos (by omega)]
      rcases hC with hC | ⟨h2, _⟩
      · exact h.hidden p hp hC
      · omega
    · rw [if_neg h1]
      by_cases h2 : p < a + w
      · rw [if_pos h2, List.getElem?_replicate, if_pos (by omega)]
      · rw [if_neg h2]
        rcases hC with hC | ⟨_, h3⟩
        · exact h.hidden p hp hC
        · omega
  · intro p hp hC
    have hC1 : ¬ C p := fun h' => hC (.inl h')
    have hC2 : ¬ (a ≤ p ∧ p < a + w) := fun h' => hC (.inr h')
    rw [fileWrite_get, List.length_replicate]
    by_cases h1 : p < a
    · rw [if_pos h1, if_pos (by omega)]
      exact h.kept p hp hC1
    · rw [if_neg h1, if_neg (by omega)]
      exact h.kept p hp hC1

theorem Shows.write {x C d} (h : Shows x C d) {a w : Nat} (ha : a + w ≤ x.length) :
    Shows x (fun p => C p ∨ (a ≤ p ∧ p < a + w)) (fileWrite d a (readAt x a w)) := by
  have hl := h.length
  have hr : (readAt x a w).length = w := by simp [readAt]; omega
  refine ⟨by rw [fileWrite_length _ _ _ (by omega), hl], ?_, ?_⟩
  · intro p hp hC
    rw [fileWrite_get, hr]
    by_cases h1 : p < a
    · rw [if_pos h1, if_pos (by omega)]
      rcases hC with hC | ⟨h2, _⟩
      · exact h.shown p hp hC
      · omega
    · rw [if_neg h1]
      by_cases h2 : p < a + w
      · rw [if_pos h2, readAt, List.getElem?_take_of_lt (by omega), List.getElem?_drop]
        congr 1; omega
      · rw [if_neg h2]
        rcases hC with hC | ⟨_, h3⟩
        · exact h.shown p hp hC
        · omega
  · intro p hp hC
    have hC1 : ¬ C p := fun h' => hC (.inl h')
    have hC2 : ¬ (a ≤ p ∧ p < a + w) := fun h' => hC (.inr h')
    rw [fileWrite_get, hr]
    by_cases h1 : p < a
    · rw [if_pos h1, if_pos (by omega)]
      exact h.zero p hp hC1
    · rw [if_neg h1, if_neg (by omega)]
      exact h.zero p hp hC1

theorem at_cons {w e d p} : At w (e :: d) p ↔ (e.1 ≤ p ∧ p < e.1 + w) ∨ At w d p := by
  simp [At]

theorem Hides.zeroAt {x : Bytes} {w : Nat} : ∀ (es : Dict) (C : Nat → Prop) (d : Bytes), Hides x C d → (∀ e ∈ es, e.1 + w ≤ x.length) →
    Hides x (fun p => C p ∨ At w es p) (zeroAt w (es.map (·.1)) d)
  | [], C, d, h, _ => h.congr (fun p => by simp [At])
  | e :: es, C, d, h, hin => by
    have h1 := h.write (a := e.1) (w := w) (hin e (by simp))
    have h2 := Hides.zeroAt es _ _ h1 (fun e' he => hin e' (by simp [he]))
    exact h2.congr (fun p => by rw [at_cons, or_assoc])

/-! ### Pieces -/

/-- A matching block that is kept: where it is in the from-table, and the items of both
tables. -/
structure Piece where
  i : Nat
  fs : Dict
  ts : Dict

/-- Its differences. -/
def Piece.diffs (q : Piece) : List Int := List.zipWith (fun f t => f.2 - t.2) q.fs q.ts

/-- The block made of it. -/
def Piece.block (q : Piece) : Block := ⟨q.i, ((q.ts.head?.getD (0, 0)).1 : Nat), q.diffs⟩

/-- A piece of `fd` and `td`: the same addresses, but for a shift. -/
structure Piece.Ok (fd td : Dict) (q : Piece) : Prop where
  same : q.fs.length = q.ts.length
  pos : 0 < q.fs.length
  isFrom : ∀ k, k < q.fs.length → fd[q.i + k]? = q.fs[k]?
  isTo : ∀ t ∈ q.ts, t ∈ td
  shifted : ∀ (k : Nat) (f t : Nat × Int), q.fs[k]? = some f → q.ts[k]? = some t →
    (t.1 : Int) = ((q.ts.head?.getD (0, 0)).1 : Nat) + f.1 - ((q.fs.head?.getD (0, 0)).1 : Nat)

theorem Piece.Ok.mem_from {fd td q} (h : Piece.Ok fd td q) {f} (hf : f ∈ q.fs) : f ∈ fd := by
  obtain ⟨k, hk, rfl⟩ := List.mem_iff_getElem.1 hf
  have := h.isFrom k hk
  rw [List.getElem?_eq_getElem hk] at this
  exact List.mem_of_getElem? this

theorem addressOffsets_get : ∀ (l : List Nat) (k : Nat) (a b : Nat), l[k]? = some a → l[k + 1]? = some b →
    (addressOffsets l)[k]? = some ((b : Int) - a)
  | [], k, a, b, h, _ => by simp at h
  | [x], k, a, b, _, h => by simp at h
  | x :: y :: l, 0, a, b, h, h' => by
    simp only [List.getElem?_cons_zero, List.getElem?_cons_succ, Option.some.injEq] at h h'
    subst h; subst h'
    rfl
  | x :: y :: l, k + 1, a, b, h, h' => by
    simp only [List.getElem?_cons_succ] at h h'
    simp only [addressOffsets, List.getElem?_cons_succ]
    exact addressOffsets_get (y :: l) k a b (by simpa using h) (by simpa using h')

theorem addressOffsets_length : ∀ (l : List Nat), (addressOffsets l).length = l.length - 1
  | [] => rfl
  | [_] => rfl
  | x :: y :: l => by
    simp only [addressOffsets, List.length_cons, addressOffsets_length (y :: l)]
    omega

theorem shifted_of_match {A B : List Nat} {i j n : Nat} (hi : i + n ≤ (addressOffsets A).length) (hj : j + n ≤ (addressOffsets B).length)
    (h : ((addressOffsets A).drop i).take n = ((addressOffsets B).drop j).take n) :
    ∀ k, k ≤ n → ∀ a b a0 b0, A[i + k]? = some a → B[j + k]? = some b → A[i]? = some a0 → B[j]? = some b0 →
      (b : Int) = b0 + a - a0 := by
  rw [addressOffsets_length] at hi hj
  intro k
  induction k with
  | zero =>
    intro _ a b a0 b0 h1 h2 h3 h4
    rw [Nat.add_zero, h3] at h1
    rw [Nat.add_zero, h4] at h2
    cases h1; cases h2; omega
  | succ k ih =>
    intro hk a b a0 b0 h1 h2 h3 h4
    have hA : i + k < A.length := by omega
    have hB : j + k < B.length := by omega
    have e := congrArg (fun l => l[k]?) h
    rw [List.getElem?_take_of_lt (by omega), List.getElem?_take_of_lt (by omega), List.getElem?_drop, List.getElem?_drop,
      addressOffsets_get A (i + k) _ a (List.getElem?_eq_getElem hA) (by rw [← h1]; rfl),
      addressOffsets_get B (j + k) _ b (List.getElem?_eq_getElem hB) (by rw [← h2]; rfl)] at e
    have := ih (by omega) _ _ a0 b0 (List.getElem?_eq_getElem hA) (List.getElem?_eq_getElem hB) h3 h4
    have e := Option.some.inj e
    omega

/-- A kind of instruction with the tables of the from- and to-data. -/
structure Tab where
  kind : Kind
  fd : Dict
  td : Dict

/-- What a disassembler must find: items inside the data, whose to-values give the bytes
that are there; differences are small. -/
structure Tab.Ok (fr to : Bytes) (T : Tab) : Prop where
  fromIn : ∀ e ∈ T.fd, e.1 + T.kind.width ≤ fr.length
  toIn : ∀ e ∈ T.td, e.1 + T.kind.width ≤ to.length
  toPack : ∀ e ∈ T.td, T.kind.pack e.2 = .ok (readAt to e.1 T.kind.width)
  diff : ∀ f ∈ T.fd, ∀ t ∈ T.td, Packs (f.2 - t.2)
  fromLength : T.fd.length ≤ fr.length

/-- From- and to-positions of pieces. -/
def fromCov (w : Nat) (qs : List Piece) (p : Nat) : Prop := ∃ q ∈ qs, At w q.fs p
def toCov (w : Nat) (qs : List Piece) (p : Nat) : Prop := ∃ q ∈ qs, At w q.ts p

theorem fromCov_cons {w q qs p} : fromCov w (q :: qs) p ↔ At w q.fs p ∨ fromCov w qs p := by simp [fromCov]
theorem toCov_cons {w q qs p} : toCov w (q :: qs) p ↔ At w q.ts p ∨ toCov w qs p := by simp [toCov]

/-- Sum of the sizes. -/
def sizeSum (ms : List (Nat × Nat × Nat)) : Nat := (ms.map (fun m => m.2.2)).sum

theorem matchLoop_ok {fr to : Bytes} {T : Tab} (hT : T.Ok fr to) : ∀ (ms : List (Nat × Nat × Nat)),
    (∀ m ∈ ms, m.1 + m.2.2 ≤ (addressOffsets (T.fd.map (·.1))).length ∧ m.2.1 + m.2.2 ≤ (addressOffsets (T.td.map (·.1))).length ∧
      ((addressOffsets (T.fd.map (·.1))).drop m.1).take m.2.2 = ((addressOffsets (T.td.map (·.1))).drop m.2.1).take m.2.2) →
    ∀ (C D : Nat → Prop) (f t : Bytes), Hides fr C f → Hides to D t →
    ∃ qs f' t', matchLoop T.fd T.td T.kind.width ms f t = .ok (qs.map Piece.block, f', t') ∧ (∀ q ∈ qs, q.Ok T.fd T.td) ∧
      Hides fr (fun p => C p ∨ fromCov T.kind.width qs p) f' ∧ Hides to (fun p => D p ∨ toCov T.kind.width qs p) t' ∧
      qs.length ≤ sizeSum ms ∧ ((qs.map Piece.block).flatMap Block.values).length ≤ 2 * sizeSum ms := by
  intro ms
  induction ms with
  | nil =>
    intro _ C D f t hf ht
    exact ⟨[], f, t, rfl, by simp, hf.congr (by simp [fromCov]), ht.congr (by simp [toCov]), by simp, by simp⟩
  | cons m ms ih =>
    intro hm C D f t hf ht
    obtain ⟨i, j, n⟩ := m
    have hm' := fun m h => hm m (List.mem_cons_of_mem _ h)
    have hsum : sizeSum ((i, j, n) :: ms) = n + sizeSum ms := by simp [sizeSum]
    have skip : ∃ qs f' t', matchLoop T.fd T.td T.kind.width ms f t = .ok (qs.map Piece.block, f', t') ∧ (∀ q ∈ qs, q.Ok T.fd T.td) ∧
      Hides fr (fun p => C p ∨ fromCov T.kind.width qs p) f' ∧ Hides to (fun p => D p ∨ toCov T.kind.width qs p) t' ∧
      qs.length ≤ sizeSum ((i, j, n) :: ms) ∧ ((qs.map Piece.block).flatMap Block.values).length ≤ 2 * sizeSum ((i, j, n) :: ms) := by
      obtain ⟨qs, f', t', h1, h2, h3, h4, h5, h6⟩ := ih hm' C D f t hf ht
      exact ⟨qs, f', t', h1, h2, h3, h4, by omega, by omega⟩
    simp only [matchLoop]
    by_cases hn : n < 8
    · rw [if_pos hn]; exact skip
    rw [if_neg hn]
    split
    · exact skip
    · obtain ⟨g1, g2, g3⟩ := hm _ (List.mem_cons_self ..)
      simp only at g1 g2 g3
      have g1' := g1
      have g2' := g2
      rw [addressOffsets_length, List.length_map] at g1' g2'
      generalize hq : (⟨i, (T.fd.drop i).take (n + 1), (T.td.drop j).take (n + 1)⟩ : Piece) = q
      have hfs : q.fs = (T.fd.drop i).take (n + 1) := by rw [← hq]
      have hts : q.ts = (T.td.drop j).take (n + 1) := by rw [← hq]
      have hqi : q.i = i := by rw [← hq]
      have lf : q.fs.length = n + 1 := by rw [hfs]; simp; omega
      have lt : q.ts.length = n + 1 := by rw [hts]; simp; omega
      have hjlt : j < T.td.length := by omega
      have hilt : i < T.fd.length := by omega
      have ht0 : q.ts.head? = some T.td[j] := by
        rw [hts, List.head?_take, if_neg (by omega), List.head?_drop, List.getElem?_eq_getElem hjlt]
      have hf0 : q.fs.head? = some T.fd[i] := by
        rw [hfs, List.head?_take, if_neg (by omega), List.head?_drop, List.getElem?_eq_getElem hilt]
      have hok : q.Ok T.fd T.td := by
        refine ⟨by omega, by omega, ?_, ?_, ?_⟩
        · intro k hk
          rw [hfs, List.getElem?_take_of_lt (by omega), List.getElem?_drop, hqi]
        · intro t ht
          rw [hts] at ht
          exact List.mem_of_mem_drop (List.mem_of_mem_take ht)
        · intro k a b ha hb
          have hk : k < n + 1 := by
            rcases Nat.lt_or_ge k (n + 1) with h | h
            · exact h
            · rw [List.getElem?_eq_none (by omega)] at ha; cases ha
          rw [hfs, List.getElem?_take_of_lt hk, List.getElem?_drop] at ha
          rw [hts, List.getElem?_take_of_lt hk, List.getElem?_drop] at hb
          rw [ht0, hf0]
          refine shifted_of_match g1 g2 g3 k (by omega) a.1 b.1 _ _ ?_ ?_ ?_ ?_
          · rw [List.getElem?_map, ha]; rfl
          · rw [List.getElem?_map, hb]; rfl
          · rw [List.getElem?_map, List.getElem?_eq_getElem hilt]; rfl
          · rw [List.getElem?_map, List.getElem?_eq_getElem hjlt]; rfl
      have hix : pyIndex T.td (j : Int) = .ok T.td[j] := by
        simp only [pyIndex]
        rw [if_neg (by omega), if_neg (by omega), Int.toNat_natCast, List.getElem?_eq_getElem hjlt]
      rw [← hfs, ← hts, hix]
      have hf1 := hf.zeroAt q.fs _ _ (fun e he => hT.fromIn e (hok.mem_from he))
      have ht1 := ht.zeroAt q.ts _ _ (fun e he => hT.toIn e (hok.isTo e he))
      obtain ⟨qs, f', t', h1, h2, h3, h4, h5, h6⟩ := ih hm' _ _ _ _ hf1 ht1
      refine ⟨q :: qs, f', t', ?_, ?_, h3.congr (fun p => by rw [fromCov_cons, or_assoc]), h4.congr (fun p => by rw [toCov_cons, or_assoc]), ?_, ?_⟩
      · simp only [bind, Except.bind, h1, pure, Except.pure, List.map_cons]
        simp only [Piece.block, ht0, hqi, Piece.diffs, Option.getD_some]
      · intro q' hq'
        rcases List.mem_cons.1 hq' with rfl | h
        · exact hok
        · exact h2 q' h
      · simp only [List.length_cons]; omega
      · simp only [List.map_cons, List.flatMap_cons, List.length_append]
        have : (Piece.block q).values.length = n + 1 := by simp [Piece.block, Piece.diffs]; omega
        omega

/-! ### Sizes -/

theorem sizeSum_le : ∀ (ms : List (Nat × Nat × Nat)) (s L : Nat), s ≤ L → (∀ m ∈ ms, s ≤ m.1 ∧ m.1 + m.2.2 ≤ L) →
    ms.Pairwise (fun x y => x.1 + x.2.2 ≤ y.1 ∧ x.2.1 + x.2.2 ≤ y.2.1) → s + sizeSum ms ≤ L
  | [], s, L, h, _, _ => by simpa [sizeSum] using h
  | m :: ms, s, L, h, hm, hp => by
    rw [List.pairwise_cons] at hp
    have h1 := hm m (by simp)
    have := sizeSum_le ms (m.1 + m.2.2) L h1.2 (fun m' h' => ⟨(hp.1 m' h').1, (hm m' (by simp [h'])).2⟩) hp.2
    simp only [sizeSum, List.map_cons, List.sum_cons] at this ⊢
    omega

theorem pieces_pack {fr to : Bytes} {T : Tab} (hT : T.Ok fr to) (hfr : fr.length < 2 ^ 62) (hto : to.length < 2 ^ 62) {q : Piece}
    (hq : q.Ok T.fd T.td) : q.block.Packs := by
  have hpos := hq.pos
  have hlen := hT.fromLength
  have hlast := hq.isFrom (q.fs.length - 1) (by omega)
  rw [List.getElem?_eq_getElem (l := q.fs) (by omega)] at hlast
  have hi : q.i + (q.fs.length - 1) < T.fd.length := by
    rcases Nat.lt_or_ge (q.i + (q.fs.length - 1)) T.fd.length with h | h
    · exact h
    · rw [List.getElem?_eq_none h] at hlast; cases hlast
  refine ⟨?_, ?_, ?_, ?_⟩
  · show Packs (q.i : Int)
    constructor <;> omega
  · have hne : q.ts ≠ [] := by intro h; have := hq.same; rw [h, List.length_nil] at this; omega
    obtain ⟨t, ts, hts⟩ := List.exists_cons_of_ne_nil hne
    have := hT.toIn t (hq.isTo t (by rw [hts]; simp))
    simp only [Piece.block, hts, List.head?_cons, Option.getD_some]
    constructor <;> omega
  · simp only [Piece.block, Piece.diffs, List.length_zipWith]; omega
  · intro v hv
    simp only [Piece.block, Piece.diffs] at hv
    obtain ⟨⟨f, t⟩, hm, rfl⟩ := List.mem_map.1 (show v ∈ (q.fs.zip q.ts).map (fun p => p.1.2 - p.2.2) by rw [List.map_zip_eq_zipWith]; exact hv)
    exact hT.diff f (hq.mem_from (List.of_mem_zip hm).1) t (hq.isTo t (List.of_mem_zip hm).2)

/-- `create_patch_block`. -/
theorem createPatchBlock_ok {sm : Matcher} (hsm : sm.Ok) {fr to : Bytes} {T : Tab} (hT : T.Ok fr to) (hfr : fr.length < 2 ^ 50) (hto : to.length < 2 ^ 50)
    {C D : Nat → Prop} {f t : Bytes} (hf : Hides fr C f) (ht : Hides to D t) :
    ∃ qs f' t', createPatchBlock sm T.fd T.td T.kind.width f t =
        .ok ((headerBytes (qs.map Piece.block), dataBytes (qs.map Piece.block)), f', t') ∧ (∀ q ∈ qs, q.Ok T.fd T.td) ∧
      Hides fr (fun p => C p ∨ fromCov T.kind.width qs p) f' ∧ Hides to (fun p => D p ∨ toCov T.kind.width qs p) t' ∧
      (headerBytes (qs.map Piece.block)).length ≤ 2 ^ 55 ∧ (dataBytes (qs.map Piece.block)).length ≤ 2 ^ 55 := by
  unfold createPatchBlock
  by_cases h0 : T.fd = [] ∨ T.td = []
  · rw [if_pos h0]
    exact ⟨[], f, t, rfl, by simp, hf.congr (by simp [fromCov]), ht.congr (by simp [toCov]), by decide, by decide⟩
  · rw [if_neg h0]
    generalize hms : getMatchingBlocks sm (T.fd.map (·.1)) (T.td.map (·.1)) = ms
    have hsub : ∀ m ∈ ms, m ∈ sm (addressOffsets (T.fd.map (·.1))) (addressOffsets (T.td.map (·.1))) := by
      intro m hm
      rw [← hms] at hm
      exact List.dropLast_subset _ hm
    have hgen : ∀ m ∈ ms, m.1 + m.2.2 ≤ (addressOffsets (T.fd.map (·.1))).length ∧ m.2.1 + m.2.2 ≤ (addressOffsets (T.td.map (·.1))).length ∧
      ((addressOffsets (T.fd.map (·.1))).drop m.1).take m.2.2 = ((addressOffsets (T.td.map (·.1))).drop m.2.1).take m.2.2 :=
      fun m hm => hsm.genuine _ _ m.1 m.2.1 m.2.2 (hsub m hm)
    obtain ⟨qs, f', t', h1, h2, h3, h4, h5, h6⟩ := matchLoop_ok hT ms hgen C D f t hf ht
    have hpw : ms.Pairwise (fun x y => x.1 + x.2.2 ≤ y.1 ∧ x.2.1 + x.2.2 ≤ y.2.1) := by
      rw [← hms]
      exact (hsm.increasing _ _).sublist (List.dropLast_sublist _)
    have hsz := sizeSum_le ms 0 _ (Nat.zero_le _) (fun m hm => ⟨Nat.zero_le _, (hgen m hm).1⟩) hpw
    rw [addressOffsets_length, List.length_map] at hsz
    have hlen := hT.fromLength
    have hp : ∀ b ∈ qs.map Piece.block, b.Packs := by
      intro b hb
      obtain ⟨q, hq, rfl⟩ := List.mem_map.1 hb
      exact pieces_pack hT (by omega) (by omega) (h2 q hq)
    have hn : (qs.map Piece.block).length < 2 ^ 63 := by rw [List.length_map]; omega
    have hbl := blocks_length hn hp
    rw [List.length_map] at hbl
    refine ⟨qs, f', t', ?_, h2, h3, h4, by omega, by omega⟩
    simp only [bind, Except.bind, h1, blocksToBytes_ok hn hp, pure, Except.pure]

/-! ### Reading -/

theorem pyIndex_nat (d : List α) (n : Nat) {a : α} (h : d[n]? = some a) {i : Int} (hi : i = n) : pyIndex d i = .ok a := by
  subst hi
  simp only [pyIndex]
  rw [if_neg (by omega), if_neg (by omega), Int.toNat_natCast, h]

theorem writeBlockValues_ok {to : Bytes} {d : Dict} {k : Kind} {fo ta base : Nat} :
    ∀ (fs ts : Dict) (i : Nat) (C : Nat → Prop) (f : Bytes), fs.length = ts.length → (∀ n, n < fs.length → d[fo + (i + n)]? = fs[n]?) →
    (∀ (n : Nat) (a b : Nat × Int), fs[n]? = some a → ts[n]? = some b → (b.1 : Int) = ta + a.1 - base) →
    (∀ t ∈ ts, t.1 + k.width ≤ to.length ∧ k.pack t.2 = .ok (readAt to t.1 k.width)) → Shows to C f →
    ∃ f', writeBlockValues d k.pack fo ta base i (List.zipWith (fun f t => f.2 - t.2) fs ts) f = .ok f' ∧
      Shows to (fun p => C p ∨ At k.width ts p) f'
  | [], [], i, C, f, _, _, _, _, hs => ⟨f, rfl, hs.congr (fun p => by simp [At])⟩
  | [], _ :: _, _, _, _, h, _, _, _, _ => by simp at h
  | _ :: _, [], _, _, _, h, _, _, _, _ => by simp at h
  | a :: fs, b :: ts, i, C, f, hl, hd, hsh, hp, hs => by
    have hb := hp b (by simp)
    have h1 := hs.write hb.1
    have e0 := hsh 0 a b rfl rfl
    obtain ⟨f', g1, g2⟩ := writeBlockValues_ok (d := d) (fo := fo) (ta := ta) (base := base) fs ts (i + 1) _ _ (by simpa using hl)
      (fun n hn => by
        have := hd (n + 1) (by simp; omega)
        rw [show i + 1 + n = i + (n + 1) by omega, this]; rfl)
      (fun n x y hx hy => hsh (n + 1) x y hx hy) (fun t ht => hp t (by simp [ht])) h1
    refine ⟨f', ?_, g2.congr (fun p => by rw [at_cons, or_assoc])⟩
    have hix : pyIndex d ((fo : Int) + i) = .ok a := pyIndex_nat d (fo + (i + 0)) (hd 0 (by simp)) (by simp)
    simp only [List.zipWith_cons_cons, writeBlockValues, hix, bind, Except.bind]
    rw [show a.2 - (a.2 - b.2) = b.2 by omega, hb.2]
    simp only
    rw [if_neg (by omega), ← e0, Int.toNat_natCast]
    exact g1

theorem writeValues_ok {fr to : Bytes} {T : Tab} (hT : T.Ok fr to) : ∀ (qs : List Piece) (C : Nat → Prop) (f : Bytes),
    (∀ q ∈ qs, q.Ok T.fd T.td) → Shows to C f →
    ∃ f', writeValues T.fd T.kind.pack (qs.map Piece.block) f = .ok f' ∧ Shows to (fun p => C p ∨ toCov T.kind.width qs p) f'
  | [], C, f, _, hs => ⟨f, rfl, hs.congr (fun p => by simp [toCov])⟩
  | q :: qs, C, f, hq, hs => by
    have h := hq q (by simp)
    obtain ⟨f0, fs, hfs⟩ := List.exists_cons_of_ne_nil (l := q.fs) (by intro h'; have := h.pos; rw [h'] at this; simp at this)
    have hbase : (q.fs.head?.getD (0, 0)).1 = f0.1 := by rw [hfs]; rfl
    have h0 := h.isFrom 0 h.pos
    rw [hfs, Nat.add_zero] at h0
    obtain ⟨f1, g1, g2⟩ := writeBlockValues_ok (to := to) (d := T.fd) (k := T.kind) (fo := q.i) (ta := (q.ts.head?.getD (0, 0)).1) (base := f0.1)
      q.fs q.ts 0 C f h.same (fun n hn => by rw [Nat.zero_add]; exact h.isFrom n hn)
      (fun n a b ha hb => by rw [← hbase]; exact h.shifted n a b ha hb)
      (fun t ht => ⟨hT.toIn t (h.isTo t ht), hT.toPack t (h.isTo t ht)⟩) hs
    obtain ⟨f2, g3, g4⟩ := writeValues_ok hT qs _ f1 (fun q' h' => hq q' (by simp [h'])) g2
    refine ⟨f2, ?_, g4.congr (fun p => by rw [toCov_cons, or_assoc])⟩
    simp only [List.map_cons, writeValues, Piece.block, pyIndex_nat T.fd q.i h0 rfl, bind, Except.bind]
    simp only [Piece.diffs, g1]
    exact g3

theorem writeBlockZeros_ok {fr : Bytes} {d : Dict} {w fo : Nat} :
    ∀ (fs : Dict) (i : Nat) (C : Nat → Prop) (f : Bytes), (∀ n, n < fs.length → d[fo + (i + n)]? = fs[n]?) →
    (∀ e ∈ fs, e.1 + w ≤ fr.length) → Hides fr C f →
    ∃ f', writeBlockZeros d w fo i fs.length f = .ok f' ∧ Hides fr (fun p => C p ∨ At w fs p) f'
  | [], i, C, f, _, _, hs => ⟨f, rfl, hs.congr (fun p => by simp [At])⟩
  | a :: fs, i, C, f, hd, hp, hs => by
    have h1 := hs.write (hp a (by simp))
    obtain ⟨f', g1, g2⟩ := writeBlockZeros_ok (d := d) (fo := fo) fs (i + 1) _ _
      (fun n hn => by
        have := hd (n + 1) (by simp; omega)
        rw [show i + 1 + n = i + (n + 1) by omega, this]; rfl)
      (fun t ht => hp t (by simp [ht])) h1
    refine ⟨f', ?_, g2.congr (fun p => by rw [at_cons, or_assoc])⟩
    have hix : pyIndex d ((fo : Int) + i) = .ok a := pyIndex_nat d (fo + (i + 0)) (hd 0 (by simp)) (by simp)
    simp only [List.length_cons, writeBlockZeros, hix, bind, Except.bind]
    exact g1

theorem writeZeros_ok {fr to : Bytes} {T : Tab} (hT : T.Ok fr to) : ∀ (qs : List Piece) (C : Nat → Prop) (f : Bytes),
    (∀ q ∈ qs, q.Ok T.fd T.td) → Hides fr C f →
    ∃ f', writeZeros T.fd T.kind.width (qs.map Piece.block) f = .ok f' ∧ Hides fr (fun p => C p ∨ fromCov T.kind.width qs p) f'
  | [], C, f, _, hs => ⟨f, rfl, hs.congr (fun p => by simp [fromCov])⟩
  | q :: qs, C, f, hq, hs => by
    have h := hq q (by simp)
    obtain ⟨f1, g1, g2⟩ := writeBlockZeros_ok (fr := fr) (d := T.fd) (w := T.kind.width) (fo := q.i)
      q.fs 0 C f (fun n hn => by rw [Nat.zero_add]; exact h.isFrom n hn) (fun e he => hT.fromIn e (h.mem_from he)) hs
    obtain ⟨f2, g3, g4⟩ := writeZeros_ok hT qs _ f1 (fun q' h' => hq q' (by simp [h'])) g2
    refine ⟨f2, ?_, g4.congr (fun p => by rw [fromCov_cons, or_assoc])⟩
    have hl : q.block.values.length = q.fs.length := by simp [Piece.block, Piece.diffs, h.same]
    simp only [List.map_cons, writeZeros, hl, bind, Except.bind]
    rw [show q.block.fromOffset = (q.i : Int) from rfl, g1]
    exact g3

end Detools
