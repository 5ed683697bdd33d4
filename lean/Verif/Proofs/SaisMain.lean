import Verif.Proofs.SaisSort2
import Verif.Proofs.SaisCopy
/-
SA-IS: the reduced text, and the whole algorithm.
-/
namespace Detools
namespace Sais

variable {t : List Nat} {k p0 : Nat}

/-! ### The numbers of the left-most S positions -/

theorem cnt_below {p : Nat → Prop} {x : Nat} : ∀ {n : Nat}, x ≤ n → cnt n (fun y => p y ∧ y < x) = cnt x p
  | 0, h => by
    have : x = 0 := by omega
    subst this
    rfl
  | n + 1, h => by
    by_cases he : x = n + 1
    · subst he
      exact cnt_congr fun y hy => ⟨And.left, fun h => ⟨h, hy⟩⟩
    · rw [cnt, if_neg (by omega), cnt_below (by omega), Nat.add_zero]

/-- The number of left-most S positions before `x`. -/
noncomputable def lidx (t : List Nat) (x : Nat) : Nat := rnk t.length (fun x => isLms t x = true) (fun x => [x]) x

theorem idxRanked (t : List Nat) : Ranked t.length (fun x => isLms t x = true) (fun x => [x]) where
  lt h := by have := isLms_lt h; omega
  inj h1 h2 h3 := by injection h3

theorem lex_one {x y : Nat} : Lex [x] [y] ↔ x < y := by
  have : ¬ Lex ([] : List Nat) [] := Lex.irrefl _
  simp only [lex_cons, this, and_false, or_false]

theorem lidx_eq {x : Nat} (h : x ≤ t.length) : lidx t x = cnt x (fun y => isLms t y = true) := by
  rw [← cnt_below h]
  unfold lidx rnk
  apply cnt_congr
  intro y _
  rw [lex_one]

theorem lidx_lt {x : Nat} (hx : isLms t x = true) : lidx t x < lcount t := (idxRanked t).rnk_lt hx

theorem lidx_surj {r : Nat} (h : r < lcount t) : ∃ x, isLms t x = true ∧ lidx t x = r := (idxRanked t).surj h

theorem lidx_mono {x y : Nat} (hx : isLms t x = true) (hy : isLms t y = true) : lidx t x < lidx t y ↔ x < y :=
  Iff.trans ((idxRanked t).mono_iff hx hy) lex_one

theorem lidx_inj {x y : Nat} (hx : isLms t x = true) (hy : isLms t y = true) (h : lidx t x = lidx t y) : x = y := (idxRanked t).rnk_inj hx hy h

theorem first_exists (h : 0 < lcount t) : ∃ p0, IsFirst t p0 := by
  obtain ⟨x, hx, hr⟩ := lidx_surj h
  refine ⟨x, hx, fun y hy => ?_⟩
  by_cases he : x ≤ y
  · exact he
  · have := (lidx_mono hy hx).2 (by omega)
    omega

theorem lidx_next {x : Nat} (hx : isLms t x = true) (h : ns t x < t.length) : lidx t (ns t x) = lidx t x + 1 := by
  have hxl : x < t.length := by have := isLms_lt hx; omega
  obtain ⟨h1, h2, h3, h4⟩ := ns_spec hxl
  rw [lidx_eq (by omega), lidx_eq (by omega), ← cnt_below (p := fun y => isLms t y = true) (x := x) (n := ns t x) (by omega), ← cnt_insert (a := x) h1 (fun h => by omega)]
  apply cnt_congr
  intro y hy
  constructor
  · intro hl
    rcases Nat.lt_trichotomy y x with h5 | h5 | h5
    · exact .inl ⟨hl, h5⟩
    · exact .inr h5
    · rw [h4 y h5 hy] at hl; cases hl
  · rintro (⟨h5, _⟩ | rfl)
    · exact h5
    · exact hx

theorem lmsUpto_get : ∀ (i x : Nat), x ≤ i → isLms t x = true → (lmsUpto t i).reverse[cnt x (fun y => isLms t y = true)]? = some x
  | 0, x, h, hx => by
    have := isLms_pos hx
    omega
  | i + 1, x, h, hx => by
    unfold lmsUpto
    by_cases hl : isLms t (i + 1) = true
    · rw [if_pos hl, List.reverse_cons]
      have hlen : (lmsUpto t i).reverse.length = cnt (i + 1) (fun y => isLms t y = true) := by rw [List.length_reverse, lmsUpto_length]
      by_cases he : x = i + 1
      · subst he
        rw [List.getElem?_append_right (by omega), hlen, Nat.sub_self]
        rfl
      · rw [List.getElem?_append_left]
        · exact lmsUpto_get i x (by omega) hx
        · rw [hlen, ← cnt_below (p := fun y => isLms t y = true) (x := x) (n := i + 1) (by omega)]
          exact cnt_lt (fun y _ h => h.1) (a := x) (by omega) hx (fun h => by omega)
    · rw [if_neg hl]
      have : x ≠ i + 1 := fun e => hl (e ▸ hx)
      exact lmsUpto_get i x (by omega) hx

theorem lms_get {x : Nat} (hx : isLms t x = true) : (lmsList t).reverse[lidx t x]? = some x := by
  have := isLms_lt hx
  rw [lidx_eq (by omega)]
  exact lmsUpto_get _ x (by omega) hx

/-! ### The reduced text -/

theorem filter_get : ∀ (l : List Int), (l.filter (fun v => v ≠ 0)).length = cnt l.length (fun i => ∃ v, l[i]? = some v ∧ v ≠ 0) ∧
    ∀ (q : Nat) (v : Int), l[q]? = some v → v ≠ 0 → (l.filter (fun v => v ≠ 0))[cnt q (fun i => ∃ v, l[i]? = some v ∧ v ≠ 0)]? = some v
  | [] => by simp [cnt]
  | a :: l => by
    obtain ⟨ih1, ih2⟩ := filter_get l
    have hsh : ∀ q, cnt (q + 1) (fun i => ∃ v, (a :: l)[i]? = some v ∧ v ≠ 0) = (if a ≠ 0 then 1 else 0) + cnt q (fun i => ∃ v, l[i]? = some v ∧ v ≠ 0) := by
      intro q
      rw [cnt_shift]
      congr 1
      by_cases ha : a ≠ 0
      · rw [if_pos ha]
        refine cnt_true (n := 1) fun x hx => ?_
        have : x = 0 := by omega
        subst this
        exact ⟨a, rfl, ha⟩
      · rw [if_neg ha]
        refine cnt_false fun x hx => ?_
        have : x = 0 := by omega
        subst this
        rintro ⟨v, h1, h2⟩
        injection h1 with h1
        rw [← h1] at h2
        exact ha h2
    constructor
    · rw [List.length_cons, hsh, ← ih1]
      by_cases ha : a ≠ 0
      · rw [if_pos ha, List.filter_cons_of_pos (by simpa using ha), List.length_cons]
        omega
      · rw [if_neg ha, List.filter_cons_of_neg (by simpa using ha)]
        omega
    · intro q v hq hv
      cases q with
      | zero =>
        have : a = v := by injection hq
        subst this
        rw [List.filter_cons_of_pos (by simpa using hv)]
        rfl
      | succ q =>
        rw [hsh]
        have := ih2 q v hq hv
        by_cases ha : a ≠ 0
        · rw [if_pos ha, List.filter_cons_of_pos (by simpa using ha), Nat.add_comm]
          exact this
        · rw [if_neg ha, List.filter_cons_of_neg (by simpa using ha), Nat.zero_add]
          exact this

theorem half_lt {x y : Nat} (hx : isLms t x = true) (hy : isLms t y = true) (h : x < y) : x / 2 < y / 2 := by
  have := lms_two hx hy h
  omega

theorem half_inj {x y : Nat} (hx : isLms t x = true) (hy : isLms t y = true) (h : x / 2 = y / 2) : x = y :=
  nslot_inj hx hy (by unfold nslot; rw [h])

/-- The names in the order of the positions, starting from 0. -/
def namesText (n m : Nat) (sa : List Int) : List Nat :=
  (((sa.drop m).take (n / 2)).filter (fun v => v ≠ 0)).map fun v => (v - 1).toNat

/-- The reduced text has the name of each left-most S substring, from left to right. -/
theorem namesText_ok (h0 : 0 < t.length) {sa : List Int} (h : Stage1 t sa) (hn : names t < lcount t) :
    (namesText t.length (lcount t) sa).length = lcount t ∧
    ∀ x, isLms t x = true → (namesText t.length (lcount t) sa)[lidx t x]? = some (nm t x - 1) := by
  have hhalf := lcount_half h0
  have hlen : ((sa.drop (lcount t)).take (t.length / 2)).length = t.length / 2 := by
    rw [List.length_take, List.length_drop, h.len]
    omega
  have hget : ∀ q, q < t.length / 2 → ((sa.drop (lcount t)).take (t.length / 2))[q]? = sa[lcount t + q]? := by
    intro q hq
    rw [List.getElem?_take_of_lt hq, List.getElem?_drop]
  have hlt : ∀ x, isLms t x = true → x / 2 < t.length / 2 := by
    intro x hx
    have := isLms_lt hx
    omega
  have hval : ∀ x, isLms t x = true → ((sa.drop (lcount t)).take (t.length / 2))[x / 2]? = some (nm t x : Int) := by
    intro x hx
    rw [hget _ (hlt x hx)]
    exact h.named hn x hx
  have key : ∀ q, q < t.length / 2 → ((∃ v, ((sa.drop (lcount t)).take (t.length / 2))[q]? = some v ∧ v ≠ 0) ↔ ∃ x, isLms t x = true ∧ x / 2 = q) := by
    intro q hq
    constructor
    · rintro ⟨v, h1, h2⟩
      by_cases he : ∃ x, isLms t x = true ∧ x / 2 = q
      · exact he
      · rw [hget q hq, h.zero hn (lcount t + q) (by omega) (by omega) (fun x hx e => he ⟨x, hx, by unfold nslot at e; omega⟩)] at h1
        injection h1 with h1
        exact absurd h1.symm h2
    · rintro ⟨x, hx, rfl⟩
      exact ⟨_, hval x hx, by have := nm_pos t x; omega⟩
  obtain ⟨f1, f2⟩ := filter_get ((sa.drop (lcount t)).take (t.length / 2))
  unfold namesText
  constructor
  · rw [List.length_map, f1, hlen]
    refine Eq.trans ?_ (cnt_image (p := fun x => isLms t x = true) (f := fun x => x / 2) (m := t.length / 2) (n := t.length) (fun x _ hx => hlt x hx)
      (fun x y _ _ hx hy e => half_inj hx hy e))
    apply cnt_congr
    intro q hq
    rw [key q hq]
    constructor
    · rintro ⟨x, h1, h2⟩
      exact ⟨x, by have := isLms_lt h1; omega, h1, h2⟩
    · rintro ⟨x, _, h1, h2⟩
      exact ⟨x, h1, h2⟩
  · intro x hx
    have hi : cnt (x / 2) (fun i => ∃ v, ((sa.drop (lcount t)).take (t.length / 2))[i]? = some v ∧ v ≠ 0) = lidx t x := by
      unfold lidx rnk
      rw [← cnt_image (p := fun y => isLms t y = true ∧ Lex [y] [x]) (f := fun x => x / 2) (m := x / 2) (n := t.length)
        (fun y _ hy => half_lt hy.1 hx (lex_one.1 hy.2)) (fun y z _ _ hy hz e => half_inj hy.1 hz.1 e)]
      apply cnt_congr
      intro q hq
      rw [key q (by have := hlt x hx; omega)]
      constructor
      · rintro ⟨y, h1, h2⟩
        refine ⟨y, by have := isLms_lt h1; omega, ⟨h1, lex_one.2 ?_⟩, h2⟩
        rcases Nat.lt_or_ge y x with h3 | h3
        · exact h3
        · have := Nat.div_le_div_right (c := 2) h3
          omega
      · rintro ⟨y, _, h1, h2⟩
        exact ⟨y, h1.1, h2⟩
    have := f2 _ _ (hval x hx) (by have := nm_pos t x; omega)
    rw [hi] at this
    rw [List.getElem?_map, this]
    simp only [Option.map_some]
    congr 1
    omega

theorem reducedText_ok (hn31 : Small t) (h0 : 0 < t.length) {sa : List Int} (h : Stage1 t sa) (hn : names t < lcount t) (fs : Nat) {newfs : Nat}
    (h1 : 2 * lcount t + newfs ≤ t.length + fs) (h2 : t.length ≤ newfs + 2 * lcount t) :
    reducedText t.length (lcount t) fs newfs sa = .ok (namesText t.length (lcount t) sa) := by
  have hhalf := lcount_half h0
  obtain ⟨g1, g2⟩ := namesText_ok h0 h hn
  have hlow : ∀ q, q < lcount t + t.length / 2 → (sa ++ List.replicate fs 0)[q]? = sa[q]? := fun q hq =>
    List.getElem?_append_left (by rw [h.len]; omega)
  have hnamed : named (lcount t) (t.length / 2) (sa ++ List.replicate fs 0) = named (lcount t) (t.length / 2) sa := by
    unfold named
    rw [List.drop_append_of_le_length (by rw [h.len]; omega), List.take_append_of_le_length (by rw [List.length_drop, h.len]; omega)]
  have hnum : (named (lcount t) (t.length / 2) sa).length = lcount t := by
    unfold namesText at g1
    rw [List.length_map] at g1
    exact g1
  have hval : ∀ q v, sa[lcount t + q]? = some v → q < t.length / 2 → v ≠ 0 → 1 ≤ v ∧ v ≤ t.length := by
    intro q v hv hq hv0
    by_cases he : ∃ x, isLms t x = true ∧ nslot t x = lcount t + q
    · obtain ⟨x, hx, hs⟩ := he
      have := h.named hn x hx
      rw [hs, hv] at this
      injection this with this
      have p1 := nm_pos t x
      have p2 := nm_le hx
      omega
    · have := h.zero hn (lcount t + q) (by omega) (by omega) (fun x hx hs => he ⟨x, hx, hs⟩)
      rw [hv] at this
      injection this with this
      exact absurd this hv0
  obtain ⟨mem, m1, m2, _, m3⟩ := copyNames_ok (m := lcount t) (base := lcount t + newfs) (h := t.length / 2) (mem0 := sa ++ List.replicate fs 0)
    (by omega) (by rw [List.length_append, List.length_replicate, h.len]; omega) (by rw [List.length_append, h.len]; omega)
    (by rw [hnamed, hnum])
    (fun q v hv hq hv0 => by
      rw [hlow _ (by omega)] at hv
      have := hval q v hv hq hv0
      exact range_of hn31 (by omega) (by omega))
    (t.length / 2) (lcount t) (sa ++ List.replicate fs 0) (Nat.le_refl _) (by rw [hnamed, hnum]) rfl (fun _ _ => rfl)
    (fun r v hr hv => by
      rw [hnamed] at hv
      have := get_lt hv
      omega)
  rw [hnamed] at m3
  unfold reducedText
  rw [m1]
  show Except.ok _ = Except.ok _
  congr 1
  have hml : mem.length = t.length + fs := by rw [m2, List.length_append, List.length_replicate, h.len]
  apply List.ext_getElem?
  intro r
  by_cases hr : r < lcount t
  · have hg : (named (lcount t) (t.length / 2) sa)[r]? = some (named (lcount t) (t.length / 2) sa)[r] := List.getElem?_eq_getElem (by omega)
    generalize (named (lcount t) (t.length / 2) sa)[r]'(by omega) = v at hg
    rw [List.getElem?_map, List.getElem?_take_of_lt hr, List.getElem?_drop, m3 r v hg]
    unfold namesText
    unfold named at hg
    rw [List.getElem?_map, hg]
    rfl
  · rw [List.getElem?_eq_none (by rw [List.length_map, List.length_take]; omega), List.getElem?_eq_none (by omega)]

/-- The order of the left-most S suffixes is that of the suffixes of the reduced text. -/
theorem reduced_lex {r : List Nat} (hl : r.length = lcount t) (hr : ∀ x, isLms t x = true → r[lidx t x]? = some (nm t x - 1)) :
    ∀ (d x y : Nat), t.length - x ≤ d → isLms t x = true → isLms t y = true → Lex (t.drop x) (t.drop y) → Lex (r.drop (lidx t x)) (r.drop (lidx t y))
  | 0, x, y, hd, hx, _, _ => by
    have := isLms_lt hx
    omega
  | d + 1, x, y, hd, hx, hy, h => by
    have hxl : x < t.length := by have := isLms_lt hx; omega
    have hyl : y < t.length := by have := isLms_lt hy; omega
    obtain ⟨x1, x2⟩ := List.getElem?_eq_some_iff.1 (hr x hx)
    obtain ⟨y1, y2⟩ := List.getElem?_eq_some_iff.1 (hr y hy)
    rw [List.drop_eq_getElem_cons x1, List.drop_eq_getElem_cons y1, x2, y2, lex_cons]
    have hpx := nm_pos t x
    have hpy := nm_pos t y
    rcases Nat.lt_trichotomy (nm t x) (nm t y) with hc | hc | hc
    · exact .inl (by omega)
    · refine .inr ⟨by omega, ?_⟩
      have hw := (nm_eq hx hy).1 hc
      have hne : x ≠ y := by
        rintro rfl
        exact Lex.irrefl _ h
      obtain ⟨n1, n2⟩ := WS_next hxl hyl hw hne
      obtain ⟨_, _, e3⟩ := WS_eq hxl hyl hw
      obtain ⟨s1, _, s3, _⟩ := ns_spec hxl
      obtain ⟨_, _, s3', _⟩ := ns_spec hyl
      rw [← lidx_next hx n1, ← lidx_next hy n2]
      exact reduced_lex hl hr d (ns t x) (ns t y) (by omega) (s3 n1) (s3' n2) (e3.1 h)
    · exact absurd (nm_lt hy hx hc) h.asymm

/-! ### The sorted left-most S suffixes -/

theorem lookup_ok {pos : List Nat} : ∀ (l : List Int), (∀ v, v ∈ l → v.toNat < pos.length) →
    ∃ out, lookup pos l = .ok out ∧ out.length = l.length ∧
      ∀ (i : Nat) (v : Int) (p : Nat), l[i]? = some v → pos[v.toNat]? = some p → out[i]? = some (p : Int)
  | [], _ => ⟨[], rfl, rfl, fun i v p h => by simp at h⟩
  | a :: l, h => by
    obtain ⟨out, h1, h2, h3⟩ := lookup_ok l (fun v hv => h v (List.mem_cons_of_mem _ hv))
    have ha := h a List.mem_cons_self
    unfold lookup
    rw [rd_ok (List.getElem?_eq_getElem ha)]
    simp only [Bind.bind, Except.bind]
    rw [h1]
    refine ⟨_, rfl, by simp [h2], fun i v p hi hp => ?_⟩
    cases i with
    | zero =>
      have : a = v := by injection hi
      subst this
      rw [List.getElem?_eq_getElem ha] at hp
      injection hp with hp
      rw [hp]
      rfl
    | succ i => exact h3 i v p hi hp

theorem sortNames_ok (h0 : 0 < t.length) {r : List Nat} {sub sa : List Int} (hl : r.length = lcount t)
    (hr : ∀ x, isLms t x = true → r[lidx t x]? = some (nm t x - 1)) (hs : IsSa r sub) (hsa : sa.length = t.length) :
    ∃ sa', sortNames (lcount t) (lmsList t) sub sa = .ok sa' ∧ LmsSorted t sa' := by
  obtain ⟨hs1, f, hs2, hs3⟩ := hs
  rw [hl] at hs1 hs2 hs3
  have hm : (lmsList t).length = lcount t := lmsList_length h0
  have hfinj : ∀ a b, a < lcount t → b < lcount t → f a = f b → a = b := by
    intro a b ha hb he
    rcases Lex.tri (r.drop a) (r.drop b) with h | h | h
    · have := hs3 a b ha hb h; omega
    · exact drop_inj (by omega) (by omega) h
    · have := hs3 b a hb ha h; omega
  have hsurj := inj_surj (n := lcount t) (f := f) (fun x hx => (hs2 x hx).1) hfinj
  have hmem : ∀ v, v ∈ sub → v.toNat < (lmsList t).reverse.length := by
    intro v hv
    obtain ⟨i, hi, hiv⟩ := List.mem_iff_getElem.1 hv
    obtain ⟨x, hx, rfl⟩ := hsurj i (by omega)
    have hg := (hs2 x hx).2
    rw [List.getElem?_eq_getElem hi, hiv] at hg
    injection hg with hg
    rw [List.length_reverse, hm, hg]
    omega
  obtain ⟨out, g1, g2, g3⟩ := lookup_ok sub hmem
  unfold sortNames
  rw [g1]
  have hhalf := lcount_half h0
  refine ⟨_, rfl, ?_, fun x hx => ?_⟩
  · rw [List.length_append, g2, hs1, List.length_drop, hsa]
    omega
  · -- the place of `x`
    have hmono : ∀ y, isLms t y = true → (f (lidx t y) < f (lidx t x) ↔ Lex (t.drop y) (t.drop x)) := by
      intro y hy
      have key : ∀ u v, isLms t u = true → isLms t v = true → Lex (t.drop u) (t.drop v) → f (lidx t u) < f (lidx t v) :=
        fun u v hu hv h => hs3 _ _ (lidx_lt hu) (lidx_lt hv) (reduced_lex hl hr _ u v (Nat.le_refl _) hu hv h)
      constructor
      · intro h
        rcases Lex.tri (t.drop y) (t.drop x) with h1 | h1 | h1
        · exact h1
        · rw [(lmsRanked t).inj hy hx h1] at h
          exact absurd h (Nat.lt_irrefl _)
        · have := key x y hx hy h1
          omega
      · exact key y x hy hx
    have hrank : lrank t x = f (lidx t x) := by
      have hfx := (hs2 _ (lidx_lt hx)).1
      unfold lrank rnk
      rw [← cnt_image (p := fun y => isLms t y = true ∧ Lex (t.drop y) (t.drop x)) (f := fun y => f (lidx t y)) (m := f (lidx t x)) (n := t.length)
        (fun y _ hy => (hmono y hy.1).2 hy.2) (fun y z _ _ hy hz e => lidx_inj hy.1 hz.1 (hfinj _ _ (lidx_lt hy.1) (lidx_lt hz.1) e))]
      refine cnt_true fun q hq => ?_
      obtain ⟨a, ha, rfl⟩ := hsurj q (by omega)
      obtain ⟨y, hy, rfl⟩ := lidx_surj ha
      exact ⟨y, by have := isLms_lt hy; omega, ⟨hy, (hmono y hy).1 hq⟩, rfl⟩
    rw [hrank, List.getElem?_append_left (by rw [g2, hs1]; exact (hs2 _ (lidx_lt hx)).1)]
    refine g3 _ _ x (hs2 _ (lidx_lt hx)).2 ?_
    rw [Int.toNat_natCast]
    exact lms_get hx

/-! ### Stage 1 -/

theorem stage1_ok (hn31 : Small t) {c : List Nat} (hk : ∀ x ∈ t, x < k) (h0 : 0 < t.length) (hc : IsCounts t k c) (hm : 1 < lcount t) (two : Bool) (htwo : two = true → Half t.length) :
    ∃ sa, stage1 t c (lmsList t) two = .ok (sa, names t) ∧ Stage1 t sa := by
  obtain ⟨p0, hf⟩ := first_exists (t := t) (by omega)
  obtain ⟨s, h1, h2⟩ := placeLms_ok hn31 hk hc hf
  have hlm : (lmsList t).length = lcount t := lmsList_length h0
  have hp := isLms_pos hf.lms
  have hpl : p0 < t.length := by have := isLms_lt hf.lms; omega
  unfold stage1
  simp only []
  rw [h1]
  simp only [Bind.bind, Except.bind]
  rw [if_pos (by omega)]
  cases two with
  | false =>
    simp only [Bool.false_eq_true, if_false]
    obtain ⟨sa1, g1, g2⟩ := lmsSort1_ok hn31 hk hc hf h2
    rw [g1]
    exact lmsPostproc1_ok hn31 hf g2
  | true =>
    simp only [if_true]
    rw [Nat.sub_add_cancel hp, rd_ch hpl]
    simp only []
    have hck : ch t p0 < k := hk _ (List.mem_of_getElem? (ch_get hpl))
    have hbc := h2.buck _ hck
    rw [rd_ok hbc]
    simp only []
    rw [wr_ok _ (get_lt hbc)]
    simp only []
    obtain ⟨sa1, g1, g2⟩ := markFirst_ok (htwo rfl) hk hf hc (b := s.b.set (ch t p0) (fin t (ch t p0) - cnt t.length (fun y => isLms t y = true ∧ ch t y = ch t p0) + 1))
      (by rw [List.length_set, h2.lenB]) (fun e he => by
        have hsplit : ∀ e, cnt t.length (fun y => isLms t y = true ∧ ch t y = e) = cnt t.length (fun y => seedP t p0 y ∧ ch t y = e) + if ch t p0 = e then 1 else 0 := by
          intro e
          by_cases hce : ch t p0 = e
          · rw [if_pos hce, ← cnt_insert (a := p0) hpl (fun h => by have := h.1.2; omega)]
            apply cnt_congr
            intro y _
            constructor
            · rintro ⟨q1, q2⟩
              by_cases hy : y = p0
              · exact .inr hy
              · have := hf.first y q1
                exact .inl ⟨⟨q1, by omega⟩, q2⟩
            · rintro (⟨q1, q2⟩ | rfl)
              · exact ⟨q1.1, q2⟩
              · exact ⟨hf.lms, hce⟩
          · rw [if_neg hce, Nat.add_zero]
            apply cnt_congr
            intro y _
            constructor
            · rintro ⟨q1, q2⟩
              have := hf.first y q1
              refine ⟨⟨q1, ?_⟩, q2⟩
              by_cases hy : y = p0
              · subst hy; exact absurd q2 hce
              · omega
            · rintro ⟨q1, q2⟩
              exact ⟨q1.1, q2⟩
        by_cases hce : ch t p0 = e
        · subst hce
          rw [get_set_eq (get_lt hbc)]
          congr 1
          have h3 := hsplit (ch t p0)
          rw [if_pos rfl] at h3
          have h4 : cnt t.length (fun y => isLms t y = true ∧ ch t y = ch t p0) ≤ cnt t.length (fun y => ch t y = ch t p0) := cnt_mono fun y _ h => h.2
          have h5 := fin_eq t (ch t p0)
          omega
        · rw [get_set_ne hce, h2.buck e he]
          have h3 := hsplit e
          rw [if_neg hce] at h3
          congr 2)
      h2.lenA h2.elem h2.zero
    rw [g1]
    simp only []
    obtain ⟨sa2, g3, g4⟩ := lmsSort2_ok (htwo rfl) hk hc hf g2
    rw [g3]
    simp only []
    rw [hlm]
    exact lmsPostproc2_ok (htwo rfl) hf g4

/-- One left-most S position. -/
theorem stage1_one (hn31 : Small t) {c : List Nat} (hk : ∀ x ∈ t, x < k) (h0 : 0 < t.length) (hc : IsCounts t k c) (hm : lcount t = 1) (two : Bool) :
    ∃ sa, stage1 t c (lmsList t) two = .ok (sa, 1) ∧ Seeded t sa := by
  have hlm : (lmsList t).length = lcount t := lmsList_length h0
  rw [hm] at hlm
  obtain ⟨x, hx⟩ := List.length_eq_one_iff.1 hlm
  have hmem : ∀ y, isLms t y = true ↔ y = x := by
    intro y
    rw [← mem_lmsList, hx, List.mem_singleton]
  have hxl := (hmem x).2 rfl
  have hxt : x < t.length := by have := isLms_lt hxl; omega
  have hxp := isLms_pos hxl
  have hck : ch t x < k := hk _ (List.mem_of_getElem? (ch_get hxt))
  have hb := ends_get hc hck
  have hs := seeded_one h0 hxl (fun y hy => (hmem y).1 hy)
  have hlt : fin t (ch t x) - 1 < t.length := by
    have h1 := fin_le_length t (ch t x)
    omega
  unfold stage1
  rw [hx]
  unfold placeLms
  simp only [storePending, Bind.bind, Except.bind]
  rw [rd_ch hxt]
  simp only []
  rw [rd_ok hb]
  simp only []
  rw [dec_ok (j := fin t (ch t x) - 1) (by
    have h1 := fin_eq t (ch t x)
    have h2 := cnt_pos (p := fun y => ch t y = ch t x) hxt rfl
    omega)]
  simp only []
  rw [wr_ok _ (get_lt hb)]
  simp only [placeLms, List.length_singleton]
  rw [if_neg (by omega), if_pos trivial, Nat.sub_add_cancel hxp, st_ok (range_of hn31 (by omega) (by omega)) (by rw [List.length_replicate]; exact hlt)]
  exact ⟨_, rfl, hs⟩

/-- No left-most S position. -/
theorem stage1_none {c : List Nat} (h0 : 0 < t.length) (hm : lcount t = 0) (two : Bool) :
    ∃ sa, stage1 t c (lmsList t) two = .ok (sa, 0) ∧ Seeded t sa := by
  have hlm : (lmsList t).length = lcount t := lmsList_length h0
  rw [hm] at hlm
  have hx := List.length_eq_zero_iff.1 hlm
  have hs := seeded_none (t := t) (fun y => by
    cases h : isLms t y with
    | false => rfl
    | true =>
      rw [← mem_lmsList, hx] at h
      cases h)
  unfold stage1
  rw [hx]
  exact ⟨_, rfl, hs⟩

/-! ### The whole algorithm -/

theorem stage3_ok (hn31 : Small t) {c : List Nat} {sa : List Int} (hk : ∀ x ∈ t, x < k) (h0 : 0 < t.length) (hc : IsCounts t k c) (hm : 1 < lcount t) (hs : LmsSorted t sa) :
    ∃ sa', stage3 t c (lcount t) sa = .ok sa' ∧ IsSa t sa' := by
  obtain ⟨sa1, h1, h2⟩ := placeSorted_all hn31 hk h0 hc hs
  unfold stage3
  rw [if_pos hm, h1]
  exact induceSa_ok hn31 hk h0 hc h2

theorem half_of_useSort2 {n k fs : Nat} (h : useSort2 n k fs = true) : Half n := by
  unfold useSort2 at h
  unfold Half
  by_cases hc : n ≤ 0x3fffffff ∧ 2 ≤ n / k
  · omega
  · unfold saisFlags bucketFlags at h
    simp only [] at h
    rw [if_neg hc] at h
    revert h
    repeat' split
    all_goals simp

theorem saisMain_ok : ∀ (fuel : Nat) (t : List Nat) (k fs : Nat), Small t → t.length ≤ fuel → 0 < t.length → (∀ x ∈ t, x < k) →
    ∃ sa, saisMain fuel t k fs = .ok sa ∧ IsSa t sa
  | 0, t, k, fs, _, h1, h2, _ => by omega
  | fuel + 1, t, k, fs, hn31, hfu, h0, hk => by
    obtain ⟨c, c1, hc⟩ := getCounts_ok hk
    have hlm : (lmsList t).length = lcount t := lmsList_length h0
    have hhalf := lcount_half h0
    unfold saisMain
    simp only []
    rw [c1]
    simp only [Bind.bind, Except.bind]
    rw [lmsPositions_ok h0]
    simp only []
    rw [hlm]
    rcases Nat.lt_or_ge 1 (lcount t) with hm | hm
    · obtain ⟨sa, g1, g2⟩ := stage1_ok hn31 hk h0 hc hm (useSort2 t.length k fs) half_of_useSort2
      rw [g1]
      simp only []
      by_cases hn : names t < lcount t
      · rw [if_pos hn]
        obtain ⟨r1, r2⟩ := namesText_ok h0 g2 hn
        obtain ⟨n1, n2, _⟩ := newFs_spec (k := k) (fs := fs) (name := names t) hhalf
        rw [reducedText_ok hn31 h0 g2 hn fs n1 n2]
        simp only []
        obtain ⟨sub, s1, s2⟩ := saisMain_ok fuel (namesText t.length (lcount t) sa) (names t) (newFs t.length k fs (lcount t) (names t)) (by unfold Small at hn31 ⊢; omega) (by omega) (by omega) (fun v hv => by
          obtain ⟨i, hi, hiv⟩ := List.mem_iff_getElem.1 hv
          obtain ⟨x, hx, rfl⟩ := lidx_surj (t := t) (r := i) (by omega)
          have hg := r2 x hx
          rw [List.getElem?_eq_getElem hi, hiv] at hg
          injection hg with hg
          have := nm_le hx
          have := nm_pos t x
          omega)
        rw [s1]
        simp only []
        obtain ⟨sa2, s3, s4⟩ := sortNames_ok h0 r1 r2 s2 g2.len
        rw [s3]
        exact stage3_ok hn31 hk h0 hc hm s4
      · rw [if_neg hn]
        have hle : names t ≤ lcount t := cnt_le _ _
        have he : names t = lcount t := by omega
        refine stage3_ok hn31 hk h0 hc hm ⟨g2.len, fun x hx => ?_⟩
        rw [← srank_lrank he hx]
        exact g2.sorted he x hx
    · have hone : ∀ m sa, m ≤ 1 → Seeded t sa → ∃ sa', stage3 t c m sa = .ok sa' ∧ IsSa t sa' := by
        intro m sa hm hs
        unfold stage3
        rw [if_neg (by omega)]
        exact induceSa_ok hn31 hk h0 hc hs
      rcases Nat.eq_zero_or_pos (lcount t) with hz | hz
      · obtain ⟨sa, g1, g2⟩ := stage1_none (c := c) h0 hz (useSort2 t.length k fs)
        rw [g1]
        simp only []
        rw [if_neg (by omega)]
        exact hone _ sa (by omega) g2
      · obtain ⟨sa, g1, g2⟩ := stage1_one hn31 hk h0 hc (by omega) (useSort2 t.length k fs)
        rw [g1]
        simp only []
        rw [if_neg (by omega)]
        exact hone _ sa (by omega) g2

end Sais
end Detools
