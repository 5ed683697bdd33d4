import Verif.Proofs.SaisBase
/-
SA-IS: one pass of induced sorting, for any order it is able to sort by.
-/
namespace Detools
namespace Sais

variable {t : List Nat} {A B : Nat → Prop} {K : Nat → List Nat}

/-- The positions `A` and `B` are ordered by `K` such that in each bucket those of `A` are
before those of `B`. -/
structure Order (t : List Nat) (A B : Nat → Prop) (K : Nat → List Nat) : Prop where
  ltA : ∀ {x}, A x → x < t.length
  ltB : ∀ {x}, B x → x < t.length
  disj : ∀ {x}, A x → ¬ B x
  bucket : ∀ {x y}, A x ∨ B x → A y ∨ B y → ch t x < ch t y → Lex (K x) (K y)
  type : ∀ {x y}, A x → B y → ch t x = ch t y → Lex (K x) (K y)
  inj : ∀ {x y}, A x ∨ B x → A y ∨ B y → K x = K y → x = y

open Classical in
/-- Where a position goes: those of `A` to the start of the bucket, those of `B` to its end. -/
noncomputable def pos (t : List Nat) (A B : Nat → Prop) (K : Nat → List Nat) (x : Nat) : Nat :=
  if A x then start t (ch t x) + cnt t.length (fun y => A y ∧ ch t y = ch t x ∧ Lex (K y) (K x))
  else fin t (ch t x) - cnt t.length (fun y => B y ∧ ch t y = ch t x ∧ ¬ Lex (K y) (K x))

theorem pos_A {x : Nat} (h : A x) :
    pos t A B K x = start t (ch t x) + cnt t.length (fun y => A y ∧ ch t y = ch t x ∧ Lex (K y) (K x)) := by
  unfold pos; rw [if_pos h]

theorem pos_B (o : Order t A B K) {x : Nat} (h : B x) :
    pos t A B K x = fin t (ch t x) - cnt t.length (fun y => B y ∧ ch t y = ch t x ∧ ¬ Lex (K y) (K x)) := by
  unfold pos; rw [if_neg (fun ha => o.disj ha h)]

section
variable (o : Order t A B K)
include o

theorem Order.split (c : Nat) :
    cnt t.length (fun y => A y ∧ ch t y = c) + cnt t.length (fun y => B y ∧ ch t y = c) ≤ cnt t.length (fun y => ch t y = c) := by
  rw [← cnt_or (fun x _ h1 h2 => o.disj h1.1 h2.1)]
  exact cnt_mono fun x _ h => h.elim And.right And.right

theorem Order.posA {x : Nat} (h : A x) : start t (ch t x) ≤ pos t A B K x ∧
    pos t A B K x < start t (ch t x) + cnt t.length (fun y => A y ∧ ch t y = ch t x) := by
  rw [pos_A h]
  have := cnt_lt (n := t.length) (p := fun y => A y ∧ ch t y = ch t x ∧ Lex (K y) (K x)) (q := fun y => A y ∧ ch t y = ch t x)
    (fun y _ h => ⟨h.1, h.2.1⟩) (o.ltA h) ⟨h, rfl⟩ (fun h => Lex.irrefl _ h.2.2)
  omega

theorem Order.posB {x : Nat} (h : B x) : fin t (ch t x) ≤ pos t A B K x + cnt t.length (fun y => B y ∧ ch t y = ch t x) ∧
    pos t A B K x < fin t (ch t x) ∧
    pos t A B K x + cnt t.length (fun y => B y ∧ ch t y = ch t x ∧ ¬ Lex (K y) (K x)) = fin t (ch t x) := by
  rw [pos_B o h]
  have h1 := cnt_mono (n := t.length) (p := fun y => B y ∧ ch t y = ch t x ∧ ¬ Lex (K y) (K x)) (q := fun y => B y ∧ ch t y = ch t x)
    (fun y _ h => ⟨h.1, h.2.1⟩)
  have h2 := cnt_pos (n := t.length) (p := fun y => B y ∧ ch t y = ch t x ∧ ¬ Lex (K y) (K x)) (o.ltB h) ⟨h, rfl, Lex.irrefl _⟩
  have h3 := o.split (ch t x)
  have h4 := fin_eq t (ch t x)
  omega

theorem Order.pos_bucket {x : Nat} (h : A x ∨ B x) : start t (ch t x) ≤ pos t A B K x ∧ pos t A B K x < fin t (ch t x) := by
  have h3 := o.split (ch t x)
  have h4 := fin_eq t (ch t x)
  rcases h with h | h
  · have := o.posA h
    omega
  · have := o.posB h
    omega

theorem Order.pos_lt {x : Nat} (h : A x ∨ B x) : pos t A B K x < t.length :=
  Nat.lt_of_lt_of_le (o.pos_bucket h).2 (fin_le_length _ _)

theorem Order.mono {x y : Nat} (hx : A x ∨ B x) (hy : A y ∨ B y) (h : Lex (K x) (K y)) : pos t A B K x < pos t A B K y := by
  rcases Nat.lt_trichotomy (ch t x) (ch t y) with hc | hc | hc
  · exact Nat.lt_of_lt_of_le (o.pos_bucket hx).2 (Nat.le_trans (fin_le_start hc) (o.pos_bucket hy).1)
  · rcases hx with hx | hx <;> rcases hy with hy | hy
    · rw [pos_A hx, pos_A hy, hc]
      apply Nat.add_lt_add_left
      exact cnt_lt (fun z _ hz => ⟨hz.1, hz.2.1, hz.2.2.trans h⟩) (o.ltA hx) ⟨hx, hc, h⟩ (fun h => Lex.irrefl _ h.2.2)
    · have h1 := o.posA hx
      have h2 := o.posB hy
      have h3 := o.split (ch t x)
      have h4 := fin_eq t (ch t x)
      rw [← hc] at h2
      omega
    · exact absurd h (o.type hy hx hc.symm).asymm
    · have h1 := o.posB hx
      have h2 := o.posB hy
      rw [← hc] at h2
      have := cnt_lt (n := t.length) (p := fun z => B z ∧ ch t z = ch t x ∧ ¬ Lex (K z) (K y))
        (q := fun z => B z ∧ ch t z = ch t x ∧ ¬ Lex (K z) (K x))
        (fun z _ hz => ⟨hz.1, hz.2.1, fun hl => hz.2.2 (hl.trans h)⟩) (o.ltB hx) ⟨hx, rfl, Lex.irrefl _⟩ (fun hz => hz.2.2 h)
      omega
  · exact absurd h (o.bucket hy hx hc).asymm

theorem Order.mono_iff {x y : Nat} (hx : A x ∨ B x) (hy : A y ∨ B y) : pos t A B K x < pos t A B K y ↔ Lex (K x) (K y) := by
  refine ⟨fun h => ?_, o.mono hx hy⟩
  rcases Lex.tri (K x) (K y) with h1 | h1 | h1
  · exact h1
  · rw [o.inj hx hy h1] at h
    exact absurd h (Nat.lt_irrefl _)
  · exact absurd (Nat.lt_trans h (o.mono hy hx h1)) (Nat.lt_irrefl _)

theorem Order.pos_inj {x y : Nat} (hx : A x ∨ B x) (hy : A y ∨ B y) (h : pos t A B K x = pos t A B K y) : x = y := by
  rcases Lex.tri (K x) (K y) with h1 | h1 | h1
  · exact absurd (o.mono hx hy h1) (by omega)
  · exact o.inj hx hy h1
  · exact absurd (o.mono hy hx h1) (by omega)

theorem Order.not_lex {x y : Nat} (hx : A x ∨ B x) (hy : A y ∨ B y) : ¬ Lex (K x) (K y) ↔ x = y ∨ Lex (K y) (K x) := by
  constructor
  · intro h
    rcases Lex.tri (K x) (K y) with h1 | h1 | h1
    · exact absurd h1 h
    · exact .inl (o.inj hx hy h1)
    · exact .inr h1
  · rintro (rfl | h)
    · exact Lex.irrefl _
    · exact h.asymm

end

/-! ### From left to right -/

/-- The order can be sorted by from left to right: those of `A` are induced by those after
them. -/
structure LPass (t : List Nat) (A B : Nat → Prop) (K : Nat → List Nat) : Prop extends Order t A B K where
  pos : 0 < t.length
  last : A (t.length - 1)
  next : ∀ {x}, A x → x + 1 < t.length → A (x + 1) ∨ B (x + 1)
  step : ∀ {x y}, A x → A y → ch t x = ch t y → x + 1 < t.length → y + 1 < t.length →
    (Lex (K x) (K y) ↔ Lex (K (x + 1)) (K (y + 1)))
  lastMin : ∀ {y}, A y → ch t y = ch t (t.length - 1) → y ≠ t.length - 1 → Lex (K (t.length - 1)) (K y)
  desc : ∀ {x}, A x → x + 1 < t.length → Lex (K (x + 1)) (K x)

/-- The position is in place before element `i` is looked at. -/
def InsL (t : List Nat) (A B : Nat → Prop) (K : Nat → List Nat) (i x : Nat) : Prop :=
  A x ∧ (x + 1 = t.length ∨ (x + 1 < t.length ∧ Sais.pos t A B K (x + 1) < i))

/-- Before element `i` is looked at. `ent x` is the element for position `x`, `ent' x` what is
left of it once it was looked at. -/
structure LInv (t : List Nat) (A B : Nat → Prop) (K : Nat → List Nat) (ent ent' : Nat → Int) (emp emp' : Int) (k i : Nat) (s : SaB) : Prop where
  lenA : s.sa.length = t.length
  lenB : s.b.length = k
  elem : ∀ x, B x ∨ InsL t A B K i x → s.sa[Sais.pos t A B K x]? = some (if Sais.pos t A B K x < i then ent' x else ent x)
  none : ∀ q, q < t.length → (∀ x, B x ∨ InsL t A B K i x → Sais.pos t A B K x ≠ q) → s.sa[q]? = some (if q < i then emp' else emp)
  buck : ∀ c, c < k → s.b[c]? = some (start t c + cnt t.length (fun y => InsL t A B K i y ∧ ch t y = c))

variable {ent ent' : Nat → Int} {emp emp' : Int} {k i : Nat} {s : SaB}

theorem InsL.mem {x : Nat} (h : B x ∨ InsL t A B K i x) : A x ∨ B x := h.elim .inr fun h => .inl h.1

theorem LPass.insL_last (o : LPass t A B K) : InsL t A B K i (t.length - 1) :=
  ⟨o.last, .inl (by have := o.pos; omega)⟩

theorem LPass.insL_zero (o : LPass t A B K) {x : Nat} : InsL t A B K 0 x ↔ x = t.length - 1 := by
  constructor
  · rintro ⟨_, h | h⟩ <;> omega
  · rintro rfl; exact o.insL_last

theorem LPass.pos_last (o : LPass t A B K) : Sais.pos t A B K (t.length - 1) = start t (ch t (t.length - 1)) := by
  rw [pos_A o.last, cnt_false, Nat.add_zero]
  rintro y hy ⟨h1, h2, h3⟩
  by_cases he : y = t.length - 1
  · rw [he] at h3; exact Lex.irrefl _ h3
  · exact (o.lastMin h1 h2 he).asymm h3

/-- The start of the pass: the last position was put in place. -/
theorem LPass.init (o : LPass t A B K) {sa : List Int} {b : List Nat} (hk : ∀ x ∈ t, x < k) (hl : sa.length = t.length) (hb : b.length = k)
    (hs : ∀ x, B x → sa[Sais.pos t A B K x]? = some (ent x))
    (hn : ∀ q, q < t.length → (∀ x, B x → Sais.pos t A B K x ≠ q) → sa[q]? = some emp)
    (hc : ∀ c, c < k → b[c]? = some (start t c)) :
    LInv t A B K ent ent' emp emp' k 0
      ⟨sa.set (start t (ch t (t.length - 1))) (ent (t.length - 1)),
       b.set (ch t (t.length - 1)) (start t (ch t (t.length - 1)) + 1)⟩ := by
  have hp := o.pos_last
  have hlt := o.pos_lt (.inl o.last)
  rw [← hp]
  have hck : ch t (t.length - 1) < k := by
    have := ch_get (t := t) (x := t.length - 1) (by have := o.pos; omega)
    exact hk _ (List.mem_of_getElem? this)
  refine ⟨by rw [List.length_set]; exact hl, by rw [List.length_set]; exact hb, ?_, ?_, ?_⟩
  · intro x hx
    rw [if_neg (by omega)]
    rcases hx with hx | hx
    · rw [get_set_ne, hs x hx]
      intro he
      have := o.pos_inj (.inl o.last) (.inr hx) he
      subst this
      exact o.disj o.last hx
    · rw [o.insL_zero] at hx
      subst hx
      exact get_set_eq (by rw [hl]; exact hlt)
  · intro q hq hx
    rw [if_neg (by omega), get_set_ne (hx _ (.inr o.insL_last))]
    exact hn q hq fun x h => hx x (.inl h)
  · intro c hcc
    by_cases he : ch t (t.length - 1) = c
    · subst he
      rw [get_set_eq (by rw [hb]; exact hcc), hp]
      congr 2
      rw [cnt_congr (q := fun y => y = t.length - 1), cnt_eq, if_pos (by have := o.pos; omega)]
      intro x _
      rw [o.insL_zero]
      exact ⟨And.left, fun h => ⟨h, by rw [h]⟩⟩
    · rw [get_set_ne he, hc c hcc, cnt_false, Nat.add_zero]
      rintro x _ ⟨h1, h2⟩
      rw [o.insL_zero] at h1
      subst h1
      exact he h2

theorem LPass.insL_next (o : LPass t A B K) {x z : Nat} (hx : A x ∨ B x) (hi : Sais.pos t A B K x = i) :
    InsL t A B K (i + 1) z ↔ InsL t A B K i z ∨ (A z ∧ z + 1 = x) := by
  have hxl : x < t.length := hx.elim o.ltA o.ltB
  constructor
  · rintro ⟨h1, h2 | ⟨h2, h3⟩⟩
    · exact .inl ⟨h1, .inl h2⟩
    · by_cases he : Sais.pos t A B K (z + 1) = i
      · exact .inr ⟨h1, o.pos_inj (o.next h1 h2) hx (by rw [he, hi])⟩
      · exact .inl ⟨h1, .inr ⟨h2, by omega⟩⟩
  · rintro (⟨h1, h2 | ⟨h2, h3⟩⟩ | ⟨h1, h2⟩)
    · exact ⟨h1, .inl h2⟩
    · exact ⟨h1, .inr ⟨h2, by omega⟩⟩
    · subst h2
      exact ⟨h1, .inr ⟨hxl, by omega⟩⟩

theorem insL_skip {z : Nat} (o : LPass t A B K) (hi : ∀ x, A x ∨ B x → Sais.pos t A B K x ≠ i) :
    InsL t A B K (i + 1) z ↔ InsL t A B K i z := by
  constructor
  · rintro ⟨h1, h2 | ⟨h2, h3⟩⟩
    · exact ⟨h1, .inl h2⟩
    · have := hi _ (o.next h1 h2)
      exact ⟨h1, .inr ⟨h2, by omega⟩⟩
  · rintro ⟨h1, h2 | ⟨h2, h3⟩⟩
    · exact ⟨h1, .inl h2⟩
    · exact ⟨h1, .inr ⟨h2, by omega⟩⟩

/-- What element `i` is for. -/
theorem LPass.here (o : LPass t A B K) {x : Nat} (hx : A x ∨ B x) (hi : Sais.pos t A B K x = i) : B x ∨ InsL t A B K i x := by
  rcases hx with hx | hx
  · refine .inr ⟨hx, ?_⟩
    have := o.ltA hx
    by_cases hn : x + 1 = t.length
    · exact .inl hn
    · refine .inr ⟨by omega, ?_⟩
      rw [← hi]
      exact o.mono (o.next hx (by omega)) (.inl hx) (o.desc hx (by omega))
  · exact .inl hx

/-- Element `i` is not used. -/
theorem LPass.empty (o : LPass t A B K) (h : LInv t A B K ent ent' emp emp' k i s) (hi : i < t.length)
    (hx : ∀ x, A x ∨ B x → Sais.pos t A B K x ≠ i) :
    s.sa[i]? = some emp ∧ LInv t A B K ent ent' emp emp' k (i + 1) ⟨s.sa.set i emp', s.b⟩ := by
  have he : s.sa[i]? = some emp := by
    rw [h.none i hi fun x hx' => hx x (InsL.mem hx'), if_neg (Nat.lt_irrefl i)]
  refine ⟨he, by rw [List.length_set]; exact h.lenA, h.lenB, ?_, ?_, ?_⟩
  · intro x hx'
    rw [insL_skip o hx] at hx'
    have hne := hx x (InsL.mem hx')
    rw [get_set_ne (Ne.symm hne), h.elem x hx']
    by_cases h1 : Sais.pos t A B K x < i
    · rw [if_pos h1, if_pos (by omega)]
    · rw [if_neg h1, if_neg (by omega)]
  · intro q hq hx'
    by_cases hqi : q = i
    · subst hqi
      rw [get_set_eq (by rw [h.lenA]; exact hq), if_pos (by omega)]
    · rw [get_set_ne (Ne.symm hqi), h.none q hq fun x hh => hx' x (by rw [insL_skip o hx]; exact hh)]
      by_cases h1 : q < i
      · rw [if_pos h1, if_pos (by omega)]
      · rw [if_neg h1, if_neg (by omega)]
  · intro c hc
    rw [h.buck c hc]
    congr 2
    apply cnt_congr
    intro y _
    rw [insL_skip o hx]

theorem LPass.at (o : LPass t A B K) (h : LInv t A B K ent ent' emp emp' k i s) {x : Nat} (hx : A x ∨ B x) (hi : Sais.pos t A B K x = i) :
    s.sa[i]? = some (ent x) := by
  have := h.elem x (o.here hx hi)
  rw [hi, if_neg (Nat.lt_irrefl i)] at this
  exact this

/-- Element `i` is for position `x`, and the position before it is not to be induced. -/
theorem LPass.keep (o : LPass t A B K) (h : LInv t A B K ent ent' emp emp' k i s) {x : Nat} (hx : A x ∨ B x) (hi : Sais.pos t A B K x = i)
    (hn : ∀ y, y + 1 = x → ¬ A y) : LInv t A B K ent ent' emp emp' k (i + 1) ⟨s.sa.set i (ent' x), s.b⟩ := by
  have hil : i < t.length := by rw [← hi]; exact o.pos_lt hx
  have hins : ∀ z, InsL t A B K (i + 1) z ↔ InsL t A B K i z := by
    intro z
    rw [o.insL_next hx hi]
    exact ⟨fun h => h.elim id fun h => absurd h.1 (hn z h.2), .inl⟩
  refine ⟨by rw [List.length_set]; exact h.lenA, h.lenB, ?_, ?_, ?_⟩
  · intro z hz
    rw [hins] at hz
    by_cases he : Sais.pos t A B K z = i
    · have := o.pos_inj (InsL.mem hz) hx (by rw [he, hi])
      subst this
      rw [he, get_set_eq (by rw [h.lenA]; exact hil), if_pos (by omega)]
    · rw [get_set_ne (Ne.symm he), h.elem z hz]
      by_cases h1 : Sais.pos t A B K z < i
      · rw [if_pos h1, if_pos (by omega)]
      · rw [if_neg h1, if_neg (by omega)]
  · intro q hq hx'
    have hqi : i ≠ q := by
      rw [← hi]
      exact hx' x (by rw [hins]; exact o.here hx hi)
    rw [get_set_ne hqi, h.none q hq fun z hz => hx' z (by rw [hins]; exact hz)]
    by_cases h1 : q < i
    · rw [if_pos h1, if_pos (by omega)]
    · rw [if_neg h1, if_neg (by omega)]
  · intro c hc
    rw [h.buck c hc]
    congr 2
    apply cnt_congr
    intro y _
    rw [hins]

/-- The position before `y + 1`, which is in element `i`, goes to the next place in its
bucket, which is after `i`. -/
theorem LPass.slot (o : LPass t A B K) (h : LInv t A B K ent ent' emp emp' k i s) {y : Nat} (hk : ∀ x ∈ t, x < k)
    (hx : A (y + 1) ∨ B (y + 1)) (hy : A y) (hi : Sais.pos t A B K (y + 1) = i) :
    s.b[ch t y]? = some (Sais.pos t A B K y) ∧ i < Sais.pos t A B K y := by
  have hxl : y + 1 < t.length := hx.elim o.ltA o.ltB
  refine ⟨?_, ?_⟩
  · have hck : ch t y < k := hk _ (List.mem_of_getElem? (ch_get (t := t) (x := y) (by omega)))
    rw [h.buck _ hck, pos_A hy]
    congr 2
    apply cnt_congr
    intro z hz
    constructor
    · rintro ⟨⟨h1, h2⟩, h3⟩
      refine ⟨h1, h3, ?_⟩
      rcases h2 with h2 | ⟨h2, h4⟩
      · have hz : z = t.length - 1 := by omega
        subst hz
        exact o.lastMin hy h3.symm (by omega)
      · rw [o.step h1 hy h3 h2 hxl]
        rw [← hi, o.mono_iff (o.next h1 h2) hx] at h4
        exact h4
    · rintro ⟨h1, h3, h4⟩
      refine ⟨⟨h1, ?_⟩, h3⟩
      by_cases h2 : z + 1 = t.length
      · exact .inl h2
      · refine .inr ⟨by omega, ?_⟩
        rw [o.step h1 hy h3 (by omega) hxl] at h4
        rw [← hi]
        exact o.mono (o.next h1 (by omega)) hx h4
  · rw [← hi]
    exact o.mono hx (.inl hy) (o.desc hy hxl)

/-- Element `i` is for position `y + 1`, and position `y` is put in place. -/
theorem LPass.push (o : LPass t A B K) (h : LInv t A B K ent ent' emp emp' k i s) {y : Nat} (hk : ∀ x ∈ t, x < k)
    (hx : A (y + 1) ∨ B (y + 1)) (hy : A y) (hi : Sais.pos t A B K (y + 1) = i) :
    LInv t A B K ent ent' emp emp' k (i + 1)
      ⟨(s.sa.set (Sais.pos t A B K y) (ent y)).set i (ent' (y + 1)), s.b.set (ch t y) (Sais.pos t A B K y + 1)⟩ := by
  have hxl : y + 1 < t.length := hx.elim o.ltA o.ltB
  obtain ⟨hs1, hs2⟩ := o.slot h hk hx hy hi
  have hil : i < t.length := by rw [← hi]; exact o.pos_lt hx
  have hpl := o.pos_lt (.inl hy)
  have hny : ¬ InsL t A B K i y := by
    rintro ⟨_, h2 | ⟨_, h3⟩⟩ <;> omega
  have hins : ∀ z, InsL t A B K (i + 1) z ↔ InsL t A B K i z ∨ z = y := by
    intro z
    rw [o.insL_next hx hi]
    constructor
    · rintro (h | ⟨_, h⟩)
      · exact .inl h
      · exact .inr (by omega)
    · rintro (h | rfl)
      · exact .inl h
      · exact .inr ⟨hy, rfl⟩
  refine ⟨by simp only [List.length_set]; exact h.lenA, by rw [List.length_set]; exact h.lenB, ?_, ?_, ?_⟩
  · intro z hz
    rw [hins] at hz
    by_cases he : Sais.pos t A B K z = i
    · have hzm : A z ∨ B z := by
        rcases hz with hz | hz | hz
        · exact .inr hz
        · exact .inl hz.1
        · exact .inl (hz ▸ hy)
      have := o.pos_inj hzm hx (by rw [he, hi])
      subst this
      rw [he, get_set_eq (by rw [List.length_set, h.lenA]; exact hil), if_pos (by omega)]
    · rw [get_set_ne (Ne.symm he)]
      by_cases hzy : z = y
      · subst hzy
        rw [get_set_eq (by rw [h.lenA]; exact hpl), if_neg (by omega)]
      · have hz' : B z ∨ InsL t A B K i z := by
          rcases hz with hz | hz | hz
          · exact .inl hz
          · exact .inr hz
          · exact absurd hz hzy
        rw [get_set_ne (fun e => hzy (o.pos_inj (InsL.mem hz') (.inl hy) e.symm)), h.elem z hz']
        by_cases h1 : Sais.pos t A B K z < i
        · rw [if_pos h1, if_pos (by omega)]
        · rw [if_neg h1, if_neg (by omega)]
  · intro q hq hx'
    have hqi : i ≠ q := by
      rw [← hi]
      refine hx' _ ?_
      rcases o.here hx hi with h | h
      · exact .inl h
      · exact .inr ((hins _).2 (.inl h))
    have hqy : Sais.pos t A B K y ≠ q := hx' y (.inr ((hins y).2 (.inr rfl)))
    rw [get_set_ne hqi, get_set_ne hqy, h.none q hq fun z hz => hx' z (hz.imp id fun h => (hins z).2 (.inl h))]
    by_cases h1 : q < i
    · rw [if_pos h1, if_pos (by omega)]
    · rw [if_neg h1, if_neg (by omega)]
  · intro c hc
    by_cases he : ch t y = c
    · subst he
      rw [get_set_eq (by rw [h.lenB]; exact hc)]
      rw [h.buck _ hc] at hs1
      rw [← Option.some.inj hs1, Nat.add_assoc, ← cnt_insert (a := y) (by omega) (fun h => hny h.1)]
      congr 2
      apply cnt_congr
      intro z _
      rw [hins]
      constructor
      · rintro (⟨h1, h2⟩ | h)
        · exact ⟨.inl h1, h2⟩
        · exact ⟨.inr h, by rw [h]⟩
      · rintro ⟨h1 | h1, h2⟩
        · exact .inl ⟨h1, h2⟩
        · exact .inr h1
    · rw [get_set_ne he, h.buck c hc]
      congr 2
      apply cnt_congr
      intro z _
      rw [hins]
      constructor
      · rintro ⟨h1, h2⟩
        exact ⟨.inl h1, h2⟩
      · rintro ⟨h1 | h1, h2⟩
        · exact ⟨h1, h2⟩
        · rw [h1] at h2
          exact absurd h2 he

/-- The end of the pass: all positions are in place. -/
theorem LPass.done (o : LPass t A B K) (h : LInv t A B K ent ent' emp emp' k t.length s) :
    (∀ x, A x ∨ B x → s.sa[Sais.pos t A B K x]? = some (ent' x)) ∧
    (∀ q, q < t.length → (∀ x, A x ∨ B x → Sais.pos t A B K x ≠ q) → s.sa[q]? = some emp') := by
  have hins : ∀ x, A x ∨ B x → B x ∨ InsL t A B K t.length x := by
    rintro x (hx | hx)
    · refine .inr ⟨hx, ?_⟩
      have := o.ltA hx
      by_cases hn : x + 1 = t.length
      · exact .inl hn
      · exact .inr ⟨by omega, o.pos_lt (o.next hx (by omega))⟩
    · exact .inl hx
  refine ⟨fun x hx => ?_, fun q hq hx => ?_⟩
  · rw [h.elem x (hins x hx), if_pos (o.pos_lt hx)]
  · rw [h.none q hq fun x hx' => hx x (InsL.mem hx'), if_pos hq]

/-! ### From right to left -/

/-- The order can be sorted by from right to left: those of `B` are induced by those after
them. -/
structure SPass (t : List Nat) (A B : Nat → Prop) (K : Nat → List Nat) : Prop extends Order t A B K where
  next : ∀ {x}, B x → A (x + 1) ∨ B (x + 1)
  step : ∀ {x y}, B x → B y → ch t x = ch t y → (Lex (K x) (K y) ↔ Lex (K (x + 1)) (K (y + 1)))
  asc : ∀ {x}, B x → Lex (K x) (K (x + 1))

/-- The position is in place after the elements from `i` on were looked at. -/
def InsS (t : List Nat) (A B : Nat → Prop) (K : Nat → List Nat) (i x : Nat) : Prop :=
  B x ∧ i ≤ Sais.pos t A B K (x + 1)

/-- After the elements from `i` on were looked at. -/
structure SInv (t : List Nat) (A B : Nat → Prop) (K : Nat → List Nat) (ent ent' : Nat → Int) (emp emp' : Int) (k i : Nat) (s : SaB) : Prop where
  lenA : s.sa.length = t.length
  lenB : s.b.length = k
  elem : ∀ x, A x ∨ InsS t A B K i x → s.sa[Sais.pos t A B K x]? = some (if i ≤ Sais.pos t A B K x then ent' x else ent x)
  none : ∀ q, q < t.length → (∀ x, A x ∨ B x → Sais.pos t A B K x ≠ q) → s.sa[q]? = some (if i ≤ q then emp' else emp)
  buck : ∀ c, c < k → s.b[c]? = some (fin t c - cnt t.length (fun y => InsS t A B K i y ∧ ch t y = c))

theorem InsS.mem {x : Nat} (h : A x ∨ InsS t A B K i x) : A x ∨ B x := h.imp id And.left

theorem SPass.insS_length (o : SPass t A B K) {x : Nat} : ¬ InsS t A B K t.length x := by
  rintro ⟨h1, h2⟩
  have := o.pos_lt (o.next h1)
  omega

theorem SPass.init (o : SPass t A B K) {sa : List Int} {b : List Nat} (hl : sa.length = t.length) (hb : b.length = k)
    (hs : ∀ x, A x → sa[Sais.pos t A B K x]? = some (ent x))
    (hn : ∀ q, q < t.length → (∀ x, A x ∨ B x → Sais.pos t A B K x ≠ q) → sa[q]? = some emp)
    (hc : ∀ c, c < k → b[c]? = some (fin t c)) :
    SInv t A B K ent ent' emp emp' k t.length ⟨sa, b⟩ := by
  refine ⟨hl, hb, ?_, ?_, ?_⟩
  · intro x hx
    rw [if_neg (by have := o.pos_lt (InsS.mem hx); omega)]
    rcases hx with hx | hx
    · exact hs x hx
    · exact absurd hx o.insS_length
  · intro q hq hx
    rw [if_neg (by omega)]
    exact hn q hq hx
  · intro c hcc
    rw [hc c hcc, cnt_false (fun x _ h => o.insS_length h.1), Nat.sub_zero]

theorem SPass.insS_next (o : SPass t A B K) {x z : Nat} (hx : A x ∨ B x) (hi : Sais.pos t A B K x = i) :
    InsS t A B K i z ↔ InsS t A B K (i + 1) z ∨ (B z ∧ z + 1 = x) := by
  constructor
  · rintro ⟨h1, h3⟩
    by_cases he : Sais.pos t A B K (z + 1) = i
    · exact .inr ⟨h1, o.pos_inj (o.next h1) hx (by rw [he, hi])⟩
    · exact .inl ⟨h1, by omega⟩
  · rintro (⟨h1, h3⟩ | ⟨h1, h2⟩)
    · exact ⟨h1, by omega⟩
    · subst h2
      exact ⟨h1, by omega⟩

theorem insS_skip {z : Nat} (o : SPass t A B K) (hi : ∀ x, A x ∨ B x → Sais.pos t A B K x ≠ i) :
    InsS t A B K i z ↔ InsS t A B K (i + 1) z := by
  constructor
  · rintro ⟨h1, h3⟩
    have := hi _ (o.next h1)
    exact ⟨h1, by omega⟩
  · rintro ⟨h1, h3⟩
    exact ⟨h1, by omega⟩

theorem SPass.here (o : SPass t A B K) {x : Nat} (hx : A x ∨ B x) (hi : Sais.pos t A B K x = i) : A x ∨ InsS t A B K (i + 1) x := by
  rcases hx with hx | hx
  · exact .inl hx
  · refine .inr ⟨hx, ?_⟩
    rw [← hi]
    exact o.mono (.inr hx) (o.next hx) (o.asc hx)

theorem SPass.empty (o : SPass t A B K) (h : SInv t A B K ent ent' emp emp' k (i + 1) s) (hi : i < t.length)
    (hx : ∀ x, A x ∨ B x → Sais.pos t A B K x ≠ i) :
    s.sa[i]? = some emp ∧ SInv t A B K ent ent' emp emp' k i ⟨s.sa.set i emp', s.b⟩ := by
  have he : s.sa[i]? = some emp := by
    rw [h.none i hi hx, if_neg (by omega)]
  refine ⟨he, by rw [List.length_set]; exact h.lenA, h.lenB, ?_, ?_, ?_⟩
  · intro x hx'
    rw [insS_skip o hx] at hx'
    have hne := hx x (InsS.mem hx')
    rw [get_set_ne (Ne.symm hne), h.elem x hx']
    by_cases h1 : i + 1 ≤ Sais.pos t A B K x
    · rw [if_pos h1, if_pos (by omega)]
    · rw [if_neg h1, if_neg (by omega)]
  · intro q hq hx'
    by_cases hqi : q = i
    · subst hqi
      rw [get_set_eq (by rw [h.lenA]; exact hq), if_pos (by omega)]
    · rw [get_set_ne (Ne.symm hqi), h.none q hq hx']
      by_cases h1 : i + 1 ≤ q
      · rw [if_pos h1, if_pos (by omega)]
      · rw [if_neg h1, if_neg (by omega)]
  · intro c hc
    rw [h.buck c hc]
    congr 2
    apply cnt_congr
    intro y _
    rw [insS_skip o hx]

theorem SPass.at (o : SPass t A B K) (h : SInv t A B K ent ent' emp emp' k (i + 1) s) {x : Nat} (hx : A x ∨ B x) (hi : Sais.pos t A B K x = i) :
    s.sa[i]? = some (ent x) := by
  have := h.elem x (o.here hx hi)
  rw [hi, if_neg (by omega)] at this
  exact this

theorem SPass.keep (o : SPass t A B K) (h : SInv t A B K ent ent' emp emp' k (i + 1) s) {x : Nat} (hx : A x ∨ B x) (hi : Sais.pos t A B K x = i)
    (hn : ∀ y, y + 1 = x → ¬ B y) : SInv t A B K ent ent' emp emp' k i ⟨s.sa.set i (ent' x), s.b⟩ := by
  have hil : i < t.length := by rw [← hi]; exact o.pos_lt hx
  have hins : ∀ z, InsS t A B K i z ↔ InsS t A B K (i + 1) z := by
    intro z
    rw [o.insS_next hx hi]
    exact ⟨fun h => h.elim id fun h => absurd h.1 (hn z h.2), .inl⟩
  refine ⟨by rw [List.length_set]; exact h.lenA, h.lenB, ?_, ?_, ?_⟩
  · intro z hz
    rw [hins] at hz
    by_cases he : Sais.pos t A B K z = i
    · have := o.pos_inj (InsS.mem hz) hx (by rw [he, hi])
      subst this
      rw [he, get_set_eq (by rw [h.lenA]; exact hil), if_pos (by omega)]
    · rw [get_set_ne (Ne.symm he), h.elem z hz]
      by_cases h1 : i + 1 ≤ Sais.pos t A B K z
      · rw [if_pos h1, if_pos (by omega)]
      · rw [if_neg h1, if_neg (by omega)]
  · intro q hq hx'
    have hqi : i ≠ q := by
      rw [← hi]
      exact hx' x hx
    rw [get_set_ne hqi, h.none q hq hx']
    by_cases h1 : i + 1 ≤ q
    · rw [if_pos h1, if_pos (by omega)]
    · rw [if_neg h1, if_neg (by omega)]
  · intro c hc
    rw [h.buck c hc]
    congr 2
    apply cnt_congr
    intro y _
    rw [hins]

/-- The position before `y + 1`, which is in element `i`, goes to the next place in its
bucket, which is before `i`. -/
theorem SPass.slot (o : SPass t A B K) (h : SInv t A B K ent ent' emp emp' k (i + 1) s) {y : Nat} (hk : ∀ x ∈ t, x < k)
    (hx : A (y + 1) ∨ B (y + 1)) (hy : B y) (hi : Sais.pos t A B K (y + 1) = i) :
    s.b[ch t y]? = some (Sais.pos t A B K y + 1) ∧ Sais.pos t A B K y < i := by
  have hyl : y < t.length := o.ltB hy
  refine ⟨?_, ?_⟩
  · have hck : ch t y < k := hk _ (List.mem_of_getElem? (ch_get (t := t) (x := y) hyl))
    have hp := o.posB hy
    have hc : cnt t.length (fun z => B z ∧ ch t z = ch t y ∧ ¬ Lex (K z) (K y)) =
        cnt t.length (fun z => InsS t A B K (i + 1) z ∧ ch t z = ch t y) + 1 := by
      rw [← cnt_insert (a := y) hyl]
      · apply cnt_congr
        intro z _
        constructor
        · rintro ⟨h1, h2, h3⟩
          rcases (o.not_lex (.inr h1) (.inr hy)).1 h3 with h4 | h4
          · exact .inr h4
          · refine .inl ⟨⟨h1, ?_⟩, h2⟩
            rw [o.step hy h1 h2.symm] at h4
            rw [← hi]
            exact o.mono hx (o.next h1) h4
        · rintro (⟨⟨h1, h2⟩, h3⟩ | rfl)
          · refine ⟨h1, h3, ?_⟩
            rw [o.not_lex (.inr h1) (.inr hy)]
            refine .inr ?_
            rw [o.step hy h1 h3.symm, ← o.mono_iff hx (o.next h1), hi]
            omega
          · exact ⟨hy, rfl, Lex.irrefl _⟩
      · rintro ⟨⟨_, h2⟩, _⟩
        omega
    rw [h.buck _ hck]
    congr 1
    omega
  · rw [← hi]
    exact o.mono (.inr hy) hx (o.asc hy)

/-- Element `i` is for position `y + 1`, and position `y` is put in place. -/
theorem SPass.push (o : SPass t A B K) (h : SInv t A B K ent ent' emp emp' k (i + 1) s) {y : Nat} (hk : ∀ x ∈ t, x < k)
    (hx : A (y + 1) ∨ B (y + 1)) (hy : B y) (hi : Sais.pos t A B K (y + 1) = i) :
    SInv t A B K ent ent' emp emp' k i
      ⟨(s.sa.set (Sais.pos t A B K y) (ent y)).set i (ent' (y + 1)), s.b.set (ch t y) (Sais.pos t A B K y)⟩ := by
  obtain ⟨hs1, hs2⟩ := o.slot h hk hx hy hi
  have hil : i < t.length := by rw [← hi]; exact o.pos_lt hx
  have hpl := o.pos_lt (.inr hy)
  have hny : ¬ InsS t A B K (i + 1) y := by
    rintro ⟨_, h2⟩; omega
  have hins : ∀ z, InsS t A B K i z ↔ InsS t A B K (i + 1) z ∨ z = y := by
    intro z
    rw [o.insS_next hx hi]
    constructor
    · rintro (h | ⟨_, h⟩)
      · exact .inl h
      · exact .inr (by omega)
    · rintro (h | rfl)
      · exact .inl h
      · exact .inr ⟨hy, rfl⟩
  refine ⟨by simp only [List.length_set]; exact h.lenA, by rw [List.length_set]; exact h.lenB, ?_, ?_, ?_⟩
  · intro z hz
    rw [hins] at hz
    by_cases he : Sais.pos t A B K z = i
    · have hzm : A z ∨ B z := by
        rcases hz with hz | hz | hz
        · exact .inl hz
        · exact .inr hz.1
        · exact .inr (hz ▸ hy)
      have := o.pos_inj hzm hx (by rw [he, hi])
      subst this
      rw [he, get_set_eq (by rw [List.length_set, h.lenA]; exact hil), if_pos (by omega)]
    · rw [get_set_ne (Ne.symm he)]
      by_cases hzy : z = y
      · subst hzy
        rw [get_set_eq (by rw [h.lenA]; exact hpl), if_neg (by omega)]
      · have hz' : A z ∨ InsS t A B K (i + 1) z := by
          rcases hz with hz | hz | hz
          · exact .inl hz
          · exact .inr hz
          · exact absurd hz hzy
        rw [get_set_ne (fun e => hzy (o.pos_inj (InsS.mem hz') (.inr hy) e.symm)), h.elem z hz']
        by_cases h1 : i + 1 ≤ Sais.pos t A B K z
        · rw [if_pos h1, if_pos (by omega)]
        · rw [if_neg h1, if_neg (by omega)]
  · intro q hq hx'
    have hqi : i ≠ q := by
      rw [← hi]
      exact hx' _ hx
    have hqy : Sais.pos t A B K y ≠ q := hx' y (.inr hy)
    rw [get_set_ne hqi, get_set_ne hqy, h.none q hq hx']
    by_cases h1 : i + 1 ≤ q
    · rw [if_pos h1, if_pos (by omega)]
    · rw [if_neg h1, if_neg (by omega)]
  · intro c hc
    by_cases he : ch t y = c
    · subst he
      rw [get_set_eq (by rw [h.lenB]; exact hc)]
      rw [h.buck _ hc] at hs1
      have h1 := Option.some.inj hs1
      have h2 : cnt t.length (fun z => InsS t A B K i z ∧ ch t z = ch t y) =
          cnt t.length (fun z => InsS t A B K (i + 1) z ∧ ch t z = ch t y) + 1 := by
        rw [← cnt_insert (a := y) (o.ltB hy) (fun h => hny h.1)]
        apply cnt_congr
        intro z _
        rw [hins]
        constructor
        · rintro ⟨h1 | h1, h2⟩
          · exact .inl ⟨h1, h2⟩
          · exact .inr h1
        · rintro (⟨h1, h2⟩ | h)
          · exact ⟨.inl h1, h2⟩
          · exact ⟨.inr h, by rw [h]⟩
      congr 1
      omega
    · rw [get_set_ne he, h.buck c hc]
      congr 2
      apply cnt_congr
      intro z _
      rw [hins]
      constructor
      · rintro ⟨h1, h2⟩
        exact ⟨.inl h1, h2⟩
      · rintro ⟨h1 | h1, h2⟩
        · exact ⟨h1, h2⟩
        · rw [h1] at h2
          exact absurd h2 he

/-- The end of the pass: all positions are in place. -/
theorem SPass.done (o : SPass t A B K) (h : SInv t A B K ent ent' emp emp' k 0 s) :
    (∀ x, A x ∨ B x → s.sa[Sais.pos t A B K x]? = some (ent' x)) ∧
    (∀ q, q < t.length → (∀ x, A x ∨ B x → Sais.pos t A B K x ≠ q) → s.sa[q]? = some emp') := by
  refine ⟨fun x hx => ?_, fun q hq hx => ?_⟩
  · rw [h.elem x (hx.imp id fun h => ⟨h, Nat.zero_le _⟩), if_pos (Nat.zero_le _)]
  · rw [h.none q hq hx, if_pos (Nat.zero_le _)]

end Sais
end Detools
