import Verif.Proofs.TrIns
import Verif.Proofs.DssSub
/-
trsort: what the ranks mean, and how a class of equal ranks is split.
-/
namespace Detools
namespace Dss

namespace Tr
open Sais

/-! ### Segments of an array -/

/-- The elements `xs` are in the array from index `f` on. -/
def At {α : Type} (sa : List α) (f : Nat) (xs : List α) : Prop := ∀ i, i < xs.length → sa[f + i]? = xs[i]?

theorem At.fit {α : Type} {sa : List α} {f : Nat} {xs : List α} (h : At sa f xs) (hf : f ≤ sa.length) : f + xs.length ≤ sa.length := by
  by_cases h0 : xs.length = 0
  · omega
  · have := h (xs.length - 1) (by omega)
    rw [List.getElem?_eq_getElem (l := xs) (by omega)] at this
    have := (List.getElem?_eq_some_iff.1 this).1
    omega

theorem At.split {α : Type} {sa : List α} {f : Nat} {xs : List α} (h : At sa f xs) (hf : f ≤ sa.length) :
    ∃ A B, sa = A ++ (xs ++ B) ∧ A.length = f := by
  have hfit := h.fit hf
  refine ⟨sa.take f, sa.drop (f + xs.length), ?_, by simp; omega⟩
  apply List.ext_getElem?
  intro i
  by_cases h1 : i < f
  · rw [List.getElem?_append_left (by simp; omega), List.getElem?_take, if_pos h1]
  · rw [List.getElem?_append_right (by simp; omega)]
    by_cases h2 : i < f + xs.length
    · have := h (i - f) (by omega)
      rw [List.getElem?_append_left (by simp; omega), show i - (sa.take f).length = i - f by simp; omega, ← this]
      congr 1
      omega
    · rw [List.getElem?_append_right (by simp; omega), List.getElem?_drop]
      congr 1
      simp
      omega

theorem at_mid {α : Type} {A xs B : List α} {f : Nat} (hf : f = A.length) : At (A ++ (xs ++ B)) f xs := by
  intro i hi
  rw [hf, List.getElem?_append_right (by omega), Nat.add_sub_cancel_left, List.getElem?_append_left hi]

theorem at_append {α : Type} {sa : List α} {f : Nat} {xs ys : List α} : At sa f (xs ++ ys) ↔ At sa f xs ∧ At sa (f + xs.length) ys := by
  constructor
  · intro h
    refine ⟨fun i hi => ?_, fun i hi => ?_⟩
    · rw [h i (by simp; omega), List.getElem?_append_left hi]
    · rw [Nat.add_assoc, h (xs.length + i) (by simp; omega), List.getElem?_append_right (by omega), Nat.add_sub_cancel_left]
  · intro h i hi
    by_cases h1 : i < xs.length
    · rw [h.1 i h1, List.getElem?_append_left h1]
    · rw [List.getElem?_append_right (by omega), ← h.2 (i - xs.length) (by simp at hi; omega)]
      congr 1
      omega

theorem at_nil {α : Type} {sa : List α} {f : Nat} : At sa f ([] : List α) := fun i hi => absurd hi (by simp)

/-- The array is the same but from `f` to `l`. -/
def Upd {α : Type} (sa sa' : List α) (f l : Nat) : Prop := sa'.length = sa.length ∧ ∀ p, p < f ∨ l ≤ p → sa'[p]? = sa[p]?

theorem Upd.refl {α : Type} (sa : List α) (f l : Nat) : Upd sa sa f l := ⟨rfl, fun _ _ => rfl⟩

theorem Upd.trans {α : Type} {a b c : List α} {f l : Nat} (h1 : Upd a b f l) (h2 : Upd b c f l) : Upd a c f l :=
  ⟨h2.1.trans h1.1, fun p hp => (h2.2 p hp).trans (h1.2 p hp)⟩

theorem Upd.mono {α : Type} {a b : List α} {f l f' l' : Nat} (h : Upd a b f l) (h1 : f' ≤ f) (h2 : l ≤ l') : Upd a b f' l' :=
  ⟨h.1, fun p hp => h.2 p (by omega)⟩

theorem Upd.at {α : Type} {sa sa' xs : List α} {f l f' : Nat} (h : Upd sa sa' f l) (ha : At sa f' xs) (hd : f' + xs.length ≤ f ∨ l ≤ f') : At sa' f' xs := by
  intro i hi
  rw [h.2 _ (by omega), ha i hi]

theorem upd_mid {α : Type} {A xs ys B : List α} {f l : Nat} (hf : f = A.length) (hl : l = f + xs.length) (h : xs.length = ys.length) :
    Upd (A ++ (xs ++ B)) (A ++ (ys ++ B)) f l := by
  refine ⟨by simp [h], fun p hp => ?_⟩
  by_cases h1 : p < A.length
  · rw [List.getElem?_append_left h1, List.getElem?_append_left h1]
  · rw [List.getElem?_append_right (by omega), List.getElem?_append_right (by omega), List.getElem?_append_right (by omega), List.getElem?_append_right (by omega), h]

/-! ### Agreement -/

/-- The suffixes agree on `k` names. -/
def Ag (w : List Nat) (k s s' : Nat) : Prop := (w.drop s).take k = (w.drop s').take k

/-- The last name is the only one of its kind. -/
def LastUniq (w : List Nat) : Prop := ∀ r : Nat, r + 1 < w.length → w[r]? ≠ w[w.length - 1]?

section
variable {w : List Nat}

theorem Ag.mono {k j s s' : Nat} (h : Ag w k s s') (hj : j ≤ k) : Ag w j s s' := take_le hj h

theorem Ag.symm {k s s' : Nat} (h : Ag w k s s') : Ag w k s' s := Eq.symm h

theorem Ag.trans {k s s' s'' : Nat} (h : Ag w k s s') (h' : Ag w k s' s'') : Ag w k s s'' := Eq.trans h h'

theorem ag_refl (k s : Nat) : Ag w k s s := rfl

theorem Ag.add {k j s s' : Nat} (h : Ag w k s s') (h' : Ag w j (s + k) (s' + k)) : Ag w (k + j) s s' := by
  unfold Ag at *
  rw [List.take_add, List.take_add, h, List.drop_drop, List.drop_drop, h']

theorem Ag.fit (U : LastUniq w) {k s s' : Nat} (hs : s < w.length) (hs' : s' < w.length) (hne : s ≠ s') (h : Ag w k s s') : s + k < w.length := by
  by_cases hk : s + k < w.length
  · exact hk
  · exfalso
    have h1 := congrArg (fun l => l[w.length - 1 - s]?) h
    have h2 := congrArg List.length h
    simp only [List.getElem?_take, List.getElem?_drop, List.length_take, List.length_drop] at h1 h2
    rw [if_pos (by omega), if_pos (by omega), show s + (w.length - 1 - s) = w.length - 1 by omega] at h1
    by_cases h3 : s' + (w.length - 1 - s) + 1 < w.length
    · exact U _ h3 h1.symm
    · omega

theorem Ag.lex {k s s' : Nat} (h : Ag w k s s') (hl : Lex (w.drop (s + k)) (w.drop (s' + k))) : Lex (w.drop s) (w.drop s') := (lex_drop h).2 hl

/-! ### Ranks -/

/-- The ranks are in the order of the suffixes, and suffixes of the same rank agree on `h`
names. -/
structure Ranks (w : List Nat) (h : Nat) (isa : List Nat) : Prop where
  len : isa.length = w.length
  mono : ∀ s s', s < w.length → s' < w.length → ch isa s < ch isa s' → Lex (w.drop s) (w.drop s')
  agree : ∀ s s', s < w.length → s' < w.length → ch isa s = ch isa s' → Ag w h s s'

variable {h : Nat} {isa : List Nat}

theorem Ranks.key_lt (R : Ranks w h isa) {D s s' : Nat} (hs : s + D < w.length) (hs' : s' + D < w.length) (ha : Ag w D s s')
    (hk : ch isa (s + D) < ch isa (s' + D)) : Lex (w.drop s) (w.drop s') := ha.lex (R.mono _ _ hs hs' hk)

theorem Ranks.key_eq (R : Ranks w h isa) {D s s' : Nat} (hs : s + D < w.length) (hs' : s' + D < w.length) (ha : Ag w D s s')
    (hk : ch isa (s + D) = ch isa (s' + D)) : Ag w (D + h) s s' := ha.add (R.agree _ _ hs hs' hk)

theorem Ranks.refine (R : Ranks w h isa) {isa' : List Nat} (hlen : isa'.length = w.length) {f l : Nat}
    (hout : ∀ y, y < w.length → (ch isa y < f ∨ l ≤ ch isa y) → ch isa' y = ch isa y)
    (hin : ∀ y, y < w.length → f ≤ ch isa y → ch isa y < l → ch isa y = l - 1 ∧ f ≤ ch isa' y ∧ ch isa' y < l)
    (hlex : ∀ y y', y < w.length → y' < w.length → f ≤ ch isa y → ch isa y < l → f ≤ ch isa y' → ch isa y' < l → ch isa' y < ch isa' y' → Lex (w.drop y) (w.drop y')) :
    Ranks w h isa' := by
  refine ⟨hlen, fun s s' hs hs' hlt => ?_, fun s s' hs hs' heq => ?_⟩
  · by_cases h1 : f ≤ ch isa s ∧ ch isa s < l
    · by_cases h2 : f ≤ ch isa s' ∧ ch isa s' < l
      · exact hlex s s' hs hs' h1.1 h1.2 h2.1 h2.2 hlt
      · have := hout s' hs' (by omega)
        have := hin s hs h1.1 h1.2
        exact R.mono s s' hs hs' (by omega)
    · by_cases h2 : f ≤ ch isa s' ∧ ch isa s' < l
      · have := hout s hs (by omega)
        have := hin s' hs' h2.1 h2.2
        exact R.mono s s' hs hs' (by omega)
      · rw [hout s hs (by omega), hout s' hs' (by omega)] at hlt
        exact R.mono s s' hs hs' hlt
  · refine R.agree s s' hs hs' ?_
    by_cases h1 : f ≤ ch isa s ∧ ch isa s < l
    · have := hin s hs h1.1 h1.2
      by_cases h2 : f ≤ ch isa s' ∧ ch isa s' < l
      · have := hin s' hs' h2.1 h2.2
        omega
      · have := hout s' hs' (by omega)
        omega
    · have := hout s hs (by omega)
      by_cases h2 : f ≤ ch isa s' ∧ ch isa s' < l
      · have := hin s' hs' h2.1 h2.2
        omega
      · have := hout s' hs' (by omega)
        omega

/-- `X` is the class of the suffixes of rank `l - 1`, and no other rank is in the range. -/
structure Cls (w : List Nat) (isa : List Nat) (f l : Nat) (X : List Nat) : Prop where
  len : f + X.length = l
  fit : l ≤ w.length
  nodup : X.Nodup
  mem : ∀ y, y ∈ X ↔ y < w.length ∧ f ≤ ch isa y ∧ ch isa y < l
  cls : ∀ y, y ∈ X → ch isa y = l - 1

theorem Cls.perm {f l : Nat} {X Y : List Nat} (C : Cls w isa f l X) (hp : Y.Perm X) : Cls w isa f l Y :=
  ⟨by rw [hp.length_eq]; exact C.len, C.fit, hp.nodup_iff.2 C.nodup, fun y => (hp.mem_iff).trans (C.mem y), fun y hy => C.cls y (hp.mem_iff.1 hy)⟩

theorem Cls.lt {f l : Nat} {X : List Nat} (C : Cls w isa f l X) {y : Nat} (hy : y ∈ X) : y < w.length := ((C.mem y).1 hy).1

/-- The ranks change elsewhere only. -/
theorem Cls.frame {f l f' l' : Nat} {X : List Nat} {isa' : List Nat} (C : Cls w isa f l X)
    (hout : ∀ y, y < w.length → (ch isa y < f' ∨ l' ≤ ch isa y) → ch isa' y = ch isa y)
    (hin : ∀ y, y < w.length → f' ≤ ch isa y → ch isa y < l' → f' ≤ ch isa' y ∧ ch isa' y < l') (hd : l ≤ f' ∨ l' ≤ f) : Cls w isa' f l X := by
  have key : ∀ y, y < w.length → ((f ≤ ch isa' y ∧ ch isa' y < l) ↔ (f ≤ ch isa y ∧ ch isa y < l)) := by
    intro y hy
    by_cases h1 : f' ≤ ch isa y ∧ ch isa y < l'
    · have := hin y hy h1.1 h1.2
      omega
    · rw [hout y hy (by omega)]
  refine ⟨C.len, C.fit, C.nodup, fun y => ?_, fun y hy => ?_⟩
  · rw [C.mem y]
    constructor
    · intro hy
      exact ⟨hy.1, (key y hy.1).2 hy.2⟩
    · intro hy
      exact ⟨hy.1, (key y hy.1).1 hy.2⟩
  · obtain ⟨h1, h2, h3⟩ := (C.mem y).1 hy
    rw [hout y h1 (by omega)]
    exact C.cls y hy

/-- A class is split in three. -/
theorem Cls.split3 (R : Ranks w h isa) {f a b l : Nat} {L E G : List Nat} (C : Cls w isa f l (L ++ (E ++ G))) (ha : a = f + L.length) (hb : b = a + E.length)
    {isa' : List Nat} (hlen : isa'.length = w.length)
    (hval : ∀ y, y < w.length → ch isa' y = if y ∈ L then a - 1 else if y ∈ E then b - 1 else ch isa y)
    (hLE : ∀ y y', y ∈ L → y' ∈ E → Lex (w.drop y) (w.drop y')) (hLG : ∀ y y', y ∈ L → y' ∈ G → Lex (w.drop y) (w.drop y'))
    (hEG : ∀ y y', y ∈ E → y' ∈ G → Lex (w.drop y) (w.drop y')) :
    Ranks w h isa' ∧ Cls w isa' f a L ∧ Cls w isa' a b E ∧ Cls w isa' b l G ∧
      (∀ y, y < w.length → (ch isa y < f ∨ l ≤ ch isa y) → ch isa' y = ch isa y) := by
  have hCl := C.len
  have hfit := C.fit
  simp only [List.length_append] at hCl
  have hnd := C.nodup
  rw [List.nodup_append] at hnd
  obtain ⟨nL, nEG, dL⟩ := hnd
  rw [List.nodup_append] at nEG
  obtain ⟨nE, nG, dE⟩ := nEG
  have posL : ∀ y, y ∈ L → 0 < L.length := fun y hy => List.length_pos_iff.2 (List.ne_nil_of_mem hy)
  have posE : ∀ y, y ∈ E → 0 < E.length := fun y hy => List.length_pos_iff.2 (List.ne_nil_of_mem hy)
  have posG : ∀ y, y ∈ G → 0 < G.length := fun y hy => List.length_pos_iff.2 (List.ne_nil_of_mem hy)
  have vL : ∀ y, y ∈ L → ch isa' y = a - 1 := fun y hy => by
    rw [hval y (C.lt (List.mem_append_left _ hy)), if_pos hy]
  have vE : ∀ y, y ∈ E → ch isa' y = b - 1 := fun y hy => by
    rw [hval y (C.lt (List.mem_append_right _ (List.mem_append_left _ hy))), if_neg (fun h => dL y h y (List.mem_append_left _ hy) rfl), if_pos hy]
  have vG : ∀ y, y ∈ G → ch isa' y = l - 1 := fun y hy => by
    rw [hval y (C.lt (List.mem_append_right _ (List.mem_append_right _ hy))), if_neg (fun h => dL y h y (List.mem_append_right _ hy) rfl),
      if_neg (fun h => dE y h y hy rfl)]
    exact C.cls y (List.mem_append_right _ (List.mem_append_right _ hy))
  have vO : ∀ y, y < w.length → (ch isa y < f ∨ l ≤ ch isa y) → ch isa' y = ch isa y := fun y hy ho => by
    have : y ∉ L ++ (E ++ G) := fun h => by have := (C.mem y).1 h; omega
    simp only [List.mem_append, not_or] at this
    rw [hval y hy, if_neg this.1, if_neg this.2.1]
  have cases : ∀ y, y < w.length → f ≤ ch isa y → ch isa y < l → y ∈ L ∨ y ∈ E ∨ y ∈ G := fun y hy h1 h2 => by
    have := (C.mem y).2 ⟨hy, h1, h2⟩
    simpa only [List.mem_append] using this
  have inX : ∀ y, y ∈ L ∨ y ∈ E ∨ y ∈ G → y < w.length ∧ f ≤ ch isa y ∧ ch isa y < l := fun y hy => (C.mem y).1 (by simpa only [List.mem_append] using hy)
  refine ⟨R.refine hlen vO ?_ ?_, ?_, ?_, ?_, vO⟩
  · intro y hy h1 h2
    have hc := C.cls y ((C.mem y).2 ⟨hy, h1, h2⟩)
    rcases cases y hy h1 h2 with h | h | h
    · have := vL y h
      have := posL y h
      omega
    · have := vE y h
      have := posE y h
      omega
    · have := vG y h
      have := posG y h
      omega
  · intro y y' hy hy' h1 h2 h3 h4 hlt
    rcases cases y hy h1 h2 with h | h | h <;> rcases cases y' hy' h3 h4 with h' | h' | h'
    · rw [vL y h, vL y' h'] at hlt; omega
    · exact hLE y y' h h'
    · exact hLG y y' h h'
    · rw [vE y h, vL y' h'] at hlt; have := posE y h; omega
    · rw [vE y h, vE y' h'] at hlt; omega
    · exact hEG y y' h h'
    · rw [vG y h, vL y' h'] at hlt; have := posG y h; omega
    · rw [vG y h, vE y' h'] at hlt; have := posG y h; omega
    · rw [vG y h, vG y' h'] at hlt; omega
  · refine ⟨by omega, by omega, nL, fun y => ⟨fun hy => ?_, fun hy => ?_⟩, vL⟩
    · have := inX y (.inl hy)
      have := vL y hy
      have := posL y hy
      omega
    · by_cases h1 : f ≤ ch isa y ∧ ch isa y < l
      · rcases cases y hy.1 h1.1 h1.2 with h | h | h
        · exact h
        · have := vE y h
          have := posE y h
          omega
        · have := vG y h
          have := posG y h
          omega
      · have := vO y hy.1 (by omega)
        omega
  · refine ⟨by omega, by omega, nE, fun y => ⟨fun hy => ?_, fun hy => ?_⟩, vE⟩
    · have := inX y (.inr (.inl hy))
      have := vE y hy
      have := posE y hy
      omega
    · by_cases h1 : f ≤ ch isa y ∧ ch isa y < l
      · rcases cases y hy.1 h1.1 h1.2 with h | h | h
        · have := vL y h
          have := posL y h
          omega
        · exact h
        · have := vG y h
          have := posG y h
          omega
      · have := vO y hy.1 (by omega)
        omega
  · refine ⟨by omega, by omega, nG, fun y => ⟨fun hy => ?_, fun hy => ?_⟩, vG⟩
    · have := inX y (.inr (.inr hy))
      have := vG y hy
      have := posG y hy
      omega
    · by_cases h1 : f ≤ ch isa y ∧ ch isa y < l
      · rcases cases y hy.1 h1.1 h1.2 with h | h | h
        · have := vL y h
          have := posL y h
          omega
        · have := vE y h
          have := posE y h
          omega
        · exact h
      · have := vO y hy.1 (by omega)
        omega

/-! ### Results -/

/-- From each element on to the index that is its rank the ranks are the same. -/
def Blk (isa : List Nat) (f : Nat) (X : List Nat) : Prop :=
  ∀ i s, X[i]? = some s → f + i ≤ ch isa s ∧ ∀ j, i ≤ j → f + j ≤ ch isa s → ∃ s', X[j]? = some s' ∧ ch isa s' = ch isa s

/-- The outcome for the range from `f` to `l`. Without `fl` all is sorted. -/
def Res (w : List Nat) (h : Nat) (isa : List Nat) (sa : List Int) (f l : Nat) (X : List Nat) (fl : Bool) : Prop :=
  ∃ X' : List Nat, X'.Perm X ∧ f + X.length = l ∧ At sa f (X'.map Int.ofNat) ∧ (∀ y, y ∈ X → f ≤ ch isa y ∧ ch isa y < l) ∧ Blk isa f X' ∧
    (fl = false → ∀ i s, X'[i]? = some s → ch isa s = f + i) ∧ ∀ s s', s ∈ X → s' ∈ X → ch isa s = ch isa s' → Ag w (2 * h) s s'

theorem Res.weaken {sa : List Int} {f l : Nat} {X : List Nat} {fl fl' : Bool} (r : Res w h isa sa f l X fl) (hf : fl = true → fl' = true) : Res w h isa sa f l X fl' := by
  obtain ⟨X', h1, h2, h3, h4, h5, h6, h7⟩ := r
  exact ⟨X', h1, h2, h3, h4, h5, fun h0 => h6 (by cases fl <;> simp_all), h7⟩

theorem Res.perm {sa : List Int} {f l : Nat} {X Y : List Nat} {fl : Bool} (r : Res w h isa sa f l X fl) (hp : X.Perm Y) : Res w h isa sa f l Y fl := by
  obtain ⟨X', h1, h2, h3, h4, h5, h6, h7⟩ := r
  exact ⟨X', h1.trans hp, by rw [← hp.length_eq]; exact h2, h3, fun y hy => h4 y (hp.mem_iff.2 hy), h5, h6, fun s s' hs hs' => h7 s s' (hp.mem_iff.2 hs) (hp.mem_iff.2 hs')⟩

theorem Blk.append {f : Nat} {X Y : List Nat} (h1 : Blk isa f X) (h2 : Blk isa (f + X.length) Y) (hlt : ∀ y, y ∈ X → ch isa y < f + X.length) : Blk isa f (X ++ Y) := by
  intro i s hs
  by_cases hi : i < X.length
  · rw [List.getElem?_append_left hi] at hs
    obtain ⟨g1, g2⟩ := h1 i s hs
    refine ⟨g1, fun j hij hj => ?_⟩
    have := hlt s (List.mem_of_getElem? hs)
    rw [List.getElem?_append_left (by omega)]
    exact g2 j hij hj
  · rw [List.getElem?_append_right (by omega)] at hs
    obtain ⟨g1, g2⟩ := h2 _ s hs
    refine ⟨by omega, fun j hij hj => ?_⟩
    rw [List.getElem?_append_right (by omega)]
    exact g2 _ (by omega) (by omega)

theorem Res.append {sa : List Int} {f a l : Nat} {X Y : List Nat} {fl : Bool} (r1 : Res w h isa sa f a X fl) (r2 : Res w h isa sa a l Y fl) : Res w h isa sa f l (X ++ Y) fl := by
  obtain ⟨X', h1, h2, h3, h4, h5, h6, h7⟩ := r1
  obtain ⟨Y', g1, g2, g3, g4, g5, g6, g7⟩ := r2
  have hl := h1.length_eq
  refine ⟨X' ++ Y', h1.append g1, by simp; omega, ?_, ?_, ?_, ?_, ?_⟩
  · rw [List.map_append, at_append]
    exact ⟨h3, by rw [List.length_map, hl, h2]; exact g3⟩
  · intro y hy
    rcases List.mem_append.1 hy with hy | hy
    · have := h4 y hy
      omega
    · have := g4 y hy
      omega
  · refine h5.append (by rw [hl, h2]; exact g5) fun y hy => ?_
    have := h4 y (h1.mem_iff.1 hy)
    omega
  · intro h0 i s hs
    by_cases hi : i < X'.length
    · rw [List.getElem?_append_left hi] at hs
      exact h6 h0 i s hs
    · rw [List.getElem?_append_right (by omega)] at hs
      have := g6 h0 _ s hs
      omega
  · intro s s' hs hs' he
    rcases List.mem_append.1 hs with hs | hs <;> rcases List.mem_append.1 hs' with hs' | hs'
    · exact h7 s s' hs hs' he
    · have := h4 s hs
      have := g4 s' hs'
      omega
    · have := g4 s hs
      have := h4 s' hs'
      omega
    · exact g7 s s' hs hs' he

/-- What other ranges are given does not matter. -/
theorem Res.frame {sa sa' : List Int} {isa' : List Nat} {f l f' l' : Nat} {X : List Nat} {fl : Bool} (r : Res w h isa sa f l X fl) (hX : ∀ y, y ∈ X → y < w.length)
    (hout : ∀ y, y < w.length → (ch isa y < f' ∨ l' ≤ ch isa y) → ch isa' y = ch isa y) (hsa : Upd sa sa' f' l') (hd : l ≤ f' ∨ l' ≤ f) : Res w h isa' sa' f l X fl := by
  obtain ⟨X', h1, h2, h3, h4, h5, h6, h7⟩ := r
  have hl := h1.length_eq
  have hs : ∀ y, y ∈ X → ch isa' y = ch isa y := fun y hy => hout y (hX y hy) (by have := h4 y hy; omega)
  have hs' : ∀ i s, X'[i]? = some s → ch isa' s = ch isa s := fun i s hi => hs s (h1.mem_iff.1 (List.mem_of_getElem? hi))
  refine ⟨X', h1, h2, hsa.at h3 (by simp; omega), fun y hy => by rw [hs y hy]; exact h4 y hy, ?_, fun h0 i s hi => by rw [hs' i s hi]; exact h6 h0 i s hi,
    fun s s' k k' he => h7 s s' k k' (by rw [hs s k, hs s' k'] at he; exact he)⟩
  intro i s hi
  rw [hs' i s hi]
  obtain ⟨g1, g2⟩ := h5 i s hi
  refine ⟨g1, fun j hij hj => ?_⟩
  obtain ⟨s', k1, k2⟩ := g2 j hij hj
  exact ⟨s', k1, by rw [hs' j s' k1]; exact k2⟩

/-- A class that is left as it is. -/
theorem Cls.res {sa : List Int} {f l : Nat} {X : List Nat} {fl : Bool} (C : Cls w isa f l X) (hsa : At sa f (X.map Int.ofNat)) (hag : ∀ s s', s ∈ X → s' ∈ X → Ag w (2 * h) s s')
    (hf : fl = false → X.length ≤ 1) : Res w h isa sa f l X fl := by
  have hl := C.len
  refine ⟨X, .refl _, hl, hsa, fun y hy => ((C.mem y).1 hy).2, ?_, ?_, fun s s' hs hs' _ => hag s s' hs hs'⟩
  · intro i s hi
    have h1 := (List.getElem?_eq_some_iff.1 hi).1
    rw [C.cls s (List.mem_of_getElem? hi)]
    refine ⟨by omega, fun j _ hj => ⟨X[j]'(by omega), List.getElem?_eq_getElem _, C.cls _ (List.getElem_mem _)⟩⟩
  · intro h0 i s hi
    have h1 := (List.getElem?_eq_some_iff.1 hi).1
    have := hf h0
    rw [C.cls s (List.mem_of_getElem? hi)]
    omega

end

end Tr

end Dss
end Detools
