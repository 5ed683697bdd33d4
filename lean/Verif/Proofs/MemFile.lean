import Verif.Model.PyInPlace
/-
Lemmas about writing into a memory.
-/
namespace Detools

theorem fileWrite_nil (m : Bytes) (p : Nat) : fileWrite m p [] = m := by simp [fileWrite]

theorem fileWrite_get (m : Bytes) (p : Nat) (d : Bytes) (k : Nat) :
    (fileWrite m p d)[k]? =
      if k < p then (if k < m.length then m[k]? else if d = [] then none else some 0)
      else if k < p + d.length then d[k - p]? else m[k]? := by
  unfold fileWrite
  by_cases hd : d = []
  · subst hd
    simp only [if_true, List.length_nil, Nat.add_zero]
    by_cases h1 : k < p
    · simp only [h1, if_true]
      by_cases h2 : k < m.length
      · simp only [h2, if_true]
      · simp only [h2, if_false]; exact List.getElem?_eq_none (by omega)
    · simp only [h1, if_false]
  · simp only [hd, if_false]
    have hl : (m.take p ++ List.replicate (p - m.length) 0).length = p := by
      simp only [List.length_append, List.length_take, List.length_replicate]; omega
    rw [List.append_assoc (m.take p ++ _)]
    by_cases h1 : k < p
    · rw [List.getElem?_append_left (by omega)]
      simp only [h1, if_true]
      by_cases h2 : k < m.length
      · simp only [h2, if_true]
        rw [List.getElem?_append_left (by simp; omega), List.getElem?_take_of_lt h1]
      · simp only [h2, if_false]
        rw [List.getElem?_append_right (by simp; omega), List.getElem?_replicate, if_pos (by simp; omega)]
    · rw [List.getElem?_append_right (by omega), hl]
      simp only [h1, if_false]
      by_cases h2 : k < p + d.length
      · simp only [h2, if_true]
        rw [List.getElem?_append_left (by omega)]
      · simp only [h2, if_false]
        rw [List.getElem?_append_right (by omega), List.getElem?_drop]
        congr 1; omega

theorem fileWrite_length (m : Bytes) (p : Nat) (d : Bytes) (h : p + d.length ≤ m.length) :
    (fileWrite m p d).length = m.length := by
  unfold fileWrite
  split
  · rfl
  · simp only [List.length_append, List.length_take, List.length_replicate, List.length_drop]; omega

theorem fileWrite_length_ge (m : Bytes) (p : Nat) (d : Bytes) : m.length ≤ (fileWrite m p d).length := by
  unfold fileWrite
  split
  · exact Nat.le_refl _
  · simp only [List.length_append, List.length_take, List.length_replicate, List.length_drop]; omega

theorem fileWrite_append (m : Bytes) (p : Nat) (x y : Bytes) :
    fileWrite (fileWrite m p x) (p + x.length) y = fileWrite m p (x ++ y) := by
  by_cases hx : x = []
  · subst hx; simp [fileWrite_nil]
  by_cases hy : y = []
  · subst hy; simp [fileWrite_nil]
  have hxl : 0 < x.length := List.length_pos_iff.2 hx
  apply List.ext_getElem?
  intro k
  have hlen : p + x.length ≤ (fileWrite m p x).length := by
    unfold fileWrite
    rw [if_neg hx]
    simp only [List.length_append, List.length_take, List.length_replicate, List.length_drop]; omega
  rw [fileWrite_get, fileWrite_get m p (x ++ y), fileWrite_get]
  simp only [hx, hy, if_false, List.append_eq_nil_iff, false_and, List.length_append]
  by_cases h1 : k < p
  · have : k < p + x.length := by omega
    have h2 : k < (fileWrite m p x).length := by omega
    simp only [h1, this, h2, if_true]
  · simp only [h1, if_false]
    by_cases h3 : k < p + x.length
    · have h2 : k < (fileWrite m p x).length := by omega
      have h4 : k < p + (x.length + y.length) := by omega
      simp only [h3, h2, h4, if_true]
      rw [List.getElem?_append_left (by omega)]
    · simp only [h3, if_false]
      by_cases h4 : k < p + x.length + y.length
      · have h5 : k < p + (x.length + y.length) := by omega
        simp only [h4, h5, if_true]
        rw [List.getElem?_append_right (by omega)]
        congr 1; omega
      · have h5 : ¬ k < p + (x.length + y.length) := by omega
        simp only [h4, h5, if_false]

/-- The memory holds `d` at address `p`. -/
def Holds (m : Bytes) (p : Nat) (d : Bytes) : Prop := ∀ k, k < d.length → m[p + k]? = d[k]?

theorem Holds.nil (m : Bytes) (p : Nat) : Holds m p [] := fun k h => by simp at h

theorem Holds.append {m : Bytes} {p : Nat} {a b : Bytes} :
    Holds m p (a ++ b) ↔ Holds m p a ∧ Holds m (p + a.length) b := by
  constructor
  · intro h
    refine ⟨fun k hk => ?_, fun k hk => ?_⟩
    · rw [h k (by simp; omega), List.getElem?_append_left hk]
    · rw [Nat.add_assoc, h (a.length + k) (by simp; omega), List.getElem?_append_right (by omega)]
      congr 1; omega
  · rintro ⟨h1, h2⟩ k hk
    simp only [List.length_append] at hk
    by_cases h : k < a.length
    · rw [h1 k h, List.getElem?_append_left h]
    · rw [List.getElem?_append_right (by omega)]
      have := h2 (k - a.length) (by omega)
      rw [← this]; congr 1; omega

theorem Holds.drop {m : Bytes} {p : Nat} {a : Bytes} (h : Holds m p a) (n : Nat) (hn : n ≤ a.length) :
    Holds m (p + n) (a.drop n) := by
  have : a = a.take n ++ a.drop n := (List.take_append_drop n a).symm
  rw [this, Holds.append] at h
  have hl : (a.take n).length = n := by simp; omega
  rw [hl] at h
  exact h.2

theorem Holds.take {m : Bytes} {p : Nat} {a : Bytes} (h : Holds m p a) (n : Nat) : Holds m p (a.take n) := by
  have : a = a.take n ++ a.drop n := (List.take_append_drop n a).symm
  rw [this, Holds.append] at h
  exact h.1

theorem Holds.read {m : Bytes} {p : Nat} {a : Bytes} (h : Holds m p a) : (m.drop p).take a.length = a := by
  apply List.ext_getElem?
  intro k
  by_cases hk : k < a.length
  · rw [List.getElem?_take_of_lt hk, List.getElem?_drop, h k hk]
  · rw [List.getElem?_eq_none (by simp; omega), List.getElem?_eq_none (by omega)]

theorem Holds.of_read {m : Bytes} {p : Nat} {a : Bytes} (h : (m.drop p).take a.length = a) : Holds m p a := by
  intro k hk
  have : ((m.drop p).take a.length)[k]? = a[k]? := by rw [h]
  rw [List.getElem?_take_of_lt hk, List.getElem?_drop] at this
  exact this

theorem Holds.written (m : Bytes) (p : Nat) (d : Bytes) : Holds (fileWrite m p d) p d := by
  intro k hk
  rw [fileWrite_get, if_neg (by omega), if_pos (by omega)]
  congr 1; omega

theorem Holds.kept {m : Bytes} {p : Nat} {a : Bytes} (h : Holds m p a) {q : Nat} {d : Bytes}
    (hd : p + a.length ≤ q ∨ q + d.length ≤ p) : Holds (fileWrite m q d) p a := by
  intro k hk
  have hm := h k hk
  have hs : m[p + k]? = some a[k] := by rw [hm]; exact List.getElem?_eq_getElem hk
  have hlt : p + k < m.length := by
    by_cases hlt : p + k < m.length
    · exact hlt
    · rw [List.getElem?_eq_none (by omega)] at hs; cases hs
  rw [fileWrite_get]
  rcases hd with hd | hd
  · rw [if_pos (by omega), if_pos hlt, hm]
  · by_cases h1 : p + k < q
    · omega
    · rw [if_neg h1, if_neg (by omega), hm]

theorem Holds.zero_iff {m a : Bytes} : Holds m 0 a ↔ a <+: m := by
  constructor
  · intro h
    have := h.read
    simp only [List.drop_zero] at this
    have h2 := List.take_append_drop a.length m
    rw [this] at h2
    exact ⟨_, h2⟩
  · rintro ⟨t, rfl⟩ k hk
    rw [Nat.zero_add, List.getElem?_append_left hk]

theorem Holds.length_le {m : Bytes} {p : Nat} {a : Bytes} (h : Holds m p a) (ha : a ≠ []) : p + a.length ≤ m.length := by
  have hl : 0 < a.length := List.length_pos_iff.2 ha
  have := h (a.length - 1) (by omega)
  rw [List.getElem?_eq_getElem (l := a) (by omega)] at this
  by_cases hlt : p + (a.length - 1) < m.length
  · omega
  · rw [List.getElem?_eq_none (by omega)] at this; cases this

end Detools
