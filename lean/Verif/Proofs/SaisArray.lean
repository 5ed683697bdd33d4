import Verif.Proofs.SaisMain
import Verif.Spec.SuffixArray
/-
SA-IS: the suffix array of bytes.
-/
namespace Detools
open Sais

theorem LexLe.of_not : ∀ {a b : Bytes}, ¬ Sais.Lex (b.map UInt8.toNat) (a.map UInt8.toNat) → LexLe a b
  | [], _, _ => trivial
  | a :: as, [], h => absurd (show Sais.Lex [] ((a :: as).map UInt8.toNat) from trivial) h
  | a :: as, b :: bs, h => by
    rw [List.map_cons, List.map_cons, lex_cons] at h
    show a < b ∨ (a = b ∧ LexLe as bs)
    rcases Nat.lt_trichotomy a.toNat b.toNat with hc | hc | hc
    · exact .inl (UInt8.lt_iff_toNat_lt.2 hc)
    · exact .inr ⟨UInt8.toNat_inj.1 hc, LexLe.of_not fun h' => h (.inr ⟨hc.symm, h'⟩)⟩
    · exact absurd (.inl hc) h

theorem LexLe.antisymm : ∀ {a b : Bytes}, LexLe a b → LexLe b a → a = b
  | [], [], _, _ => rfl
  | [], _ :: _, _, h => h.elim
  | _ :: _, [], h, _ => h.elim
  | a :: as, b :: bs, h1, h2 => by
    rcases h1 with h1 | ⟨rfl, h1⟩
    · rcases h2 with h2 | ⟨rfl, h2⟩
      · rw [UInt8.lt_iff_toNat_lt] at h1 h2; omega
      · rw [UInt8.lt_iff_toNat_lt] at h1; omega
    · rcases h2 with h2 | ⟨_, h2⟩
      · rw [UInt8.lt_iff_toNat_lt] at h2; omega
      · rw [LexLe.antisymm h1 h2]

theorem isSuffixArray_of {data : Bytes} {sa : List Int} (h : IsSa (data.map UInt8.toNat) sa) :
    IsSuffixArray (data.length :: sa.map Int.toNat) data := by
  obtain ⟨h1, f, h2, h3⟩ := h
  rw [List.length_map] at h1 h2 h3
  have hinj : ∀ a b, a < data.length → b < data.length → f a = f b → a = b := by
    intro a b ha hb he
    have e1 := (h2 a ha).2
    rw [he, (h2 b hb).2] at e1
    injection e1 with e1
    omega
  have hsurj := inj_surj (n := data.length) (f := f) (fun x hx => (h2 x hx).1) hinj
  have hget : ∀ x (hx : x < data.length) (hi : f x < (sa.map Int.toNat).length), (sa.map Int.toNat)[f x] = x := by
    intro x hx hi
    have e1 := (h2 x hx).2
    rw [List.length_map] at hi
    rw [List.getElem?_eq_getElem hi] at e1
    injection e1 with e1
    rw [List.getElem_map, e1, Int.toNat_natCast]
  have hpair : (sa.map Int.toNat).Pairwise fun p q => p ≠ q ∧ LexLe (data.drop p) (data.drop q) := by
    rw [List.pairwise_iff_getElem]
    intro i j hi hj hij
    have hi' := hi
    have hj' := hj
    rw [List.length_map] at hi' hj'
    obtain ⟨x, hx, rfl⟩ := hsurj i (by omega)
    obtain ⟨y, hy, rfl⟩ := hsurj j (by omega)
    rw [hget x hx, hget y hy]
    refine ⟨fun e => by subst e; omega, LexLe.of_not fun hl => ?_⟩
    rw [List.map_drop, List.map_drop] at hl
    have := h3 y x hy hx hl
    omega
  have hlt : ∀ p ∈ sa.map Int.toNat, p < data.length := by
    intro p hp
    obtain ⟨i, hi, rfl⟩ := List.mem_iff_getElem.1 hp
    have hi' := hi
    rw [List.length_map] at hi'
    obtain ⟨x, hx, rfl⟩ := hsurj i (by omega)
    rw [hget x hx]
    exact hx
  refine ⟨by simp [h1], fun p => ⟨fun hp => ?_, fun hp => ?_⟩, ?_, ?_⟩
  · rcases List.mem_cons.1 hp with rfl | hp
    · exact Nat.le_refl _
    · exact Nat.le_of_lt (hlt p hp)
  · by_cases he : p = data.length
    · rw [he]; exact List.mem_cons_self
    · have hx : p < data.length := by omega
      have hf : f p < (sa.map Int.toNat).length := by rw [List.length_map, h1]; exact (h2 p hx).1
      refine List.mem_cons_of_mem _ ?_
      rw [← hget p hx hf]
      exact List.getElem_mem _
  · refine List.nodup_cons.2 ⟨fun hm => ?_, hpair.imp fun h => h.1⟩
    have := hlt _ hm
    omega
  · refine List.pairwise_cons.2 ⟨fun p _ => ?_, hpair.imp fun h => h.2⟩
    rw [List.drop_length]
    trivial

theorem saisArray_ok (data : Bytes) (hlen : data.length < 2 ^ 31) : ∃ sa, saisArray data = .ok sa ∧ IsSuffixArray sa data := by
  have key : ∃ sa, sais data = .ok sa ∧ IsSa (data.map UInt8.toNat) sa := by
    unfold sais
    by_cases h : data.length ≤ 1
    · rw [if_pos h]
      refine ⟨_, rfl, by simp, id, ?_, ?_⟩
      · intro x hx
        rw [List.length_map] at hx
        have : x = 0 := by omega
        subst this
        refine ⟨by rw [List.length_map]; exact hx, ?_⟩
        rw [id, List.getElem?_replicate, if_pos hx]
        rfl
      · intro x y hx hy hl
        rw [List.length_map] at hx hy
        have : x = y := by omega
        subst this
        exact absurd hl (Lex.irrefl _)
    · rw [if_neg h]
      refine saisMain_ok _ _ 256 0 (by unfold Small; rw [List.length_map]; exact hlen) (by simp) (by rw [List.length_map]; omega) ?_
      intro x hx
      obtain ⟨b, _, rfl⟩ := List.mem_map.1 hx
      exact b.toNat_lt
  obtain ⟨sa, h1, h2⟩ := key
  unfold saisArray
  rw [if_neg (by omega), h1]
  exact ⟨_, rfl, isSuffixArray_of h2⟩

theorem suffixArray_unique {fr : Bytes} {sa sb : List Nat} (ha : IsSuffixArray sa fr) (hb : IsSuffixArray sb fr) : sa = sb := by
  have hp : sa.Perm sb := (List.perm_ext_iff_of_nodup ha.nodup hb.nodup).2 fun p => by rw [ha.all, hb.all]
  refine hp.eq_of_pairwise (le := fun p q => LexLe (fr.drop p) (fr.drop q)) ?_ ha.sorted hb.sorted
  intro p q hp hq h1 h2
  rw [ha.all] at hp
  rw [hb.all] at hq
  have := congrArg List.length (LexLe.antisymm h1 h2)
  rw [List.length_drop, List.length_drop] at this
  omega

end Detools
