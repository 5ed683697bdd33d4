import Verif.Proofs.DssScan
import Verif.Proofs.SaisArray
/-
divsufsort: the suffix array, given that the B* suffixes are sorted.
-/
namespace Detools
namespace Dss
open Sais

variable {t : List Nat}

/-- The B* suffixes of `t` are sorted. -/
def SortsStars (o : Sorters) (t : List Nat) : Prop :=
  ∀ p, 0 < nStar t → Placed t p → ∃ sa, sortStars o t (nStar t) p = .ok sa ∧ Ranked t sa

/-- What `construct_SA` is given. -/
structure Ready (t : List Nat) (s : Scan) : Prop where
  m : s.m = nStar t
  a : Ak s.a (fun c => (start t c : Nat))
  len : s.sa.length = t.length
  moved : 0 < nStar t → Moved t ⟨s.sa, s.b⟩

theorem sortTypeBstar_ok (hn : Small t) (hk : ∀ x, x < t.length → ch t x < 256) (h0 : 0 < t.length) {o : Sorters} (hs : SortsStars o t)
    {sa : List Int} (hsa : sa.length = t.length) : ∃ s, sortTypeBstar o t sa = .ok s ∧ Ready t s := by
  obtain ⟨c, a, s, h1, h2, h3, h4⟩ := count_ok hn hk h0 hsa
  obtain ⟨a', b', h5, h6, h7⟩ := starts_ok hk h4
  have hm : t.length - s.m = nStar t := by have := h4.m; omega
  unfold sortTypeBstar
  rw [h1]
  simp only [Bind.bind, Except.bind]
  rw [h2]
  simp only []
  rw [h3]
  simp only []
  rw [h5, hm]
  simp only []
  by_cases hpos : 0 < nStar t
  · rw [if_pos hpos]
    obtain ⟨p, h8, h9⟩ := placeStars_ok hn hk hpos h4 h7
    obtain ⟨sa1, h10, h11⟩ := hs p hpos h9
    obtain ⟨sa2, h12, h13, h14⟩ := set_ok hn h0 h11
    obtain ⟨b1, h15, h16⟩ := h9.b.wrB (c0 := 255) (c1 := 255) (by omega) (by omega) (t.length : Int)
    have hj := j0_all hk
    obtain ⟨p', h17, h18⟩ := moveOuter_ok hn hk h6 255 ⟨sa2, b1⟩ _ _ (Nat.le_refl _) h16 (fun x c k1 k2 k3 => by
        unfold upd2
        rw [if_neg (by omega)]) (fun x c _ _ _ => rfl) (fun x c k1 k2 => by omega) (fun x k1 k2 => by omega)
      ⟨h13, fun x hx hle => by have := srk_lt hx; omega, fun x hx _ => h14 x hx⟩
    rw [hj] at h17
    rw [h8]
    simp only []
    rw [h10]
    simp only []
    rw [h12]
    simp only []
    rw [h15]
    simp only []
    rw [h17]
    exact ⟨_, rfl, rfl, h6, h18.sa.len, fun _ => h18⟩
  · rw [if_neg hpos]
    exact ⟨_, rfl, rfl, h6, h4.len, fun h => absurd h hpos⟩

theorem constructSa_ok (hn : Small t) (hk : ∀ x, x < t.length → ch t x < 256) (h2 : 2 ≤ t.length) {s : Scan} (h : Ready t s) :
    ∃ sa, constructSa t s = .ok sa ∧ IsSa t sa := by
  unfold constructSa
  rw [h.m]
  by_cases hpos : 0 < nStar t
  · rw [if_pos hpos]
    obtain ⟨r, h3, h4, h5⟩ := scanBs_all hn hk h.a (h.moved hpos)
    rw [h3]
    exact scanA_ok hn hk h2 h.a h4 h5
  · rw [if_neg hpos]
    refine scanA_ok hn hk h2 h.a h.len (fun x hx => ?_)
    obtain ⟨y, _, hy, _⟩ := exists_star hx
    have := cnt_pos (p := star t) (n := t.length) (show y < t.length by have := star_lt hy; omega) hy
    exact absurd this hpos

theorem divsufsort_ok {o : Sorters} {data : Bytes} (hn : data.length < 2 ^ 31) (hs : SortsStars o (data.map UInt8.toNat))
    {sa : List Int} (hsa : sa.length = data.length) : ∃ sa', divsufsort o data sa = .ok sa' ∧ IsSa (data.map UInt8.toNat) sa' := by
  have hl : (data.map UInt8.toNat).length = data.length := List.length_map ..
  have hk : ∀ x, x < (data.map UInt8.toNat).length → ch (data.map UInt8.toNat) x < 256 := by
    intro x hx
    rw [hl] at hx
    have := ch_get (t := data.map UInt8.toNat) (x := x) (by rw [hl]; exact hx)
    rw [List.getElem?_map, List.getElem?_eq_getElem hx] at this
    injection this with this
    rw [← this]
    exact UInt8.toNat_lt _
  have hsm : Small (data.map UInt8.toNat) := by unfold Small; rw [hl]; exact hn
  rw [← hl] at hsa
  unfold divsufsort
  simp only []
  match hd : data.map UInt8.toNat with
  | [] =>
    rw [hd] at hsa
    refine ⟨sa, rfl, hsa, fun _ => 0, fun x hx => absurd hx (by simp), fun x y hx => absurd hx (by simp)⟩
  | [a] =>
    rw [hd] at hsa
    obtain ⟨v, rfl⟩ : ∃ v, sa = [v] := by
      match sa, hsa with
      | [v], _ => exact ⟨v, rfl⟩
    refine ⟨[0], rfl, rfl, fun _ => 0, fun x hx => ?_, fun x y hx hy hlex => ?_⟩
    · have hx' : x < 1 := hx
      have : x = 0 := by omega
      subst this
      exact ⟨Nat.one_pos, rfl⟩
    · have hx' : x < 1 := hx
      have hy' : y < 1 := hy
      have e1 : x = 0 := by omega
      have e2 : y = 0 := by omega
      subst e1 e2
      exact absurd hlex (Lex.irrefl _)
  | [a, b] =>
    rw [hd] at hsa
    obtain ⟨v, w, rfl⟩ : ∃ v w, sa = [v, w] := by
      match sa, hsa with
      | [v, w], _ => exact ⟨v, w, rfl⟩
    by_cases hab : a < b
    · refine ⟨[0, 1], by simp [hab, Bind.bind, Except.bind, wr], rfl, id, fun x hx => ?_, fun x y hx hy hlex => ?_⟩
      · have hx' : x < 2 := hx
        have : x = 0 ∨ x = 1 := by omega
        rcases this with rfl | rfl
        · exact ⟨by simp, rfl⟩
        · exact ⟨by simp, rfl⟩
      · have hx' : x < 2 := hx
        have hy' : y < 2 := hy
        have h4 : (x = 0 ∧ y = 0) ∨ (x = 1 ∧ y = 1) ∨ (x = 0 ∧ y = 1) ∨ (x = 1 ∧ y = 0) := by omega
        rcases h4 with ⟨rfl, rfl⟩ | ⟨rfl, rfl⟩ | ⟨rfl, rfl⟩ | ⟨rfl, rfl⟩
        · exact absurd hlex (Lex.irrefl _)
        · exact absurd hlex (Lex.irrefl _)
        · exact Nat.one_pos
        · rcases hlex with h | h
          · omega
          · omega
    · refine ⟨[1, 0], by simp [hab, Bind.bind, Except.bind, wr], rfl, fun x => 1 - x, fun x hx => ?_, fun x y hx hy hlex => ?_⟩
      · have hx' : x < 2 := hx
        have : x = 0 ∨ x = 1 := by omega
        rcases this with rfl | rfl
        · exact ⟨by simp, rfl⟩
        · exact ⟨by simp, rfl⟩
      · have hx' : x < 2 := hx
        have hy' : y < 2 := hy
        have h4 : (x = 0 ∧ y = 0) ∨ (x = 1 ∧ y = 1) ∨ (x = 0 ∧ y = 1) ∨ (x = 1 ∧ y = 0) := by omega
        rcases h4 with ⟨rfl, rfl⟩ | ⟨rfl, rfl⟩ | ⟨rfl, rfl⟩ | ⟨rfl, rfl⟩
        · exact absurd hlex (Lex.irrefl _)
        · exact absurd hlex (Lex.irrefl _)
        · rcases hlex with h | ⟨_, h⟩
          · omega
          · exact absurd h (lex_nil _)
        · exact Nat.one_pos
  | a :: b :: c :: r =>
    rw [hd] at hsa hs hk hsm
    obtain ⟨s, h1, h2⟩ := sortTypeBstar_ok hsm hk (by simp) hs hsa
    obtain ⟨sa', h3, h4⟩ := constructSa_ok hsm hk (by simp) h2
    refine ⟨sa', ?_, h4⟩
    simp only [Bind.bind, Except.bind]
    rw [h1]
    exact h3

end Dss
end Detools
