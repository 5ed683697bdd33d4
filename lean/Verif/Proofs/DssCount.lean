import Verif.Proofs.DssBase
/-
divsufsort: the counts and the start and end points of the buckets.
-/
namespace Detools
namespace Dss
open Sais

variable {t : List Nat}

/-! ### Counts -/

/-- After position `i`: counts of the positions from `i` on, and the B* positions among them. -/
structure CInv (t : List Nat) (i : Nat) (s : Scan) : Prop where
  len : s.sa.length = t.length
  m : s.m + cnt t.length (fun x => star t x ∧ i ≤ x) = t.length
  a : Ak s.a (fun c => (cnt t.length (fun x => (isL t x ∧ ch t x = c) ∧ i ≤ x) : Nat))
  b : Bk s.b (fun c0 c1 => (cnt t.length (fun x => (nb t x ∧ Pair t c0 c1 x) ∧ i ≤ x) : Nat))
    (fun c0 c1 => (cnt t.length (fun x => (star t x ∧ Pair t c0 c1 x) ∧ i ≤ x) : Nat))
  pos : ∀ x, star t x → i ≤ x → ∀ q, q + cnt t.length (fun y => star t y ∧ x ≤ y) = t.length → s.sa[q]? = some (x : Int)

theorem from_step {p : Nat → Prop} {i : Nat} (hi : i < t.length) (h : p i) :
    cnt t.length (fun x => p x ∧ i ≤ x) = cnt t.length (fun x => p x ∧ i + 1 ≤ x) + 1 := by
  refine cnt_add_one hi (fun x _ => ?_) (fun h => by omega)
  constructor
  · rintro ⟨h1, h2⟩
    by_cases he : x = i
    · exact .inr he
    · exact .inl ⟨h1, by omega⟩
  · rintro (h1 | rfl)
    · exact ⟨h1.1, by omega⟩
    · exact ⟨h, by omega⟩

theorem from_skip {p : Nat → Prop} {i : Nat} (h : ¬ p i) :
    cnt t.length (fun x => p x ∧ i ≤ x) = cnt t.length (fun x => p x ∧ i + 1 ≤ x) := by
  refine cnt_congr fun x _ => ⟨fun h1 => ⟨h1.1, ?_⟩, fun h1 => ⟨h1.1, by omega⟩⟩
  by_cases he : x = i
  · subst he; exact absurd h1.1 h
  · omega

/-- At least one position is before those from `i` on. -/
theorem from_lt {p : Nat → Prop} {i : Nat} (hi : i < t.length) : cnt t.length (fun x => p x ∧ i + 1 ≤ x) < t.length := by
  have := cnt_lt (n := t.length) (p := fun x => p x ∧ i + 1 ≤ x) (q := fun _ => True) (fun _ _ _ => trivial) hi trivial (fun h => by omega)
  rw [cnt_true (p := fun _ => True) (fun _ _ => trivial)] at this
  exact this

theorem CInv.stepL {i : Nat} {s : Scan} (hk : ∀ x, x < t.length → ch t x < 256) (h : CInv t (i + 1) s) (hi : isL t i) :
    ∃ a, incr s.a (ch t i) = .ok a ∧ CInv t i ⟨s.sa, s.m, a, s.b⟩ := by
  obtain ⟨a, h1, h2⟩ := h.a.incr (hk i hi.1)
  refine ⟨a, h1, h.len, ?_, h2.congr fun c _ => ?_, h.b.congr (fun c0 c1 _ _ => ?_) (fun c0 c1 _ _ => ?_), fun x hx hix q hq => ?_⟩
  · rw [from_skip (i := i) (fun hs => not_star_L hs hi)]
    exact h.m
  · unfold upd
    by_cases he : c = ch t i
    · subst he
      rw [if_pos rfl, from_step (i := i) hi.1 ⟨hi, rfl⟩]
      simp
    · rw [if_neg he, from_skip (i := i) (fun hh => he hh.2.symm)]
  · rw [from_skip (i := i) (fun hh => not_nb_L hh.1 hi)]
  · rw [from_skip (i := i) (fun hh => not_star_L hh.1 hi)]
  · refine h.pos x hx ?_ q hq
    by_cases he : x = i
    · subst he; exact absurd hi (not_star_L hx)
    · omega

theorem CInv.stepB {i : Nat} {s : Scan} (hk : ∀ x, x < t.length → ch t x < 256) (h : CInv t (i + 1) s) (hi : nb t i) :
    ∃ b, incr s.b (bIx (ch t i) (ch t (i + 1))) = .ok b ∧ CInv t i ⟨s.sa, s.m, s.a, b⟩ := by
  have hl := nb_lt hi
  obtain ⟨b, h1, h2⟩ := h.b.incrB (S_ch hi.1) (hk (i + 1) hl)
  refine ⟨b, h1, h.len, ?_, h.a.congr fun c _ => ?_, h2.congr (fun c0 c1 _ _ => ?_) (fun c0 c1 _ _ => ?_), fun x hx hix q hq => ?_⟩
  · rw [from_skip (i := i) (fun hs => not_star_nb hs hi)]
    exact h.m
  · rw [from_skip (i := i) (fun hh => not_nb_L hi hh.1)]
  · unfold upd2
    by_cases he : c0 = ch t i ∧ c1 = ch t (i + 1)
    · obtain ⟨rfl, rfl⟩ := he
      rw [if_pos ⟨rfl, rfl⟩, from_step (i := i) (by omega) ⟨hi, rfl, rfl⟩]
      simp
    · rw [if_neg he, from_skip (i := i) (fun hh => he ⟨hh.2.1.symm, hh.2.2.symm⟩)]
  · rw [from_skip (i := i) (fun hh => not_star_nb hh.1 hi)]
  · refine h.pos x hx ?_ q hq
    by_cases he : x = i
    · subst he; exact absurd hi (not_star_nb hx)
    · omega

theorem CInv.stepS {i : Nat} {s : Scan} (hn : Small t) (hk : ∀ x, x < t.length → ch t x < 256) (h : CInv t (i + 1) s) (hi : star t i) :
    ∃ b m sa, incr s.b (sIx (ch t i) (ch t (i + 1))) = .ok b ∧ dec s.m = .ok m ∧ st s.sa m i = .ok sa ∧ CInv t i ⟨sa, m, s.a, b⟩ := by
  have hl := star_lt hi
  obtain ⟨b, h1, h2⟩ := h.b.incrS (star_ch hi) (hk (i + 1) hl)
  have hm := h.m
  have hlt := from_lt (t := t) (p := star t) (i := i) (by omega)
  obtain ⟨m, hm'⟩ : ∃ m, s.m = m + 1 := ⟨s.m - 1, by omega⟩
  have hst : st s.sa m (i : Int) = .ok (s.sa.set m i) := st_ok (range_of hn (by omega) (by omega)) (by rw [h.len]; omega)
  have hcnt := from_step (t := t) (p := star t) (i := i) (by omega) hi
  refine ⟨b, m, _, h1, dec_ok hm', hst, by rw [List.length_set]; exact h.len, ?_, h.a.congr fun c _ => ?_, h2.congr (fun c0 c1 _ _ => ?_) (fun c0 c1 _ _ => ?_), fun x hx hix q hq => ?_⟩
  · show m + _ = _
    omega
  · rw [from_skip (i := i) (fun hh => not_star_L hi hh.1)]
  · rw [from_skip (i := i) (fun hh => not_star_nb hi hh.1)]
  · unfold upd2
    by_cases he : c0 = ch t i ∧ c1 = ch t (i + 1)
    · obtain ⟨rfl, rfl⟩ := he
      rw [if_pos ⟨rfl, rfl⟩, from_step (i := i) (by omega) ⟨hi, rfl, rfl⟩]
      simp
    · rw [if_neg he, from_skip (i := i) (fun hh => he ⟨hh.2.1.symm, hh.2.2.symm⟩)]
  · show (s.sa.set m (i : Int))[q]? = _
    by_cases he : x = i
    · subst he
      have : q = m := by omega
      rw [this, get_set_eq (by rw [h.len]; omega)]
    · have hlt' : cnt t.length (fun y => star t y ∧ x ≤ y) ≤ cnt t.length (fun y => star t y ∧ i + 1 ≤ y) :=
        cnt_mono fun y _ hy => ⟨hy.1, by omega⟩
      rw [get_set_ne (by omega)]
      exact h.pos x hx (by omega) q hq

theorem countLoop_ok (hn : Small t) (hk : ∀ x, x < t.length → ch t x < 256) : ∀ (i : Nat) (s : Scan), i < t.length → CInv t i s →
    ∃ s', countLoop t i (!isS t i) s = .ok s' ∧ CInv t 0 s'
  | 0, s, _, h => by cases isS t 0 <;> exact ⟨s, rfl, h⟩
  | i + 1, s, hi, h => by
    have hiff := isS_iff hi
    cases hs : isS t (i + 1) with
    | false =>
      rw [hs] at hiff
      simp only [Bool.not_false]
      unfold countLoop
      rw [rd_ch hi, rd_ch (by omega)]
      simp only [Bind.bind, Except.bind]
      by_cases hc : ch t i ≥ ch t (i + 1)
      · have hL : isL t i := ⟨by omega, by rw [← Bool.not_eq_true, hiff]; simp; omega⟩
        rw [if_pos hc]
        obtain ⟨a, h1, h2⟩ := h.stepL hk hL
        obtain ⟨s', h3, h4⟩ := countLoop_ok hn hk i _ (by omega) h2
        rw [hL.2, Bool.not_false] at h3
        exact ⟨s', by rw [h1]; exact h3, h4⟩
      · have hS : star t i := ⟨hiff.2 (.inl (by omega)), hs⟩
        rw [if_neg hc]
        obtain ⟨b, m, sa, h1, h2, h3, h4⟩ := h.stepS hn hk hS
        obtain ⟨s', h5, h6⟩ := countLoop_ok hn hk i _ (by omega) h4
        rw [hS.1, Bool.not_true] at h5
        refine ⟨s', ?_, h6⟩
        rw [h1]
        simp only []
        rw [h2]
        simp only []
        rw [h3]
        exact h5
    | true =>
      rw [hs] at hiff
      simp only [Bool.not_true]
      unfold countLoop
      rw [rd_ch hi, rd_ch (by omega)]
      simp only [Bind.bind, Except.bind]
      by_cases hc : ch t i ≤ ch t (i + 1)
      · have hS : nb t i := ⟨hiff.2 (by simp; omega), hs⟩
        rw [if_pos hc]
        obtain ⟨b, h1, h2⟩ := h.stepB hk hS
        obtain ⟨s', h3, h4⟩ := countLoop_ok hn hk i _ (by omega) h2
        rw [hS.1, Bool.not_true] at h3
        exact ⟨s', by rw [h1]; exact h3, h4⟩
      · have hL : isL t i := ⟨by omega, by rw [← Bool.not_eq_true, hiff]; simp; omega⟩
        rw [if_neg hc]
        obtain ⟨a, h1, h2⟩ := h.stepL hk hL
        obtain ⟨s', h3, h4⟩ := countLoop_ok hn hk i _ (by omega) h2
        rw [hL.2, Bool.not_false] at h3
        exact ⟨s', by rw [h1]; exact h3, h4⟩

/-- What the first loop gives. -/
structure Counted (t : List Nat) (s : Scan) : Prop where
  len : s.sa.length = t.length
  m : s.m + nStar t = t.length
  a : Ak s.a (fun c => (cA t c : Nat))
  b : Bk s.b (fun c0 c1 => (cB t c0 c1 : Nat)) (fun c0 c1 => (cS t c0 c1 : Nat))
  pos : ∀ x, star t x → s.sa[t.length - nStar t + sNo t x]? = some (x : Int)

theorem sNo_split {x : Nat} (hx : x ≤ t.length) : sNo t x + cnt t.length (fun y => star t y ∧ x ≤ y) = nStar t := by
  unfold sNo nStar
  rw [← cnt_below (p := star t) hx]
  exact (cnt_split (fun y _ => ⟨fun h => by
    by_cases he : y < x
    · exact .inl ⟨h, he⟩
    · exact .inr ⟨h, by omega⟩, fun h => h.elim And.left And.left⟩) (fun y _ h h' => by omega)).symm

theorem nStar_le : 2 * nStar t ≤ t.length := by
  classical
  -- shift by one: no B* position is the last one
  cases hn : t.length with
  | zero =>
    have : nStar t = 0 := by unfold nStar; rw [hn]; rfl
    omega
  | succ n =>
    have h0 : nStar t = cnt n (star t) := by
      unfold nStar
      rw [hn]
      conv => lhs; unfold cnt
      rw [if_neg (fun h => by have := star_lt h; omega), Nat.add_zero]
    have h1 := cnt_apart (p := fun x => ∃ y, y + 1 = x ∧ star t y) (fun ⟨y, h, _⟩ => by omega)
      (fun x ⟨y, h1, h2⟩ ⟨z, h3, h4⟩ => by
        have : z = y + 1 := by omega
        subst this
        have k := h4.1
        rw [h2.2] at k
        cases k) (n + 1)
    rw [cnt_shift] at h1
    have e : cnt n (fun x => ∃ y, y + 1 = x + 1 ∧ star t y) = cnt n (star t) :=
      cnt_congr fun x _ => ⟨fun ⟨y, h1, h2⟩ => by have : y = x := by omega
                                                  rw [← this]; exact h2, fun h => ⟨x, rfl, h⟩⟩
    rw [e] at h1
    omega

theorem count_ok (hn : Small t) (hk : ∀ x, x < t.length → ch t x < 256) (h0 : 0 < t.length) {sa : List Int} (hsa : sa.length = t.length) :
    ∃ c a s, rd t (t.length - 1) = .ok c ∧ incr (List.replicate 256 0) c = .ok a ∧
      countLoop t (t.length - 1) true ⟨sa, t.length, a, List.replicate 65536 0⟩ = .ok s ∧ Counted t s := by
  have hlast : isL t (t.length - 1) := ⟨by omega, isS_last (by omega)⟩
  have hnone : ∀ p : Nat → Prop, cnt t.length (fun x => p x ∧ t.length ≤ x) = 0 := fun p => cnt_false fun x hx h => by omega
  have hini : CInv t (t.length - 1 + 1) ⟨sa, t.length, List.replicate 256 0, List.replicate 65536 0⟩ := by
    rw [Nat.sub_add_cancel h0]
    refine ⟨hsa, ?_, ⟨List.length_replicate, fun c hc => ?_⟩, ⟨List.length_replicate, fun c0 c1 k0 k1 => ?_, fun c0 c1 k0 k1 => ?_⟩, fun x hx hix => ?_⟩
    · rw [hnone]; rfl
    · rw [hnone, List.getElem?_replicate, if_pos hc]; rfl
    · rw [hnone, List.getElem?_replicate, if_pos (by rw [bIx_eq (by omega)]; omega)]; rfl
    · rw [hnone, List.getElem?_replicate, if_pos (by rw [sIx_eq (by omega)]; omega)]; rfl
    · have := star_lt hx; omega
  obtain ⟨a, h1, h2⟩ := hini.stepL hk hlast
  obtain ⟨s, h3, h4⟩ := countLoop_ok hn hk _ _ (by omega) h2
  rw [hlast.2, Bool.not_false] at h3
  refine ⟨_, a, s, rd_ch (by omega), h1, h3, h4.len, ?_, h4.a.congr fun c _ => ?_, h4.b.congr (fun c0 c1 _ _ => ?_) (fun c0 c1 _ _ => ?_), fun x hx => ?_⟩
  · have := h4.m
    simpa [nStar] using this
  · simp [cA]
  · simp [cB]
  · simp [cS]
  · have hl := star_lt hx
    have := sNo_split (t := t) (x := x) (by omega)
    have := nStar_le (t := t)
    exact h4.pos x hx (Nat.zero_le _) _ (by omega)

/-! ### Start and end points -/

/-- Counts of the suffixes before the bucket of `c0` and `c1`: those of type B*, and the others. -/
noncomputable def jAt (t : List Nat) (c0 c1 : Nat) : Nat :=
  cnt t.length (fun z => star t z ∧ (ch t z < c0 ∨ (ch t z = c0 ∧ ch t (z + 1) < c1)))
noncomputable def iAt (t : List Nat) (c0 c1 : Nat) : Nat :=
  cnt t.length (fun z => ¬ star t z ∧ (ch t z < c0 ∨ (ch t z = c0 ∧ (isL t z ∨ ch t (z + 1) < c1))))

theorem jAt_succ (c0 c1 : Nat) : jAt t c0 (c1 + 1) = jAt t c0 c1 + cS t c0 c1 := by
  refine cnt_split (fun z _ => ?_) (fun z _ h h' => ?_)
  · constructor
    · rintro ⟨h1, h2 | ⟨h2, h3⟩⟩
      · exact .inl ⟨h1, .inl h2⟩
      · by_cases he : ch t (z + 1) = c1
        · exact .inr ⟨h1, h2, he⟩
        · exact .inl ⟨h1, .inr ⟨h2, by omega⟩⟩
    · rintro (⟨h1, h2 | ⟨h2, h3⟩⟩ | ⟨h1, h2, h3⟩)
      · exact ⟨h1, .inl h2⟩
      · exact ⟨h1, .inr ⟨h2, by omega⟩⟩
      · exact ⟨h1, .inr ⟨h2, by omega⟩⟩
  · have h1 := h'.2.1
    have h2 := h'.2.2
    have := h.2
    omega

theorem iAt_succ (c0 c1 : Nat) : iAt t c0 (c1 + 1) = iAt t c0 c1 + cB t c0 c1 := by
  refine cnt_split (fun z hz => ?_) (fun z _ h h' => ?_)
  · constructor
    · rintro ⟨h1, h2 | ⟨h2, h3⟩⟩
      · exact .inl ⟨h1, .inl h2⟩
      · rcases cases3 hz with hL | hs | hb
        · exact .inl ⟨h1, .inr ⟨h2, .inl hL⟩⟩
        · exact absurd hs h1
        · by_cases he : ch t (z + 1) = c1
          · exact .inr ⟨hb, h2, he⟩
          · refine .inl ⟨h1, .inr ⟨h2, .inr ?_⟩⟩
            rcases h3 with h3 | h3
            · exact absurd h3 (not_nb_L hb)
            · omega
    · rintro (⟨h1, h2 | ⟨h2, h3⟩⟩ | ⟨h1, h2, h3⟩)
      · exact ⟨h1, .inl h2⟩
      · exact ⟨h1, .inr ⟨h2, h3.imp id (fun h => by omega)⟩⟩
      · exact ⟨fun hs => not_star_nb hs h1, .inr ⟨h2, .inr (by omega)⟩⟩
  · have h1 := h'.2.1
    have h2 := h'.2.2
    rcases h.2 with h3 | ⟨h3, h4 | h4⟩
    · omega
    · exact not_nb_L h'.1 h4
    · omega

/-- The counts before the bucket of a character. -/
noncomputable def j0 (t : List Nat) (c : Nat) : Nat := cnt t.length (fun z => star t z ∧ ch t z < c)
noncomputable def i0 (t : List Nat) (c : Nat) : Nat := cnt t.length (fun z => ¬ star t z ∧ ch t z < c)

theorem i0_j0 (c : Nat) : i0 t c + j0 t c = start t c := by
  refine (cnt_split (fun z _ => ?_) (fun z _ h h' => h.1 h'.1)).symm
  by_cases hs : star t z <;> simp [hs]

theorem jAt_first (c : Nat) : jAt t c (c + 1) = j0 t c := by
  refine cnt_congr fun z _ => ⟨fun h => ⟨h.1, ?_⟩, fun h => ⟨h.1, .inl h.2⟩⟩
  have := star_ch h.1
  omega

theorem iAt_first (c : Nat) : iAt t c (c + 1) = i0 t c + cA t c + cB t c c := by
  rw [iAt_succ]
  have : iAt t c c = i0 t c + cA t c := by
    refine cnt_split (fun z hz => ?_) (fun z _ h h' => by have := h'.2; omega)
    constructor
    · rintro ⟨h1, h2 | ⟨h2, h3⟩⟩
      · exact .inl ⟨h1, h2⟩
      · rcases h3 with h3 | h3
        · exact .inr ⟨h3, h2⟩
        · rcases L_or_S hz with hL | hS
          · exact .inr ⟨hL, h2⟩
          · have := S_ch hS
            omega
    · rintro (⟨h1, h2⟩ | ⟨h1, h2⟩)
      · exact ⟨h1, .inl h2⟩
      · exact ⟨fun hs => not_star_L hs h1, .inr ⟨h2, .inl h1⟩⟩
  rw [this]

theorem jAt_last (hk : ∀ x, x < t.length → ch t x < 256) (c : Nat) : jAt t c 256 = j0 t (c + 1) := by
  refine cnt_congr fun z _ => ⟨fun h => ⟨h.1, by omega⟩, fun h => ⟨h.1, ?_⟩⟩
  have := hk (z + 1) (star_lt h.1)
  omega

theorem iAt_last (hk : ∀ x, x < t.length → ch t x < 256) (c : Nat) : iAt t c 256 = i0 t (c + 1) := by
  refine cnt_congr fun z hz => ⟨fun h => ⟨h.1, by omega⟩, fun h => ⟨h.1, ?_⟩⟩
  have h2 := h.2
  by_cases hc : ch t z < c
  · exact .inl hc
  · refine .inr ⟨by omega, ?_⟩
    rcases L_or_S hz with hL | hS
    · exact .inl hL
    · exact .inr (hk (z + 1) (isS_lt hS))

theorem sEnd_eq (c0 c1 : Nat) : sEnd t c0 c1 = jAt t c0 c1 + cS t c0 c1 := by
  rw [← jAt_succ]
  refine cnt_congr fun z _ => ?_
  unfold PairLe
  constructor
  · rintro ⟨h1, h2⟩; exact ⟨h1, by omega⟩
  · rintro ⟨h1, h2⟩; exact ⟨h1, by omega⟩

theorem startsInner_ok {c0 : Nat} : ∀ (todo c1 : Nat) (b : List Int) (fS : Nat → Nat → Int), c0 < c1 → c1 + todo = 256 →
    Bk b (fun c0 c1 => (cB t c0 c1 : Nat)) fS → (∀ c, c1 ≤ c → c < 256 → fS c0 c = (cS t c0 c : Nat)) →
    ∃ b' fS', startsInner c0 todo c1 (iAt t c0 c1 : Nat) (jAt t c0 c1 : Nat) b = .ok ((iAt t c0 256 : Nat), (jAt t c0 256 : Nat), b') ∧
      Bk b' (fun c0 c1 => (cB t c0 c1 : Nat)) fS' ∧ (∀ c, c1 ≤ c → c < 256 → fS' c0 c = (sEnd t c0 c : Nat)) ∧
      ∀ x c, x ≠ c0 ∨ c < c1 → fS' x c = fS x c
  | 0, c1, b, fS, hc, he, hb, hS => by
    have : c1 = 256 := by omega
    subst this
    exact ⟨b, fS, rfl, hb, fun c h1 h2 => by omega, fun _ _ _ => rfl⟩
  | todo + 1, c1, b, fS, hc, he, hb, hS => by
    obtain ⟨b1, h1, h2⟩ := hb.wrS hc (by omega) ((jAt t c0 c1 : Nat) + fS c0 c1)
    obtain ⟨b', fS', h3, h4, h5, h6⟩ := startsInner_ok (c0 := c0) todo (c1 + 1) b1 _ (by omega) (by omega) h2 (fun c k1 k2 => by
      unfold upd2
      rw [if_neg (by omega)]
      exact hS c (by omega) k2)
    refine ⟨b', fS', ?_, h4, fun c k1 k2 => ?_, fun x c k => ?_⟩
    · unfold startsInner
      rw [hb.rdS hc (by omega)]
      simp only [Bind.bind, Except.bind]
      rw [h1]
      simp only []
      rw [h2.rdB (by omega) (by omega)]
      simp only []
      rw [hS c1 (by omega) (by omega), ← Int.natCast_add, ← Int.natCast_add, ← iAt_succ, ← jAt_succ]
      exact h3
    · by_cases hc1 : c = c1
      · subst hc1
        rw [h6 c0 c (.inr (by omega))]
        unfold upd2
        rw [if_pos ⟨rfl, rfl⟩, hS c (by omega) (by omega), ← Int.natCast_add, ← sEnd_eq]
      · exact h5 c (by omega) k2
    · rw [h6 x c (by omega)]
      unfold upd2
      rw [if_neg (by omega)]

theorem startsOuter_ok (hk : ∀ x, x < t.length → ch t x < 256) : ∀ (todo c0 : Nat) (a b : List Int) (fA : Nat → Int) (fS : Nat → Nat → Int), c0 + todo = 256 →
    Ak a fA → (∀ c, c0 ≤ c → fA c = (cA t c : Nat)) → (∀ c, c < c0 → fA c = (start t c : Nat)) →
    Bk b (fun c0 c1 => (cB t c0 c1 : Nat)) fS → (∀ x c, c0 ≤ x → fS x c = (cS t x c : Nat)) →
    (∀ x c, x < c0 → x < c → c < 256 → fS x c = (sEnd t x c : Nat)) →
    ∃ a' b', startsOuter todo c0 (i0 t c0 : Nat) (j0 t c0 : Nat) a b = .ok (a', b') ∧ Ak a' (fun c => (start t c : Nat)) ∧
      Bk b' (fun c0 c1 => (cB t c0 c1 : Nat)) (fun c0 c1 => (sEnd t c0 c1 : Nat))
  | 0, c0, a, b, fA, fS, he, ha, hA1, hA2, hb, hS1, hS2 => by
    have : c0 = 256 := by omega
    subst this
    exact ⟨a, b, rfl, ha.congr fun c hc => hA2 c hc, hb.congr (fun _ _ _ _ => rfl) fun x c h1 h2 => hS2 x c (by omega) h1 h2⟩
  | todo + 1, c0, a, b, fA, fS, he, ha, hA1, hA2, hb, hS1, hS2 => by
    obtain ⟨a1, h1, h2⟩ := ha.wr (c := c0) (by omega) ((i0 t c0 : Nat) + (j0 t c0 : Nat))
    obtain ⟨b1, fS1, h3, h4, h5, h6⟩ := startsInner_ok (t := t) (c0 := c0) (255 - c0) (c0 + 1) b fS (by omega) (by omega) hb (fun c _ _ => hS1 c0 c (Nat.le_refl _))
    obtain ⟨a', b', h7, h8, h9⟩ := startsOuter_ok hk todo (c0 + 1) a1 b1 _ _ (by omega) h2 (fun c hc => by
        unfold upd
        rw [if_neg (by omega)]
        exact hA1 c (by omega)) (fun c hc => by
        unfold upd
        by_cases hcc : c = c0
        · subst hcc
          rw [if_pos rfl, ← Int.natCast_add, i0_j0]
        · rw [if_neg hcc]
          exact hA2 c (by omega)) h4 (fun x c hx => by
        rw [h6 x c (.inl (by omega))]
        exact hS1 x c (by omega)) (fun x c hx hxc hc => by
        by_cases hxx : x = c0
        · subst hxx
          exact h5 c (by omega) hc
        · rw [h6 x c (.inl hxx)]
          exact hS2 x c (by omega) hxc hc)
    refine ⟨a', b', ?_, h8, h9⟩
    unfold startsOuter
    rw [ha.rd (c := c0) (by omega)]
    simp only [Bind.bind, Except.bind]
    rw [h1]
    simp only []
    rw [hb.rdB (c0 := c0) (c1 := c0) (Nat.le_refl _) (by omega)]
    simp only []
    rw [hA1 c0 (Nat.le_refl _), ← Int.natCast_add, ← Int.natCast_add, ← iAt_first, ← jAt_first, h3]
    simp only []
    rw [iAt_last hk, jAt_last hk]
    exact h7

theorem starts_ok (hk : ∀ x, x < t.length → ch t x < 256) {s : Scan} (h : Counted t s) :
    ∃ a b, startsOuter 256 0 0 0 s.a s.b = .ok (a, b) ∧ Ak a (fun c => (start t c : Nat)) ∧
      Bk b (fun c0 c1 => (cB t c0 c1 : Nat)) (fun c0 c1 => (sEnd t c0 c1 : Nat)) := by
  have h := startsOuter_ok hk 256 0 s.a s.b _ _ rfl h.a (fun c _ => rfl) (fun c hc => by omega) h.b (fun _ _ _ => rfl) (fun x c hx => by omega)
  have e1 : i0 t 0 = 0 := cnt_false fun z _ h => by omega
  have e2 : j0 t 0 = 0 := cnt_false fun z _ h => by omega
  rw [e1, e2] at h
  exact h

end Dss
end Detools
