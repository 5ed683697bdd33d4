import Verif.Proofs.Bsdiff
/-
The bsdiff algorithm when the to-data is the from-data, cut off at the end or not.
-/
namespace Detools

theorem offsetMatch_prefix (fr to : Bytes) (hp : to <+: fr) (i : Int) (h0 : 0 ≤ i) (hi : i < to.length)
    (hsz : fr.length + to.length < 2 ^ 31) : offsetMatch fr to 0 i = some true := by
  have hl := hp.length_le
  unfold offsetMatch
  rw [show int32s [i + 0] = some () by fits32]
  simp only [Option.bind_eq_bind, Option.bind_some, Int.add_zero]
  rw [if_pos (by omega)]
  obtain ⟨a, ha, ha'⟩ := rd_some fr i h0 (by omega)
  obtain ⟨b, hb, hb'⟩ := rd_some to i h0 hi
  rw [ha, hb]
  obtain ⟨t, rfl⟩ := hp
  rw [List.getElem?_append_left (by omega), hb'] at ha'
  simp only [Option.some.injEq] at ha'
  simp [ha']

theorem scoreLoop_prefix (fr to : Bytes) (hp : to <+: fr) (hsz : fr.length + to.length < 2 ^ 31) (n : Nat) :
    ∀ (scsc score : Int), 0 ≤ scsc → scsc + n ≤ to.length → -(to.length : Int) ≤ score → score + n ≤ to.length →
    scoreLoop fr to 0 n scsc score = some (score + n) := by
  induction n with
  | zero => intro scsc score _ _ _ _; simp [scoreLoop]
  | succ n ih =>
    intro scsc score h0 h1 h2 h3
    simp only [scoreLoop, offsetMatch_prefix fr to hp scsc h0 (by omega) hsz, Option.bind_eq_bind, Option.bind_some, if_true]
    rw [show int32s [score + 1, scsc + 1] = some () by fits32, Option.bind_some, ih _ _ (by omega) (by omega) (by omega) (by omega)]
    congr 1; omega

theorem scanLoop_prefix (sa : List Nat) (fr to : Bytes) (hlen : sa.length = fr.length + 1)
    (hin : ∀ p ∈ sa, p ≤ fr.length) (hp : to <+: fr) (hsz : fr.length + to.length < 2 ^ 31) (fuel : Nat) :
    ∀ (scsc : Int) (s : Scan), to.length - s.scan ≤ fuel → 0 ≤ s.scan → s.scan ≤ to.length → 0 ≤ scsc → scsc ≤ to.length →
    s.score = scsc - s.scan → 0 ≤ s.pos → s.pos ≤ fr.length →
    ∃ r, scanLoop sa fr to 0 fuel scsc s = some r ∧ s.scan ≤ r.scan ∧ r.scan ≤ to.length ∧ 0 ≤ r.pos ∧ r.pos ≤ fr.length ∧
      (r.scan = to.length ∨ (r.len = r.score ∧ 0 < r.len ∧ r.scan + r.len ≤ to.length)) := by
  have hple := hp.length_le
  induction fuel with
  | zero =>
    intro scsc s hf h1 h2 h3 h4 h5 h6 h7
    unfold scanLoop
    rw [if_neg (by omega)]
    exact ⟨s, rfl, by omega, h2, h6, h7, .inl (by omega)⟩
  | succ fuel ih =>
    intro scsc s hf h1 h2 h3 h4 h5 h6 h7
    unfold scanLoop
    by_cases hs : s.scan < to.length
    · rw [if_pos hs]
      obtain ⟨len, pos, hsr, hpos, hl, _⟩ := search_some sa fr (to.drop s.scan.toNat) hlen hin
        (fr.length + 1) 0 fr.length (by omega) (by omega) (by omega)
      simp only [List.length_drop] at hl
      rw [show int32s [(fr.length : Int), to.length, to.length - s.scan] = some () by fits32]
      simp only [hsr, Option.bind_eq_bind, Option.bind_some]
      rw [show int32s [s.scan + (len : Int)] = some () by fits32]
      rw [scoreLoop_prefix fr to hp hsz _ _ _ h3 (by omega) (by omega) (by omega)]
      simp only [Option.bind_some]
      obtain ⟨sc, hsc⟩ : ∃ sc : Int, sc = s.score + ((s.scan + (len : Int) - scsc).toNat : Nat) := ⟨_, rfl⟩
      have e : sc = max scsc (s.scan + len) - s.scan := by omega
      rw [← hsc, show int32s [sc + 8] = some () by fits32]
      simp only [Option.bind_some]
      by_cases hc : ((len : Int) = sc ∧ len ≠ 0) ∨ (len : Int) > sc + 8
      · rw [if_pos hc]
        refine ⟨_, rfl, Int.le_refl _, h2, Int.natCast_nonneg _, ?_, .inr ⟨?_, ?_, ?_⟩⟩ <;> simp only [] <;> omega
      · rw [if_neg hc, offsetMatch_prefix fr to hp s.scan h1 hs hsz]
        simp only [Option.bind_some, if_true]
        rw [show int32s [sc - 1, s.scan + 1] = some () by fits32, Option.bind_some]
        obtain ⟨r, hr, g1, g2⟩ := ih (max scsc (s.scan + len)) { scan := s.scan + 1, len := len, pos := pos, score := sc - 1 }
          (by simp only []; omega) (by simp only []; omega) (by simp only []; omega) (by omega) (by omega) (by simp only []; omega)
          (by simp only []; omega) (by simp only []; omega)
        exact ⟨r, hr, by simp only [] at g1; omega, g2⟩
    · rw [if_neg hs]
      exact ⟨s, rfl, by omega, h2, h6, h7, .inl (by omega)⟩

theorem forwardLoop_prefix (fr to : Bytes) (hp : to <+: fr) (hsz : fr.length + to.length < 2 ^ 31) (fuel : Nat) :
    ∀ i : Int, 0 ≤ i → i ≤ to.length → to.length - i < fuel →
    forwardLoop fr to to.length 0 0 fuel i i i i = some (to.length : Int) := by
  have hl := hp.length_le
  induction fuel with
  | zero => intro i _ _ _; omega
  | succ fuel ih =>
    intro i h0 h1 hf
    unfold forwardLoop
    simp only [Int.zero_add]
    rw [show int32s [i] = some () by fits32]
    simp only [Option.bind_eq_bind, Option.bind_some, ite_self]
    by_cases hi : i < to.length
    · rw [if_pos (by omega)]
      obtain ⟨a, ha, ha'⟩ := rd_some fr i h0 (by omega)
      obtain ⟨b, hb, hb'⟩ := rd_some to i h0 hi
      have hab : a = b := by
        obtain ⟨t, rfl⟩ := hp
        rw [List.getElem?_append_left (by omega), hb'] at ha'
        simp only [Option.some.injEq] at ha'
        exact ha'.symm
      rw [ha, hb]
      simp only [Option.bind_some]
      rw [if_pos hab, show int32s [i + 1, i + 1, (i + 1) * 2, (i + 1) * 2 - (i + 1), i * 2, i * 2 - i] = some () by fits32]
      simp only [Option.bind_some]
      rw [if_pos (by omega)]
      exact ih (i + 1) (by omega) (by omega) (by omega)
    · rw [if_neg (by omega)]
      congr 1; omega

theorem diffBytes_prefix (fr to : Bytes) (hp : to <+: fr) (hsz : fr.length + to.length < 2 ^ 31) (n : Nat) :
    ∀ i : Int, 0 ≤ i → i + n ≤ to.length → diffBytes fr to 0 0 n i = some (List.replicate n 0) := by
  have hl := hp.length_le
  induction n with
  | zero => intro i _ _; rfl
  | succ n ih =>
    intro i h0 h1
    obtain ⟨a, ha, ha'⟩ := rd_some fr i h0 (by omega)
    obtain ⟨b, hb, hb'⟩ := rd_some to i h0 (by omega)
    have hab : a = b := by
      obtain ⟨t, rfl⟩ := hp
      rw [List.getElem?_append_left (by omega), hb'] at ha'
      simp only [Option.some.injEq] at ha'
      exact ha'.symm
    unfold diffBytes
    simp only [Int.zero_add]
    rw [show int32s [i, i, i + 1] = some () by fits32, ha, hb, ih (i + 1) (by omega) (by omega)]
    simp [hab, List.replicate_succ]

theorem resolveOverlap_none (fr to : Bytes) (scan pos ls lp d l : Int) (h1 : ls + d ≤ scan - l)
    (h2 : 0 ≤ ls + d) (h3 : scan - l ≤ to.length) (hsz : fr.length + to.length < 2 ^ 31) :
    resolveOverlap fr to scan pos ls lp d l = some (d, l) := by
  unfold resolveOverlap
  simp only []
  rw [show int32s [ls + d, scan - l, ls + d - (scan - l)] = some () by fits32]
  simp only [Option.bind_eq_bind, Option.bind_some]
  rw [if_neg (by omega)]

theorem write_prefix (fr to : Bytes) (debuf : Nat) (hde : to.length ≤ debuf) (hp : to <+: fr) (pos : Int) (h0 : 0 ≤ pos)
    (h1 : pos ≤ fr.length) (hsz : fr.length + to.length < 2 ^ 31) :
    ∃ op, writeDiffExtraAdjustment fr to debuf to.length pos 0 0 = some (op, (to.length : Int), pos, pos - to.length) ∧
      op.diff = List.replicate to.length 0 ∧ op.extra = [] ∧ op.adjustment = pos - to.length := by
  obtain ⟨n, hn⟩ : ∃ n : Int, n = to.length := ⟨_, rfl⟩
  have hb : backwardExtend fr to n pos 0 = some 0 := by
    unfold backwardExtend
    rw [if_neg (by omega)]
  have hr := resolveOverlap_none fr to n pos 0 0 n 0 (by omega) (by omega) (by omega) hsz
  have hf := forwardLoop_prefix fr to hp hsz ((n - 0).toNat + 1) 0 (Int.le_refl _) (by omega) (by omega)
  rw [← hn] at hf ⊢
  unfold writeDiffExtraAdjustment
  simp only [hf, Option.bind_eq_bind, Option.bind_some, hb, hr, fillDebuf]
  rw [if_neg (by omega), diffBytes_prefix fr to hp hsz n.toNat 0 (Int.le_refl _) (by omega)]
  simp only [Option.bind_some]
  rw [show int32s [0 + n, n - 0, n - 0 - (0 + n)] = some () by fits32]
  simp only [Option.bind_some]
  rw [if_neg (by omega), show (n - 0 - (0 + n)).toNat = 0 by omega]
  simp only [extraBytes, Option.bind_some]
  rw [show int32s [pos - 0, 0 + n, pos - 0 - (0 + n), pos - n] = some () by fits32]
  simp only [Option.bind_some]
  refine ⟨_, by rw [Int.sub_zero, Int.sub_zero], ?_, rfl, ?_⟩
  · show List.replicate n.toNat 0 = _
    rw [hn, Int.toNat_natCast]
  · show pos - (0 + n) = _
    omega

theorem createLoop_prefix (sa : List Nat) (fr to : Bytes) (debuf : Nat) (hlen : sa.length = fr.length + 1)
    (hin : ∀ p ∈ sa, p ≤ fr.length) (hde : to.length ≤ debuf) (hp : to <+: fr) (hsz : fr.length + to.length < 2 ^ 31)
    (fuel : Nat) : ∀ s : Loop, (to.length : Int) + 2 - (s.scan + s.len) ≤ fuel → s.lastScan = 0 → s.lastPos = 0 →
      s.lastOffset = 0 → s.scan < to.length → 0 ≤ s.scan → 0 ≤ s.len → s.scan + s.len ≤ to.length → 0 ≤ s.pos → s.pos ≤ fr.length →
    ∃ pos : Nat, pos ≤ fr.length ∧
      createLoop sa fr to debuf fuel s = some [⟨List.replicate to.length 0, [], (pos : Int) - to.length⟩] := by
  induction fuel with
  | zero => intro s hf; omega
  | succ fuel ih =>
    intro s hf h1 h2 h3 hs h4 h5 h6 h7 h8
    unfold createLoop
    rw [if_pos hs]
    simp only [Option.bind_eq_bind]
    rw [show int32s [s.scan + s.len] = some () by fits32, Option.bind_some, h1, h2, h3]
    obtain ⟨r, hr, g1, g2, g3, g4, g5⟩ := scanLoop_prefix sa fr to hlen hin hp hsz to.length (s.scan + s.len)
      { scan := s.scan + s.len, len := s.len, pos := s.pos, score := 0 } (by simp only []; omega) (by simp only []; omega)
      (by simp only []; omega) (by omega) (by omega) (by simp only []; omega) (by simpa using h7) (by simpa using h8)
    rw [hr]
    simp only [Option.bind_some]
    by_cases he : r.scan = to.length
    · obtain ⟨op, hw, o1, o2, o3⟩ := write_prefix fr to debuf hde hp r.pos g3 g4 hsz
      rw [if_pos (.inr he), he, hw]
      simp only [Option.bind_some]
      refine ⟨r.pos.toNat, by omega, ?_⟩
      have : ∀ fuel (s : Loop), s.scan = to.length → createLoop sa fr to debuf fuel s = some [] := by
        intro fuel s hs
        cases fuel <;> unfold createLoop <;> rw [if_neg (by omega)]
      rw [this _ _ rfl, Option.bind_some, Int.toNat_of_nonneg g3, ← o1, ← o2, ← o3]
    · obtain ⟨g6, g7, g8⟩ := g5.resolve_left he
      rw [if_neg (by intro h; rcases h with h | h; exact h g6; exact he h)]
      simp only [] at g1
      have := ih { s with scan := r.scan, len := r.len, pos := r.pos } (by simp only []; omega) h1 h2 h3 (by simp only []; omega)
        (by simp only []; omega) (by simp only []; omega) g8 g3 g4
      rw [h1, h2, h3] at this
      exact this

theorem createOps_prefix (sa : List Nat) (fr to : Bytes) (debuf : Nat) (hlen : sa.length = fr.length + 1)
    (hin : ∀ p ∈ sa, p ≤ fr.length) (hde : to.length ≤ debuf) (hp : to <+: fr) (hne : to ≠ [])
    (hsz : fr.length + to.length < 2 ^ 31) :
    ∃ pos : Nat, pos ≤ fr.length ∧ createOps sa fr to debuf = some [⟨List.replicate to.length 0, [], (pos : Int) - to.length⟩] := by
  have h0 := List.length_pos_iff.2 hne
  exact createLoop_prefix sa fr to debuf hlen hin hde hp hsz (to.length + 2) {} (by simp) rfl rfl rfl (by simp; omega) (by simp) (by simp)
    (by simp) (by simp) (by simp)

end Detools
