import Verif.Proofs.Crle
/-
What the CRLE compressor writes depends on the data only, not on the pieces it was
given in; and how long it can get.
-/
namespace Detools

theorem runLength_append (b : UInt8) (l e : Bytes) :
    runLength b (l ++ e) = if runLength b l < l.length then runLength b l else l.length + runLength b e := by
  induction l with
  | nil => simp [runLength]
  | cons c l ih =>
    by_cases hc : b = c
    · have e1 : ∀ t, runLength b (c :: t) = runLength b t + 1 := fun t => if_pos hc
      rw [List.cons_append, e1, e1, ih]
      simp only [List.length_cons]
      by_cases h : runLength b l < l.length
      · rw [if_pos h, if_pos (by omega)]
      · rw [if_neg h, if_neg (by omega)]; omega
    · have e1 : ∀ t, runLength b (c :: t) = 0 := fun t => if_neg hc
      rw [List.cons_append, e1, e1, if_pos (by simp)]

theorem findRepeated_short (l : Bytes) : ∀ off, l.length ≤ 5 → findRepeated off l = none := by
  induction l with
  | nil => intro off _; rfl
  | cons b l ih =>
    intro off h
    have := runLength_le b (b :: l)
    simp only [List.length_cons] at h this
    simp only [findRepeated]
    rw [if_neg (by omega), ih _ (by omega)]

/-- More data does not change where the first run starts, nor its length if it had ended. -/
theorem findRepeated_append (l e : Bytes) : ∀ off o n, findRepeated off l = some (o, n) →
    ∃ n', findRepeated off (l ++ e) = some (o, n') ∧ (o - off + n < l.length → n' = n) := by
  induction l with
  | nil => intro off o n h; simp [findRepeated] at h
  | cons b l ih =>
    intro off o n h
    have happ := runLength_append b (b :: l) e
    simp only [findRepeated] at h
    simp only [List.cons_append] at happ ⊢
    simp only [findRepeated]
    by_cases h6 : runLength b (b :: l) ≥ 6
    · rw [if_pos h6] at h
      simp only [Option.some.injEq, Prod.mk.injEq] at h
      obtain ⟨rfl, rfl⟩ := h
      have := runLength_le b (b :: l)
      have hg : 6 ≤ runLength b (b :: (l ++ e)) := by
        rw [happ]; split <;> omega
      rw [if_pos hg]
      refine ⟨_, rfl, ?_⟩
      intro hlt
      rw [happ, if_pos (by omega)]
    · rw [if_neg h6] at h
      obtain ⟨h1, h2, h3, h4, _⟩ := findRepeated_spec _ _ _ _ h
      have hlt : runLength b (b :: l) < (b :: l).length := by
        rw [List.length_drop] at h4
        simp only [List.length_cons]
        omega
      rw [if_pos hlt] at happ
      rw [happ, if_neg h6]
      obtain ⟨n', g1, g2⟩ := ih _ _ _ h
      refine ⟨n', g1, ?_⟩
      intro hl
      simp only [List.length_cons] at hl
      exact g2 (by omega)

theorem crleGetSegment_append (d e : Bytes) (r : Bool × Bytes × Bytes) (h : crleGetSegment false d = some r) :
    crleGetSegment true (d ++ e) = some (r.1, r.2.1, r.2.2 ++ e) := by
  unfold crleGetSegment at h ⊢
  cases hf : findRepeated 0 d with
  | none => rw [hf] at h; simp at h
  | some on =>
    obtain ⟨o, n⟩ := on
    rw [hf] at h
    obtain ⟨n', g1, g2⟩ := findRepeated_append d e 0 o n hf
    obtain ⟨_, h2, _, h4, _⟩ := findRepeated_spec _ _ _ _ hf
    rw [g1]
    simp only [] at h ⊢
    by_cases ho : o > 0
    · rw [if_pos ho] at h ⊢
      simp only [Option.some.injEq] at h
      subst h
      simp only []
      rw [List.take_append_of_le_length (by omega), List.drop_append_of_le_length (by omega)]
    · rw [if_neg ho] at h ⊢
      simp only [Bool.false_eq_true, or_false] at h
      by_cases hl : o + n < d.length
      · rw [if_pos hl] at h
        simp only [Option.some.injEq] at h
        subst h
        rw [if_pos (.inr trivial), g2 (by omega)]
        simp only []
        rw [List.take_append_of_le_length (by omega), List.drop_append_of_le_length (by omega)]
      · rw [if_neg hl] at h; cases h

/-- The bytes written for one segment. -/
theorem crleCompressSegment_append (s s' : CrleC) (o e : Bytes) (w : Nat)
    (h : crleCompressSegment false s = (s', o)) (ho : o ≠ []) :
    crleCompressSegment true ⟨s.data ++ e, w⟩ = (⟨s'.data ++ e, w + o.length⟩, o) := by
  unfold crleCompressSegment at h ⊢
  by_cases hd : s.data = []
  · rw [if_pos hd] at h; simp only [Prod.mk.injEq] at h; exact absurd h.2.symm ho
  · rw [if_neg hd] at h
    rw [if_neg (by simp [hd])]
    cases hg : crleGetSegment false s.data with
    | none => rw [hg] at h; simp only [Prod.mk.injEq] at h; exact absurd h.2.symm ho
    | some r =>
      rw [hg] at h
      rw [crleGetSegment_append _ e r hg]
      simp only [Prod.mk.injEq] at h ⊢
      obtain ⟨rfl, rfl⟩ := h
      exact ⟨rfl, rfl⟩

theorem crleCompressSegment_written (d : Bytes) (w w' : Nat) :
    (crleCompressSegment true ⟨d, w⟩).2 = (crleCompressSegment true ⟨d, w'⟩).2 ∧
      (crleCompressSegment true ⟨d, w⟩).1.data = (crleCompressSegment true ⟨d, w'⟩).1.data := by
  unfold crleCompressSegment
  by_cases hd : d = []
  · simp [hd]
  · simp only [if_neg hd]
    cases crleGetSegment true d with
    | none => exact ⟨rfl, rfl⟩
    | some r => exact ⟨rfl, rfl⟩

theorem crleFlushLoop_irrel (m : Nat) : ∀ (fuel fuel' : Nat) (d : Bytes) (w w' : Nat), d.length < m → d.length < fuel →
    d.length < fuel' → crleFlushLoop fuel ⟨d, w⟩ = crleFlushLoop fuel' ⟨d, w'⟩ := by
  induction m with
  | zero => intro _ _ _ _ _ h; omega
  | succ m ih =>
    intro fuel fuel' d w w' hm hf hf'
    cases fuel with
    | zero => omega
    | succ fuel =>
      cases fuel' with
      | zero => omega
      | succ fuel' =>
        obtain ⟨e1, e2⟩ := crleCompressSegment_written d w w'
        rcases crleCompressSegment_spec true ⟨d, w⟩ with ⟨h1, h2⟩ | ⟨s', out, seg, h1, h2, h3, h4, _, _⟩
        · have h1' := h1
          rw [h1] at e1
          simp only [crleFlushLoop, h1, ← e1]
          rfl
        · rw [h1] at e1 e2
          simp only [crleFlushLoop, h1, ← e1]
          rw [if_neg h4, if_neg h4]
          congr 1
          have hl : 0 < seg.length := List.length_pos_iff.2 h3
          have hd : d.length = seg.length + s'.data.length := by
            simp only [] at h2; rw [h2, List.length_append]
          cases s' with
          | mk d' w'' =>
          cases hc : (crleCompressSegment true ⟨d, w'⟩).1 with
          | mk d2 w2 =>
          rw [hc] at e2
          simp only [] at e2 hd
          subst e2
          exact ih _ _ _ _ _ (by omega) (by omega) (by omega)

/-- What is written for the data, given in one piece. -/
def crleCanon (d : Bytes) : Bytes := crleFlushLoop (d.length + 1) ⟨d, 0⟩

theorem crleFlushLoop_canon (fuel : Nat) (s : CrleC) (h : s.data.length < fuel) :
    crleFlushLoop fuel s = crleCanon s.data :=
  crleFlushLoop_irrel (s.data.length + 1) fuel (s.data.length + 1) s.data s.written 0 (by omega) h (by omega)

theorem crleCanon_step (d d' o : Bytes) (w w' : Nat) (h : crleCompressSegment true ⟨d, w⟩ = (⟨d', w'⟩, o)) (ho : o ≠ []) :
    crleCanon d = o ++ crleCanon d' := by
  obtain ⟨e1, e2⟩ := crleCompressSegment_written d 0 w
  rw [h] at e1 e2
  rcases crleCompressSegment_spec true ⟨d, 0⟩ with ⟨h1, _⟩ | ⟨s', out, seg, h1, h2, h3, h4, _, _⟩
  · rw [h1] at e1; exact absurd e1.symm ho
  · rw [h1] at e1 e2
    simp only [] at e1 e2 h2
    subst e1
    unfold crleCanon
    rw [crleFlushLoop, h1]
    simp only [if_neg h4]
    congr 1
    have hl : 0 < seg.length := List.length_pos_iff.2 h3
    rw [crleFlushLoop_canon _ _ (by rw [h2, List.length_append]; omega), e2]
    rfl

theorem crle_go_canon (cs : List Bytes) : ∀ s : CrleC, (0 < s.written ∨ s.data ++ cs.flatten ≠ []) →
    Compressor.run.go crleCompressor s cs = crleCanon (s.data ++ cs.flatten) := by
  induction cs with
  | nil =>
    intro s h
    simp only [Compressor.run.go, crleCompressor, List.flatten_nil, List.append_nil] at h ⊢
    rw [if_neg]
    · exact crleFlushLoop_canon _ _ (by omega)
    · rintro ⟨h1, h2⟩
      rcases h with h | h
      · omega
      · exact h (List.eq_nil_of_length_eq_zero h2)
  | cons c cs ih =>
    intro s h
    have hgo : Compressor.run.go crleCompressor s (c :: cs) =
      (crleCompressSegment false { s with data := s.data ++ c }).2 ++
        Compressor.run.go crleCompressor (crleCompressSegment false { s with data := s.data ++ c }).1 cs := rfl
    rw [hgo]
    simp only [List.flatten_cons, ← List.append_assoc] at h ⊢
    rcases crleCompressSegment_spec false { s with data := s.data ++ c } with ⟨h1, h2⟩ | ⟨s', out, seg, h1, h2, h3, h4, h5, h6⟩
    · rw [h1]
      exact ih { s with data := s.data ++ c } h
    · rw [h1]
      have := crleCompressSegment_append _ _ _ cs.flatten 0 h1 h4
      rw [crleCanon_step _ _ _ _ _ this h4, ih s' (.inl h5)]

theorem crle_run_canon (pieces : List Bytes) (h : pieces.flatten ≠ []) :
    crleCodec.comp.run pieces = crleCanon pieces.flatten := by
  exact crle_go_canon pieces {} (.inr (by simpa using h))

/-! ### Sizes -/

theorem packGroups_length_self (n : Nat) : (packGroups n).length ≤ n := by
  induction n using Nat.strongRecOn with
  | ind n ih =>
    unfold packGroups
    split
    · simp
    · have := ih (n >>> 7) (by rw [Nat.shiftRight_eq_div_pow]; omega)
      rw [Nat.shiftRight_eq_div_pow] at this ⊢
      simp only [List.length_cons]; omega

theorem crlePackSize_length (k n : Nat) (h : n < 2 ^ (7 * (k + 1))) : (crlePackSize n).length ≤ k + 1 := by
  unfold crlePackSize
  rw [clearLast_length, List.length_cons]
  have := packGroups_length_le k (n >>> 7) (by
    rw [Nat.shiftRight_eq_div_pow]
    apply Nat.div_lt_of_lt_mul
    rw [← Nat.pow_add, show 7 + 7 * k = 7 * (k + 1) by omega]; exact h)
  omega

theorem crlePackSize_length_div (n : Nat) : (crlePackSize n).length ≤ 1 + n / 128 := by
  unfold crlePackSize
  rw [clearLast_length, List.length_cons]
  have := packGroups_length_self (n >>> 7)
  rw [Nat.shiftRight_eq_div_pow] at this
  rw [Nat.shiftRight_eq_div_pow]
  omega

theorem packSize_length (k : Nat) (v : Int) (h : v.natAbs < 2 ^ (6 + 7 * k)) : (packSize v).length ≤ k + 1 := by
  unfold packSize
  split
  · rw [clearLast_length]; simp
  · simp only []
    rw [clearLast_length, List.length_cons]
    have := packGroups_length_le k (v.natAbs >>> 6) (by
      rw [Nat.shiftRight_eq_div_pow]
      apply Nat.div_lt_of_lt_mul
      rw [← Nat.pow_add]; exact h)
    omega

/-- The segments of the data, one after the other. -/
theorem crleCanon_cases (d : Bytes) :
    (d = [] ∧ crleCanon d = []) ∨
    (findRepeated 0 d = none ∧ d ≠ [] ∧ crleCanon d = 0 :: (crlePackSize d.length ++ d)) ∨
    (∃ n, findRepeated 0 d = some (0, n) ∧ crleCanon d = 1 :: (crlePackSize n ++ d.take 1) ++ crleCanon (d.drop n)) ∨
    (∃ o n, 0 < o ∧ findRepeated 0 d = some (o, n) ∧
      crleCanon d = 0 :: (crlePackSize o ++ d.take o) ++ crleCanon (d.drop o)) := by
  by_cases hd : d = []
  · exact .inl ⟨hd, by subst hd; rfl⟩
  · refine .inr ?_
    cases hf : findRepeated 0 d with
    | none =>
      refine .inl ⟨rfl, hd, ?_⟩
      have : crleCompressSegment true ⟨d, 0⟩ = (⟨[], 0 + (0 :: (crlePackSize d.length ++ d)).length⟩, 0 :: (crlePackSize d.length ++ d)) := by
        unfold crleCompressSegment
        rw [if_neg hd]
        simp [crleGetSegment, hf]
      rw [crleCanon_step _ _ _ _ _ this (by simp)]
      show _ ++ [] = _
      rw [List.append_nil]
    | some on =>
      obtain ⟨o, n⟩ := on
      refine .inr ?_
      obtain ⟨_, h2, h3, h4, _⟩ := findRepeated_spec _ _ _ _ hf
      by_cases ho : 0 < o
      · refine .inr ⟨o, n, ho, rfl, ?_⟩
        have : crleCompressSegment true ⟨d, 0⟩ =
            (⟨d.drop o, 0 + (0 :: (crlePackSize o ++ d.take o)).length⟩, 0 :: (crlePackSize o ++ d.take o)) := by
          unfold crleCompressSegment
          rw [if_neg hd]
          have hm : min o d.length = o := by omega
          simp [crleGetSegment, hf, ho, hm]
        exact crleCanon_step _ _ _ _ _ this (by simp)
      · have ho0 : o = 0 := by omega
        subst ho0
        refine .inl ⟨n, rfl, ?_⟩
        have hn : n ≤ d.length := by simpa using h4
        have : crleCompressSegment true ⟨d, 0⟩ =
            (⟨d.drop n, 0 + (1 :: (crlePackSize n ++ d.take 1)).length⟩, 1 :: (crlePackSize n ++ d.take 1)) := by
          unfold crleCompressSegment
          rw [if_neg hd]
          have hm : min n d.length = n := by omega
          have hm1 : min 1 n = 1 := by omega
          simp [crleGetSegment, hf, hm, List.take_take, hm1]
        exact crleCanon_step _ _ _ _ _ this (by simp)

/-- After a scattered segment in front of a run, the run comes next. -/
theorem findRepeated_drop (l : Bytes) : ∀ off o n, findRepeated off l = some (o, n) →
    findRepeated 0 (l.drop (o - off)) = some (0, n) := by
  induction l with
  | nil => intro off o n h; simp [findRepeated] at h
  | cons b l ih =>
    intro off o n h
    simp only [findRepeated] at h
    by_cases h6 : runLength b (b :: l) ≥ 6
    · rw [if_pos h6] at h
      simp only [Option.some.injEq, Prod.mk.injEq] at h
      obtain ⟨rfl, rfl⟩ := h
      simp only [Nat.sub_self, List.drop_zero, findRepeated]
      rw [if_pos h6]
    · rw [if_neg h6] at h
      obtain ⟨h1, _⟩ := findRepeated_spec _ _ _ _ h
      rw [show o - off = o - (off + 1) + 1 by omega, List.drop_succ_cons]
      exact ih _ _ _ h

theorem crleCanon_length (m : Nat) : ∀ d : Bytes, d.length < m → (crleCanon d).length ≤ d.length + d.length / 128 + 2 := by
  induction m with
  | zero => intro d h; omega
  | succ m ih =>
    intro d hm
    -- a run at the start
    have run : ∀ (d : Bytes) n, d.length < m + 1 → findRepeated 0 d = some (0, n) →
        (crleCanon d).length ≤ d.length - 3 + d.length / 128 + 2 := by
      intro d n hm hf
      obtain ⟨_, h2, h3, h4, _⟩ := findRepeated_spec _ _ _ _ hf
      simp only [Nat.sub_zero, List.drop_zero] at h4
      rcases crleCanon_cases d with ⟨rfl, _⟩ | ⟨h, _⟩ | ⟨n', h, hc⟩ | ⟨o, n', ho, h, _⟩
      · simp [findRepeated] at hf
      · rw [h] at hf; cases hf
      · rw [hf] at h
        simp only [Option.some.injEq, Prod.mk.injEq, true_and] at h
        subst h
        rw [hc]
        have hi := ih (d.drop n) (by rw [List.length_drop]; omega)
        have hp := crlePackSize_length_div n
        simp only [List.length_cons, List.length_append, List.length_take, List.length_drop] at hi ⊢
        omega
      · rw [hf] at h
        simp only [Option.some.injEq, Prod.mk.injEq] at h
        omega
    rcases crleCanon_cases d with ⟨rfl, h⟩ | ⟨h, hd, hc⟩ | ⟨n', h, hc⟩ | ⟨o, n', ho, h, hc⟩
    · rw [h]; simp
    · rw [hc]
      have hp := crlePackSize_length_div d.length
      simp only [List.length_cons, List.length_append]
      omega
    · have := run d n' hm h
      omega
    · obtain ⟨_, h2, h3, h4, _⟩ := findRepeated_spec _ _ _ _ h
      have hd := findRepeated_drop d 0 o n' h
      simp only [Nat.sub_zero, List.length_drop] at hd h4
      have := run (d.drop o) n' (by rw [List.length_drop]; omega) hd
      rw [hc]
      have hp := crlePackSize_length_div o
      simp only [List.length_cons, List.length_append, List.length_take, List.length_drop] at this ⊢
      omega

/-- A long run in the middle. -/
theorem findRepeated_mid (p a : Bytes) (b : UInt8) (m : Nat) (hm : 6 ≤ m) : ∀ off, findRepeated off p = none →
    ∃ o n, findRepeated off (p ++ (List.replicate m b ++ a)) = some (o, n) ∧ off ≤ o ∧ o ≤ off + p.length ∧
      off + p.length + m ≤ o + n := by
  have hrun : m ≤ runLength b (List.replicate m b ++ a) := by
    have : ∀ k, k ≤ runLength b (List.replicate k b ++ a) := by
      intro k
      induction k with
      | zero => omega
      | succ k ih => simp only [List.replicate_succ, List.cons_append, runLength, if_true]; omega
    exact this m
  induction p with
  | nil =>
    intro off _
    cases m with
    | zero => omega
    | succ m =>
      simp only [List.nil_append, List.replicate_succ, List.cons_append, findRepeated] at hrun ⊢
      rw [if_pos (by omega)]
      exact ⟨_, _, rfl, Nat.le_refl _, by simp, by simp; omega⟩
  | cons c p ih =>
    intro off h
    simp only [findRepeated] at h
    by_cases h6 : runLength c (c :: p) ≥ 6
    · rw [if_pos h6] at h; cases h
    · rw [if_neg h6] at h
      have happ := runLength_append c (c :: p) (List.replicate m b ++ a)
      simp only [List.cons_append] at happ ⊢
      simp only [findRepeated]
      by_cases h6' : runLength c (c :: (p ++ (List.replicate m b ++ a))) ≥ 6
      · rw [if_pos h6']
        refine ⟨_, _, rfl, Nat.le_refl _, by omega, ?_⟩
        by_cases hlt : runLength c (c :: p) < (c :: p).length
        · rw [if_pos hlt] at happ; omega
        · rw [if_neg hlt] at happ
          have := runLength_le c (c :: p)
          have hcb : c = b := by
            by_cases hcb : c = b
            · exact hcb
            · exfalso
              have : runLength c (List.replicate m b ++ a) = 0 := by
                cases m with
                | zero => omega
                | succ m => simp [List.replicate_succ, runLength, hcb]
              omega
          subst hcb
          rw [happ]; omega
      · rw [if_neg h6']
        obtain ⟨o, n, g1, g2, g3, g4⟩ := ih (off + 1) h
        exact ⟨o, n, g1, by omega, by simp only [List.length_cons]; omega, by simp only [List.length_cons]; omega⟩

/-- Short data, a long run, short data: 22 bytes at most. -/
theorem crleCanon_mid (p a : Bytes) (b : UInt8) (m : Nat) (hm : 6 ≤ m) (hp : findRepeated 0 p = none) (hp6 : p.length ≤ 6)
    (ha : a.length ≤ 5) (hlt : m < 2 ^ 34) : (crleCanon (p ++ (List.replicate m b ++ a))).length ≤ 22 := by
  obtain ⟨o, n, h, _, h2, h3⟩ := findRepeated_mid p a b m hm 0 hp
  obtain ⟨d, hd⟩ : ∃ d, d = p ++ (List.replicate m b ++ a) := ⟨_, rfl⟩
  have hdl : d.length = p.length + m + a.length := by rw [hd]; simp; omega
  rw [← hd] at h ⊢
  -- the run and what follows
  have run : ∀ d : Bytes, d.length < 2 ^ 35 → findRepeated 0 d = some (0, n) → d.length - n ≤ 5 → (crleCanon d).length ≤ 14 := by
    intro d hl hf hr
    obtain ⟨_, _, k3, k4, _⟩ := findRepeated_spec _ _ _ _ hf
    simp only [Nat.sub_zero, List.drop_zero] at k4
    rcases crleCanon_cases d with ⟨rfl, _⟩ | ⟨h, _⟩ | ⟨n', h, hc⟩ | ⟨o, n', ho, h, _⟩
    · simp [findRepeated] at hf
    · rw [h] at hf; cases hf
    · rw [hf] at h
      simp only [Option.some.injEq, Prod.mk.injEq, true_and] at h
      subst h
      rw [hc]
      have h5 := crlePackSize_length 4 n (by omega)
      have htail : (crleCanon (d.drop n)).length ≤ 7 := by
        have := crleCanon_length _ (d.drop n) (Nat.lt_succ_self _)
        rw [List.length_drop] at this
        omega
      simp only [List.length_cons, List.length_append, List.length_take]
      omega
    · rw [hf] at h
      simp only [Option.some.injEq, Prod.mk.injEq] at h
      omega
  rcases crleCanon_cases d with ⟨rfl, _⟩ | ⟨h', _⟩ | ⟨n', h', hc⟩ | ⟨o', n', ho, h', hc⟩
  · simp [findRepeated] at h
  · rw [h'] at h; cases h
  · rw [h'] at h
    simp only [Option.some.injEq, Prod.mk.injEq] at h
    obtain ⟨rfl, rfl⟩ := h
    have := run d (by omega) h' (by omega)
    omega
  · rw [h'] at h
    simp only [Option.some.injEq, Prod.mk.injEq] at h
    obtain ⟨rfl, rfl⟩ := h
    have hdr := findRepeated_drop d 0 _ _ h'
    simp only [Nat.sub_zero] at hdr
    have := run (d.drop o') (by rw [List.length_drop]; omega) hdr (by rw [List.length_drop]; omega)
    rw [hc]
    have h1 := crlePackSize_length 0 o' (by omega)
    simp only [List.length_cons, List.length_append, List.length_take]
    omega

/-- There is no run in a zero byte and a size. -/
theorem noRun_sizes (n : Nat) (h0 : 0 < n) (h : n < 2 ^ 34) : findRepeated 0 (0 :: packSize n) = none := by
  have hn : (packSize n).length ≤ 5 := packSize_length 4 _ (by omega)
  simp only [findRepeated]
  rw [if_neg, findRepeated_short _ _ hn]
  intro h6
  have hshape := packSize_shape (n : Int) (by omega)
  obtain ⟨b, hb⟩ : ∃ b, b = UInt8.ofNat ((if (n : Int) > 0 then 0 else 64) + 128 + (n : Int).natAbs % 64) := ⟨_, rfl⟩
  rw [← hb] at hshape
  cases hg : packGroups ((n : Int).natAbs / 64) with
  | nil =>
    rw [hg] at hshape
    have hl := congrArg List.length hshape
    rw [clearLast_length] at hl
    have := runLength_le 0 (0 :: packSize n)
    simp only [List.length_cons, List.length_nil] at this hl
    omega
  | cons x t =>
    rw [hg] at hshape
    have hx : clearLast (b :: x :: t) = b :: clearLast (x :: t) := rfl
    rw [hshape, hx] at h6
    have hz : (0 : UInt8) ≠ b := by
      intro h
      have := congrArg UInt8.toNat (h.trans hb)
      rw [if_pos (by omega)] at this
      simp at this
      omega
    simp only [runLength, if_true, if_neg hz] at h6
    omega

theorem none_run (chunks : List Bytes) : noneCodec.comp.run chunks = chunks.flatten := by
  have : ∀ l : List Bytes, Compressor.run.go noneCompressor () l = l.flatten := by
    intro l
    induction l with
    | nil => rfl
    | cons a t ih => simp [Compressor.run.go, noneCompressor] at ih ⊢; exact ih
  exact this chunks

end Detools
