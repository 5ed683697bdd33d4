import Verif.Spec.Ops

namespace Detools

theorem rd_some (l : Bytes) (i : Int) (h0 : 0 ≤ i) (h1 : i < l.length) :
    ∃ b, rd l i = some b ∧ l[i.toNat]? = some b := by
  unfold rd
  have : i.toNat < l.length := by omega
  rw [if_neg (by omega)]
  exact ⟨l[i.toNat], by simp [this], by simp [this]⟩

theorem rd_isSome (l : Bytes) (i : Int) (h0 : 0 ≤ i) (h1 : i < l.length) :
    ∃ b, rd l i = some b := by
  obtain ⟨b, h, _⟩ := rd_some l i h0 h1; exact ⟨b, h⟩

theorem int32s_ok (xs : List Int) (h : ∀ x ∈ xs, -2 ^ 31 ≤ x ∧ x < 2 ^ 31) : int32s xs = some () := by
  unfold int32s
  rw [if_pos h]

/-- Discharges `int32s [..] = some ()` from linear bounds. -/
syntax "fits32" : tactic
macro_rules
  | `(tactic| fits32) => `(tactic| (apply int32s_ok; simp only [List.mem_cons, List.not_mem_nil, or_false, forall_eq_or_imp, forall_eq]; omega))

theorem matchlen_le_right (a b : Bytes) : matchlen a b ≤ b.length := by
  fun_induction matchlen a b <;> simp_all

theorem matchlen_le_left (a b : Bytes) : matchlen a b ≤ a.length := by
  fun_induction matchlen a b <;> simp_all

theorem suffixAt_some (sa : List Nat) (fr : Bytes) (hlen : sa.length = fr.length + 1)
    (hin : ∀ p ∈ sa, p ≤ fr.length) (x : Nat) (hx : x ≤ fr.length) :
    ∃ p, sa[x]? = some p ∧ p ≤ fr.length ∧ suffixAt sa fr x = some (p, fr.drop p) := by
  have hx' : x < sa.length := by omega
  refine ⟨sa[x], by simp [hx'], hin _ (List.getElem_mem hx'), ?_⟩
  simp [suffixAt, hx', hin _ (List.getElem_mem hx')]

theorem search_some (sa : List Nat) (fr to : Bytes) (hlen : sa.length = fr.length + 1)
    (hin : ∀ p ∈ sa, p ≤ fr.length) (fuel b e : Nat) (hf : e - b < fuel) (he : e ≤ fr.length)
    (hb : b ≤ e) :
    ∃ len pos, search sa fr to fuel b e = some (len, pos) ∧ pos ≤ fr.length ∧ len ≤ to.length ∧
      len = matchlen (fr.drop pos) to := by
  induction fuel generalizing b e with
  | zero => omega
  | succ fuel ih =>
    unfold search
    split
    · obtain ⟨pb, _, hpb, hb'⟩ := suffixAt_some sa fr hlen hin b (by omega)
      obtain ⟨pe, _, hpe, he'⟩ := suffixAt_some sa fr hlen hin e he
      simp only [hb', he', Option.bind_eq_bind, Option.bind_some]
      split
      · exact ⟨_, _, rfl, hpb, matchlen_le_right _ _, rfl⟩
      · exact ⟨_, _, rfl, hpe, matchlen_le_right _ _, rfl⟩
    · obtain ⟨p, _, hp, hx⟩ := suffixAt_some sa fr hlen hin (b + (e-b)/2) (by omega)
      simp only [hx, Option.bind_eq_bind, Option.bind_some]
      split
      · exact ih _ _ (by omega) he (by omega)
      · exact ih _ _ (by omega) (by omega) (by omega)

theorem offsetMatch_some (fr to : Bytes) (lo i : Int) (h0 : 0 ≤ i + lo) (hi0 : 0 ≤ i)
    (hi : i < to.length) (hlo : lo ≤ fr.length) (hsz : fr.length + to.length < 2 ^ 31) :
    ∃ m, offsetMatch fr to lo i = some m ∧ (m = true → i + lo < fr.length) := by
  unfold offsetMatch
  rw [show int32s [i + lo] = some () by fits32]
  simp only [Option.bind_eq_bind, Option.bind_some]
  split
  · obtain ⟨a, ha⟩ := rd_isSome fr (i + lo) h0 (by assumption)
    obtain ⟨b, hb⟩ := rd_isSome to i hi0 hi
    exact ⟨a == b, by simp only [ha, hb, Option.bind_some], fun _ => by assumption⟩
  · exact ⟨_, rfl, by simp⟩

theorem scoreLoop_some (fr to : Bytes) (lo scan0 : Int) (n : Nat) (scsc score : Int)
    (h0 : 0 ≤ scan0 + lo) (h00 : 0 ≤ scan0) (hs0 : scan0 ≤ scsc) (hi : scsc + n ≤ to.length)
    (hlo : lo ≤ fr.length) (hsz : fr.length + to.length < 2 ^ 31)
    (hl : -(to.length : Int) ≤ score) (hu1 : score ≤ scsc - scan0) (hu2 : score ≤ fr.length) :
    ∃ r, scoreLoop fr to lo n scsc score = some r ∧ score ≤ r ∧ r ≤ scsc + n - scan0 ∧ r ≤ fr.length := by
  induction n generalizing scsc score with
  | zero => exact ⟨score, rfl, by omega, by omega, by omega⟩
  | succ n ih =>
    obtain ⟨m, hm, hmt⟩ := offsetMatch_some fr to lo scsc (by omega) (by omega) (by omega) hlo hsz
    simp only [scoreLoop, hm, Option.bind_eq_bind, Option.bind_some]
    obtain ⟨sc, hsc, b1, b2, b3⟩ : ∃ sc, (if m = true then score + 1 else score) = sc ∧ score ≤ sc ∧ sc ≤ scsc + 1 - scan0 ∧ sc ≤ fr.length := by
      refine ⟨_, rfl, ?_⟩
      cases m with
      | true => have := hmt rfl; simp only [if_true]; omega
      | false => simp only [Bool.false_eq_true, if_false]; omega
    rw [hsc, show int32s [sc, scsc + 1] = some () by fits32]
    simp only [Option.bind_some]
    obtain ⟨r, hr, hle, h1, h2⟩ := ih (scsc+1) sc (by omega) (by omega) (by omega) (by omega) (by omega)
    exact ⟨r, hr, by omega, by omega, by omega⟩

theorem scanLoop_some (sa : List Nat) (fr to : Bytes) (hlen : sa.length = fr.length + 1)
    (hin : ∀ p ∈ sa, p ≤ fr.length) (lo : Int) (scan0 : Int) (fuel : Nat) (scsc : Int) (s : Scan)
    (hf : to.length - s.scan ≤ fuel)
    (h0 : 0 ≤ scan0) (h0lo : 0 ≤ scan0 + lo) (h1 : scan0 ≤ s.scan) (h1' : scan0 ≤ scsc) (h2 : s.scan ≤ to.length)
    (h3 : s.score ≥ -(s.scan - scan0)) (h5 : scsc ≤ to.length)
    (hlo : lo ≤ fr.length) (hsz : fr.length + to.length < 2 ^ 31) (hu1 : s.score ≤ scsc - scan0) (hu2 : s.score ≤ fr.length)
    (h6 : 0 ≤ s.pos) (h6' : s.pos ≤ fr.length) :
    ∃ r, scanLoop sa fr to lo fuel scsc s = some r ∧ s.scan ≤ r.scan ∧ r.scan ≤ to.length ∧
      0 ≤ r.pos ∧ r.pos ≤ fr.length ∧
      (r.scan = to.length ∨ (0 ≤ r.len ∧ r.scan + r.len ≤ to.length ∧ scan0 < r.scan + r.len)) := by
  induction fuel generalizing scsc s with
  | zero =>
    unfold scanLoop
    rw [if_neg (by omega)]
    exact ⟨s, rfl, by omega, by omega, h6, h6', Or.inl (by omega)⟩
  | succ fuel ih =>
    unfold scanLoop
    by_cases hs : s.scan < to.length
    · rw [if_pos hs]
      obtain ⟨len, pos, hsr, hpos, hl, _⟩ := search_some sa fr (to.drop s.scan.toNat) hlen hin
        (fr.length + 1) 0 fr.length (by omega) (by omega) (by omega)
      simp only [List.length_drop] at hl
      obtain ⟨score, hsc, hge, hse, hsf⟩ := scoreLoop_some fr to lo scan0 (s.scan + len - scsc).toNat scsc s.score
        (by omega) (by omega) (by omega) (by omega) hlo hsz (by omega) hu1 hu2
      rw [show int32s [(fr.length : Int), to.length, to.length - s.scan] = some () by fits32]
      simp only [hsr, Option.bind_eq_bind, Option.bind_some]
      rw [show int32s [s.scan + (len : Int)] = some () by fits32]
      simp only [hsc, Option.bind_some]
      rw [show int32s [score + 8] = some () by fits32]
      simp only [Option.bind_some]
      split
      · next hbr =>
        refine ⟨_, rfl, by simp, by simpa using h2, by simp, by simpa using hpos, Or.inr ⟨by simp, ?_, ?_⟩⟩
        · simp; omega
        · simp; omega
      · next hbr =>
        obtain ⟨m, hm, _⟩ := offsetMatch_some fr to lo s.scan (by omega) (by omega) hs hlo hsz
        simp only [hm, Option.bind_some]
        obtain ⟨sc, hscm, b1, b2⟩ : ∃ sc, (if m = true then score - 1 else score) = sc ∧ score - 1 ≤ sc ∧ sc ≤ score := by
          refine ⟨_, rfl, ?_⟩
          cases m <;> simp <;> omega
        rw [hscm, show int32s [sc, s.scan + 1] = some () by fits32]
        simp only [Option.bind_some]
        obtain ⟨r, hr, h1, h2, h3, h4, h5⟩ := ih (max scsc (s.scan + len))
          { scan := s.scan + 1, len := len, pos := pos, score := sc }
          (by simp; omega) (by simp; omega) (by omega) (by simp; omega)
          (by simp; omega) (by omega) (by simp; omega) (by simp; omega) (by simp) (by simpa using hpos)
        refine ⟨r, hr, ?_, h2, h3, h4, h5⟩
        simp at h1; omega
    · rw [if_neg hs]
      exact ⟨s, rfl, by omega, by omega, h6, h6', Or.inl (by omega)⟩

theorem forwardLoop_some (fr to : Bytes) (scan lastScan lastPos : Int)
    (hls : 0 ≤ lastScan) (hlp : 0 ≤ lastPos) (hlp' : lastPos ≤ fr.length) (hsc : scan ≤ to.length)
    (hsz : fr.length + to.length < 2 ^ 31) (fuel : Nat)
    (i s sf d : Int) (hf : scan - lastScan - i < fuel) (hi : 0 ≤ i) (hd0 : 0 ≤ d) (hdi : d ≤ i)
    (hs0 : 0 ≤ s) (hsi : s ≤ i) (hsf0 : 0 ≤ sf) (hsfd : sf ≤ d)
    (hi1 : lastScan + i ≤ scan) (hi2 : lastPos + i ≤ fr.length) :
    ∃ r, forwardLoop fr to scan lastScan lastPos fuel i s sf d = some r ∧ 0 ≤ r ∧
      lastScan + r ≤ scan ∧ lastPos + r ≤ fr.length := by
  induction fuel generalizing i s sf d with
  | zero => omega
  | succ fuel ih =>
    unfold forwardLoop
    rw [show int32s [lastScan + i] = some () by fits32, show int32s [lastPos + i] = some () by fits32]
    simp only [Option.bind_eq_bind, Option.bind_some, ite_self]
    split
    · next hc =>
      obtain ⟨a, ha⟩ := rd_isSome fr (lastPos + i) (by omega) (by omega)
      obtain ⟨b, hb⟩ := rd_isSome to (lastScan + i) (by omega) (by omega)
      simp only [ha, hb, Option.bind_some]
      obtain ⟨s', hs', b1, b2⟩ : ∃ s', (if a = b then s + 1 else s) = s' ∧ s ≤ s' ∧ s' ≤ s + 1 := by
        refine ⟨_, rfl, ?_⟩
        split <;> omega
      rw [hs', show int32s [s', i + 1, s' * 2, s' * 2 - (i + 1), sf * 2, sf * 2 - d] = some () by fits32]
      simp only [Option.bind_some]
      split
      · exact ih _ _ _ _ (by omega) (by omega) (by omega) (by omega) (by omega) (by omega) (by omega) (by omega) (by omega) (by omega)
      · exact ih _ _ _ _ (by omega) (by omega) (by omega) (by omega) (by omega) (by omega) (by omega) (by omega) (by omega) (by omega)
    · exact ⟨d, rfl, hd0, by omega, by omega⟩

theorem backwardLoop_some (fr to : Bytes) (scan pos lastScan : Int)
    (hls : 0 ≤ lastScan) (hp : pos ≤ fr.length) (hsc : scan < to.length)
    (hsz : fr.length + to.length < 2 ^ 31) (fuel : Nat)
    (i s sb l : Int) (hf : scan - lastScan - i + 1 < fuel) (hi : 1 ≤ i) (hi1 : i ≤ scan - lastScan + 1) (hi2 : i ≤ pos + 1)
    (hs0 : 0 ≤ s) (hsi : s < i) (hsb0 : 0 ≤ sb) (hsbl : sb ≤ l)
    (hl0 : 0 ≤ l) (hli : l < i) :
    ∃ r, backwardLoop fr to scan pos lastScan fuel i s sb l = some r ∧ 0 ≤ r ∧
      r ≤ scan - lastScan ∧ r ≤ pos := by
  induction fuel generalizing i s sb l with
  | zero => omega
  | succ fuel ih =>
    unfold backwardLoop
    rw [show int32s [lastScan + i] = some () by fits32]
    simp only [Option.bind_eq_bind, Option.bind_some]
    split
    · next hc =>
      obtain ⟨a, ha⟩ := rd_isSome fr (pos - i) (by omega) (by omega)
      obtain ⟨b, hb⟩ := rd_isSome to (scan - i) (by omega) (by omega)
      rw [show int32s [pos - i, scan - i] = some () by fits32]
      simp only [ha, hb, Option.bind_some]
      obtain ⟨s', hs', b1, b2⟩ : ∃ s', (if a = b then s + 1 else s) = s' ∧ s ≤ s' ∧ s' ≤ s + 1 := by
        refine ⟨_, rfl, ?_⟩
        split <;> omega
      rw [hs', show int32s [s', s' * 2, s' * 2 - i, sb * 2, sb * 2 - l, i + 1] = some () by fits32]
      simp only [Option.bind_some]
      split
      · exact ih _ _ _ _ (by omega) (by omega) (by omega) (by omega) (by omega) (by omega) (by omega) (by omega) (by omega) (by omega)
      · exact ih _ _ _ _ (by omega) (by omega) (by omega) (by omega) (by omega) (by omega) (by omega) (by omega) (by omega) (by omega)
    · exact ⟨l, rfl, hl0, by omega, by omega⟩

theorem overlapLoop_some (fr to : Bytes) (a b c d : Int) (n : Nat) (i s ss lens : Int)
    (ha : 0 ≤ a) (hb : 0 ≤ b) (hc : 0 ≤ c) (hd : 0 ≤ d) (hi : 0 ≤ i)
    (ha' : a + i + n ≤ to.length) (hb' : b + i + n ≤ fr.length)
    (hc' : c + i + n ≤ to.length) (hd' : d + i + n ≤ fr.length)
    (hsz : fr.length + to.length < 2 ^ 31) (hs0 : -i ≤ s) (hs1 : s ≤ i)
    (hl0 : 0 ≤ lens) (hl1 : lens ≤ i) :
    ∃ r, overlapLoop fr to a b c d n i s ss lens = some r ∧ 0 ≤ r ∧ r ≤ i + n := by
  induction n generalizing i s ss lens with
  | zero => exact ⟨lens, rfl, hl0, by omega⟩
  | succ n ih =>
    unfold overlapLoop
    obtain ⟨x1, h1⟩ := rd_isSome to (a + i) (by omega) (by omega)
    obtain ⟨x2, h2⟩ := rd_isSome fr (b + i) (by omega) (by omega)
    obtain ⟨x3, h3⟩ := rd_isSome to (c + i) (by omega) (by omega)
    obtain ⟨x4, h4⟩ := rd_isSome fr (d + i) (by omega) (by omega)
    rw [show int32s [a + i, b + i, c + i, d + i] = some () by fits32]
    simp only [h1, h2, h3, h4, Option.bind_eq_bind, Option.bind_some]
    obtain ⟨s1, hs1', b1, b2⟩ : ∃ s1, (if x1 = x2 then s + 1 else s) = s1 ∧ s ≤ s1 ∧ s1 ≤ s + 1 := by
      refine ⟨_, rfl, ?_⟩
      split <;> omega
    rw [hs1', show int32s [s1] = some () by fits32]
    simp only [Option.bind_some]
    obtain ⟨s2, hs2', b3, b4⟩ : ∃ s2, (if x3 = x4 then s1 - 1 else s1) = s2 ∧ s - 1 ≤ s2 ∧ s2 ≤ s + 1 := by
      refine ⟨_, rfl, ?_⟩
      split <;> omega
    rw [hs2', show int32s [s2, i + 1] = some () by fits32]
    simp only [Option.bind_some]
    split
    · obtain ⟨r, hr, h0, hle⟩ := ih (i + 1) s2 s2 (i + 1) (by omega) (by omega) (by omega) (by omega) (by omega) (by omega) (by omega) (by omega) (by omega)
      exact ⟨r, hr, h0, by omega⟩
    · obtain ⟨r, hr, h0, hle⟩ := ih (i + 1) s2 ss lens (by omega) (by omega) (by omega) (by omega) (by omega) (by omega) (by omega) (by omega) (by omega)
      exact ⟨r, hr, h0, by omega⟩

theorem drop_eq_cons_of_getElem? {l : Bytes} {n : Nat} {b : UInt8} (h : l[n]? = some b) :
    l.drop n = b :: l.drop (n + 1) := by
  have hlt : n < l.length := by
    rcases Nat.lt_or_ge n l.length with h' | h'
    · exact h'
    · simp [List.getElem?_eq_none h'] at h
  rw [List.drop_eq_getElem_cons hlt]
  simp [List.getElem?_eq_getElem hlt] at h
  rw [h]

theorem diffBytes_some (fr to : Bytes) (ls lp : Int) (n : Nat) (i : Int)
    (hls : 0 ≤ ls) (hlp : 0 ≤ lp) (hi : 0 ≤ i) (h1 : ls + i + n ≤ to.length) (h2 : lp + i + n ≤ fr.length)
    (hsz : fr.length + to.length < 2 ^ 31) :
    ∃ d, diffBytes fr to ls lp n i = some d ∧ d.length = n ∧
      List.zipWith (· + ·) d (fr.drop (lp + i).toNat) = (to.drop (ls + i).toNat).take n := by
  induction n generalizing i with
  | zero => exact ⟨[], rfl, rfl, by simp⟩
  | succ n ih =>
    obtain ⟨t, ht, ht'⟩ := rd_some to (ls + i) (by omega) (by omega)
    obtain ⟨f, hf, hf'⟩ := rd_some fr (lp + i) (by omega) (by omega)
    obtain ⟨d, hd, hl, hz⟩ := ih (i+1) (by omega) (by omega) (by omega)
    refine ⟨(t - f) :: d, ?_, by simp [hl], ?_⟩
    · rw [diffBytes, show int32s [ls + i, lp + i, i + 1] = some () by fits32]
      simp [ht, hf, hd]
    · rw [drop_eq_cons_of_getElem? ht', drop_eq_cons_of_getElem? hf']
      have e1 : (lp + i).toNat + 1 = (lp + (i + 1)).toNat := by omega
      have e2 : (ls + i).toNat + 1 = (ls + (i + 1)).toNat := by omega
      rw [e1, e2]
      simp [hz, UInt8.sub_add_cancel]

theorem extraBytes_some (to : Bytes) (p : Int) (n : Nat) (i : Int)
    (hp : 0 ≤ p) (hi : 0 ≤ i) (h1 : p + i + n ≤ to.length) (hsz : to.length < 2 ^ 31) :
    extraBytes to p n i = some ((to.drop (p + i).toNat).take n) := by
  induction n generalizing i with
  | zero => simp [extraBytes]
  | succ n ih =>
    obtain ⟨t, ht, ht'⟩ := rd_some to (p + i) (by omega) (by omega)
    have e2 : (p + i).toNat + 1 = (p + (i + 1)).toNat := by omega
    rw [extraBytes, show int32s [p + i, i + 1] = some () by fits32]
    simp [ht, ih (i+1) (by omega) (by omega), drop_eq_cons_of_getElem? ht', e2]

theorem take_drop_append (l : Bytes) (a b c : Nat) :
    (l.drop a).take b ++ ((l.drop (a + b)).take c ++ l.drop (a + b + c)) = l.drop a := by
  rw [← List.drop_drop (l := l) (i := c) (j := a+b), List.take_append_drop, ← List.drop_drop, List.take_append_drop]

theorem write_some (fr to : Bytes) (debuf : Nat) (hde : to.length ≤ debuf) (scan pos ls lp : Int)
    (h1 : 0 ≤ ls) (h2 : ls ≤ scan) (h3 : scan ≤ to.length) (h4 : 0 ≤ lp) (h5 : lp ≤ fr.length)
    (h6 : 0 ≤ pos) (h7 : pos ≤ fr.length) (hsz : fr.length + to.length < 2 ^ 31) :
    ∃ op ls' lp', writeDiffExtraAdjustment fr to debuf scan pos ls lp = some (op, ls', lp', pos - scan) ∧
      ls ≤ ls' ∧ ls' ≤ scan ∧ (scan = to.length → ls' = scan) ∧
      0 ≤ lp' ∧ lp' ≤ fr.length ∧ lp' = lp + op.diff.length + op.adjustment ∧
      lp + op.diff.length ≤ fr.length ∧
      (op.diff.length : Int) + op.extra.length ≤ scan - ls ∧
      to.drop ls.toNat = List.zipWith (· + ·) op.diff (fr.drop lp.toNat) ++ op.extra ++ to.drop ls'.toNat := by
  unfold writeDiffExtraAdjustment
  obtain ⟨d, hd, hd0, hd1, hd2⟩ := forwardLoop_some fr to scan ls lp h1 h4 h5 h3 hsz ((scan - ls).toNat + 1) 0 0 0 0
    (by omega) (by omega) (by omega) (by omega) (by omega) (by omega) (by omega) (by omega) (by omega) (by omega)
  have hlenb : ∃ l, backwardExtend fr to scan pos ls = some l ∧ 0 ≤ l ∧ l ≤ scan - ls
      ∧ l ≤ pos ∧ (scan = to.length → l = 0) := by
    unfold backwardExtend
    split
    · obtain ⟨r, hr, h0, h1, h2⟩ := backwardLoop_some fr to scan pos ls h1 h7 (by assumption) hsz ((scan - ls).toNat + 1) 1 0 0 0
        (by omega) (by omega) (by omega) (by omega) (by omega) (by omega) (by omega) (by omega) (by omega) (by omega)
      exact ⟨r, hr, h0, h1, h2, by omega⟩
    · exact ⟨0, rfl, by omega, by omega, by omega, by omega⟩
  obtain ⟨l, hl, hl0, hl1, hl2, hl3⟩ := hlenb
  simp only [hd, hl, Option.bind_eq_bind, Option.bind_some]
  -- resolve the overlap
  have hov : ∃ d' l', resolveOverlap fr to scan pos ls lp d l = some (d', l') ∧ 0 ≤ d' ∧ 0 ≤ l' ∧
      l' ≤ l ∧ lp + d' ≤ fr.length ∧ ls + d' ≤ scan - l' := by
    unfold resolveOverlap
    simp only []
    rw [show int32s [ls + d, scan - l, ls + d - (scan - l)] = some () by fits32]
    simp only [Option.bind_eq_bind, Option.bind_some]
    split
    · next ho =>
      obtain ⟨r, hr, h0, hle⟩ := overlapLoop_some fr to (ls + d - (ls + d - (scan - l))) (lp + d - (ls + d - (scan - l)))
        (scan - l) (pos - l) (ls + d - (scan - l)).toNat 0 0 0 0
        (by omega) (by omega) (by omega) (by omega) (by omega) (by omega) (by omega) (by omega) (by omega) hsz (by omega)
        (by omega) (by omega) (by omega)
      rw [show int32s [ls + d - (ls + d - (scan - l)), lp + d, lp + d - (ls + d - (scan - l)), pos - l] = some () by fits32]
      simp only [hr, Option.bind_some]
      rw [show int32s [r - (ls + d - (scan - l)), d + (r - (ls + d - (scan - l))), l - r] = some () by fits32]
      refine ⟨_, _, rfl, ?_⟩
      omega
    · exact ⟨d, l, rfl, by omega⟩
  obtain ⟨d', l', hov, hd0', hl0', hll, hd2', hsum⟩ := hov
  rw [hov]
  simp only [Option.bind_some, fillDebuf]
  rw [if_neg (by omega)]
  obtain ⟨db, hdb, hdbl, hz⟩ := diffBytes_some fr to ls lp d'.toNat 0 h1 h4 (by omega) (by omega) (by omega) hsz
  simp only [hdb, Option.bind_some]
  rw [show int32s [ls + d', scan - l', scan - l' - (ls + d')] = some () by fits32]
  simp only [Option.bind_some]
  rw [if_neg (by omega)]
  rw [extraBytes_some to (ls + d') _ 0 (by omega) (by omega) (by omega) (by omega)]
  simp only [Option.bind_some]
  rw [show int32s [pos - l', lp + d', pos - l' - (lp + d'), pos - scan] = some () by fits32]
  simp only [Option.bind_some]
  refine ⟨_, _, _, rfl, ?_, ?_, ?_, ?_, ?_, ?_, ?_, ?_, ?_⟩
  · omega
  · omega
  · omega
  · omega
  · omega
  · simp only [hdbl]; omega
  · simp only [hdbl]; omega
  · simp only [hdbl, List.length_take]; omega
  · simp only [Int.add_zero] at hz ⊢
    rw [hz]
    have e1 : (ls + d').toNat = ls.toNat + d'.toNat := by omega
    have e2 : (scan - l').toNat = ls.toNat + d'.toNat + (scan - l' - (ls + d')).toNat := by omega
    rw [e1, e2, List.append_assoc, take_drop_append]

theorem createLoop_some (sa : List Nat) (fr to : Bytes) (debuf : Nat)
    (hlen : sa.length = fr.length + 1) (hin : ∀ p ∈ sa, p ≤ fr.length) (hde : to.length ≤ debuf)
    (fuel : Nat) (s : Loop)
    (hf : s.scan < to.length → (to.length : Int) + 2 - (s.scan + s.len) ≤ fuel)
    (h1 : 0 ≤ s.lastScan) (h2 : s.lastScan ≤ s.scan) (h3 : s.scan ≤ to.length)
    (h3' : s.scan < to.length → 0 ≤ s.len ∧ s.scan + s.len ≤ to.length)
    (h4 : 0 ≤ s.lastPos) (h5 : s.lastPos ≤ fr.length)
    (h6 : 0 ≤ s.pos) (h7 : s.pos ≤ fr.length) (h8 : 0 ≤ s.scan + s.lastOffset)
    (hlo : s.lastOffset ≤ fr.length) (hsz : fr.length + to.length < 2 ^ 31)
    (h9 : s.scan = to.length → s.lastScan = to.length) :
    ∃ ops, createLoop sa fr to debuf fuel s = some ops ∧
      Rebuilds fr s.lastPos ops (to.drop s.lastScan.toNat) ∧
      (∀ op ∈ ops, op.diff.length ≤ to.length ∧ op.extra.length ≤ to.length ∧
        -(fr.length : Int) ≤ op.adjustment ∧ op.adjustment ≤ fr.length) := by
  have done : ¬ s.scan < to.length → Rebuilds fr s.lastPos [] (to.drop s.lastScan.toNat) := by
    intro h
    have := h9 (by omega)
    unfold Rebuilds
    simp; omega
  induction fuel generalizing s with
  | zero =>
    unfold createLoop
    by_cases hs : s.scan < to.length
    · have := hf hs; have := h3' hs; omega
    · rw [if_neg hs]; exact ⟨[], rfl, done hs, by simp⟩
  | succ fuel ih =>
    unfold createLoop
    by_cases hs : s.scan < to.length
    · rw [if_pos hs]
      have hf := hf hs
      have h3' := h3' hs
      simp only [Option.bind_eq_bind]
      rw [show int32s [s.scan + s.len] = some () by fits32]
      simp only [Option.bind_some]
      obtain ⟨r, hr, hr1, hr2, hr3, hr4, hr5⟩ := scanLoop_some sa fr to hlen hin s.lastOffset (s.scan + s.len)
        to.length (s.scan + s.len) { scan := s.scan + s.len, len := s.len, pos := s.pos, score := 0 }
        (by simp; omega) (by omega) (by omega) (by simp) (by simp) (by simp; omega) (by simp) (by omega) hlo hsz (by simp) (by simp)
        (by simpa using h6) (by simpa using h7)
      simp only at hr1
      simp only [hr, Option.bind_eq_bind, Option.bind_some]
      split
      · next hw =>
        obtain ⟨op, ls', lp', hop, g1, g2, g3, g4, g5, g6, g7, g8, g9⟩ := write_some fr to debuf hde r.scan r.pos s.lastScan s.lastPos
          h1 (by omega) hr2 h4 h5 hr3 hr4 hsz
        simp only [hop, Option.bind_some]
        have hdone : ¬ ({ scan := r.scan, len := r.len, pos := r.pos, lastScan := ls', lastPos := lp', lastOffset := r.pos - r.scan } : Loop).scan < to.length → Rebuilds fr lp' [] (to.drop ls'.toNat) := by
          intro h
          have := g3 (by simp at h; omega)
          unfold Rebuilds
          simp at h ⊢; omega
        obtain ⟨ops, hops, hreb, hbnd⟩ := ih { scan := r.scan, len := r.len, pos := r.pos, lastScan := ls', lastPos := lp', lastOffset := r.pos - r.scan }
          (by simp; omega) (by simp; omega) (by simpa using g2) (by simpa using hr2) (by simp; omega)
          (by simpa using g4) (by simpa using g5) (by simpa using hr3) (by simpa using hr4) (by simp; omega) (by simp; omega)
          (by simp; intro h; rw [g3 h, h]) hdone
        simp only at hreb
        refine ⟨op :: ops, by simp [hops], ?_, ?_⟩
        · unfold Rebuilds
          refine ⟨?_, h4, g7, by omega, by omega, to.drop ls'.toNat, g9, ?_⟩
          · simp; omega
          · rw [← g6]; exact hreb
        · intro o ho
          simp only [List.mem_cons] at ho
          rcases ho with rfl | ho
          · refine ⟨by omega, by omega, by omega, by omega⟩
          · exact hbnd o ho
      · next hw =>
        have hne : r.scan ≠ to.length := by
          intro h; exact hw (Or.inr h)
        have hr5 := hr5.resolve_left hne
        obtain ⟨ops, hops, hreb, hbnd⟩ := ih { s with scan := r.scan, len := r.len, pos := r.pos }
          (by simp; omega) (by simpa using h1) (by simp; omega) (by simpa using hr2) (by simp; omega)
          (by simpa using h4) (by simpa using h5) (by simpa using hr3) (by simpa using hr4) (by simp; omega) (by simpa using hlo)
          (by simp; omega) (by simp; omega)
        exact ⟨ops, hops, hreb, hbnd⟩
    · rw [if_neg hs]; exact ⟨[], rfl, done hs, by simp⟩

theorem createOps_some (sa : List Nat) (fr to : Bytes) (debuf : Nat)
    (hlen : sa.length = fr.length + 1) (hin : ∀ p ∈ sa, p ≤ fr.length) (hde : to.length ≤ debuf)
    (hsz : fr.length + to.length < 2 ^ 31) :
    ∃ ops, createOps sa fr to debuf = some ops ∧ Rebuilds fr 0 ops to ∧
      (∀ op ∈ ops, op.diff.length ≤ to.length ∧ op.extra.length ≤ to.length ∧
        -(fr.length : Int) ≤ op.adjustment ∧ op.adjustment ≤ fr.length) := by
  have := createLoop_some sa fr to debuf hlen hin hde (to.length + 2) {} (by simp) (by simp) (by simp)
    (by simp) (by simp) (by simp) (by simp) (by simp) (by simp) (by simp) (by simp) hsz (by simp)
  simpa [createOps] using this

end Detools
