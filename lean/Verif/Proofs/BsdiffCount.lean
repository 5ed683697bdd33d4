import Verif.Proofs.Search
import Verif.Proofs.CrleCanon
/-
How many records the bsdiff algorithm makes.
-/
namespace Detools

theorem lexLe_head {a b : UInt8} {s t : Bytes} (h : LexLe (a :: s) (b :: t)) : a ≤ b := by
  rcases h with h | h
  · exact UInt8.le_of_lt h
  · rw [h.1]; exact UInt8.le_refl _

theorem memcmpLt_head {a b : UInt8} {s t : Bytes} (h : memcmpLt (a :: s) (b :: t) = true) : a ≤ b :=
  lexLe_head (memcmpLt_true _ _ h)

theorem memcmpLt_head_false {a b : UInt8} {s t : Bytes} (h : memcmpLt (a :: s) (b :: t) = false) : b ≤ a := by
  unfold memcmpLt at h
  by_cases hab : a = b
  · rw [hab]; exact UInt8.le_refl _
  · rw [if_neg hab] at h
    have h : ¬ a < b := by simpa using h
    exact UInt8.not_lt.1 h

/-- If the first byte is anywhere in the from-data, the search finds a match. -/
theorem search_first {sa : List Nat} {fr : Bytes} {c : UInt8} {to : Bytes} (h : IsSuffixArray sa fr)
    (hc : ∃ (p : Nat) (t : Bytes), fr.drop p = c :: t)
    (hend : ∀ x, (hx : x < sa.length) → sa[x] = fr.length → x = 0) :
    ∀ (fuel b e : Nat) (hb : b ≤ e) (he : e < sa.length), e - b < fuel →
      (b = 0 ∨ ∃ a t, fr.drop (sa[b]'(by omega)) = a :: t ∧ a ≤ c) → (e = fr.length ∨ ∃ a t, fr.drop sa[e] = a :: t ∧ c ≤ a) →
      ∃ len pos, search sa fr (c :: to) fuel b e = some (len, pos) ∧ 0 < len := by
  intro fuel
  have hne : ∀ x, (hx : x < sa.length) → 0 < x → ∃ a t, fr.drop sa[x] = a :: t := by
    intro x hx h0
    have hle := (h.all _).1 (List.getElem_mem hx)
    cases hd : fr.drop sa[x] with
    | cons a t => exact ⟨a, t, rfl⟩
    | nil =>
      have := congrArg List.length hd
      simp only [List.length_drop, List.length_nil] at this
      have := hend x hx (by omega)
      omega
  induction fuel with
  | zero => intro b e hb he hf; omega
  | succ fuel ih =>
    intro b e hb he hf h1 h2
    unfold search
    have hl := h.length
    by_cases hsmall : e - b < 2
    · rw [if_pos hsmall]
      simp only [suffixAt_get h (show b < sa.length by omega), suffixAt_get h he, bind, Option.bind]
      have hm : 0 < matchlen (fr.drop (sa[b]'(by omega))) (c :: to) ∨ 0 < matchlen (fr.drop sa[e]) (c :: to) := by
        have head : ∀ t, 0 < matchlen (c :: t) (c :: to) := by intro t; simp [matchlen]
        obtain ⟨p, t, hp⟩ := hc
        have hpl : p < fr.length := by
          have := congrArg List.length hp
          simp only [List.length_drop, List.length_cons] at this
          omega
        obtain ⟨x, hx, hxp⟩ := List.mem_iff_getElem.1 ((h.all p).2 (by omega))
        rw [← hxp] at hp
        have hx0 : 0 < x := by
          rcases Nat.eq_zero_or_pos x with rfl | h0
          · exfalso
            obtain ⟨y, hy, hyp⟩ := List.mem_iff_getElem.1 ((h.all fr.length).2 (Nat.le_refl _))
            have := hend y hy hyp
            subst this
            omega
          · exact h0
        rcases Nat.lt_or_ge b x with hbx | hbx
        · right
          have hle := suffix_le h (show e ≤ x by omega) hx
          rcases h2 with h2 | ⟨a, t', ha, hca⟩
          · have : x = e := by omega
            subst this
            rw [hp]; exact head t
          · rw [ha, hp] at hle
            have : a = c := UInt8.le_antisymm (lexLe_head hle) hca
            rw [ha, this]; exact head t'
        · left
          have hle := suffix_le h hbx (show b < sa.length by omega)
          rcases h1 with h1 | ⟨a, t', ha, hca⟩
          · omega
          · rw [ha, hp] at hle
            have : a = c := UInt8.le_antisymm hca (lexLe_head hle)
            rw [ha, this]; exact head t'
      split
      · exact ⟨_, _, rfl, by omega⟩
      · exact ⟨_, _, rfl, by omega⟩
    · rw [if_neg hsmall]
      have hx : b + (e - b) / 2 < sa.length := by omega
      simp only [suffixAt_get h hx, bind, Option.bind]
      obtain ⟨a, t, ha⟩ := hne _ hx (by omega)
      by_cases hm : memcmpLt (fr.drop sa[b + (e - b) / 2]) (c :: to) = true
      · rw [if_pos hm]
        refine ih _ _ (by omega) he (by omega) (.inr ⟨a, t, ha, ?_⟩) h2
        rw [ha] at hm
        exact memcmpLt_head hm
      · rw [if_neg hm]
        refine ih _ _ (by omega) (by omega) (by omega) h1 (.inr ⟨a, t, ha, ?_⟩)
        rw [ha] at hm
        exact memcmpLt_head_false (by simpa using hm)

/-- The positions matching at the offset, of the `n` positions from `a` on. -/
def matchCount (fr to : Bytes) (lo : Int) : Nat → Int → Int
  | 0, _ => 0
  | n + 1, a => (if offsetMatch fr to lo a = some true then 1 else 0) + matchCount fr to lo n (a + 1)

theorem matchCount_nonneg (fr to : Bytes) (lo : Int) (n : Nat) : ∀ a, 0 ≤ matchCount fr to lo n a := by
  induction n with
  | zero => intro a; simp [matchCount]
  | succ n ih => intro a; have := ih (a + 1); simp only [matchCount]; split <;> omega

theorem matchCount_add (fr to : Bytes) (lo : Int) (n m : Nat) : ∀ a,
    matchCount fr to lo (n + m) a = matchCount fr to lo n a + matchCount fr to lo m (a + n) := by
  induction n with
  | zero => intro a; simp [matchCount]
  | succ n ih =>
    intro a
    rw [show n + 1 + m = (n + m) + 1 by omega]
    simp only [matchCount, ih]
    rw [show a + 1 + (n : Int) = a + ((n + 1 : Nat) : Int) by omega]
    omega

theorem scoreLoop_count (fr to : Bytes) (lo : Int) (n : Nat) : ∀ scsc score r, scoreLoop fr to lo n scsc score = some r →
    r = score + matchCount fr to lo n scsc := by
  induction n with
  | zero => intro scsc score r h; simp [scoreLoop] at h; simp [matchCount, h]
  | succ n ih =>
    intro scsc score r h
    simp only [scoreLoop, Option.bind_eq_bind] at h
    cases hm : offsetMatch fr to lo scsc with
    | none => rw [hm] at h; simp at h
    | some m =>
      rw [hm, Option.bind_some] at h
      cases hi : int32s [if m = true then score + 1 else score, scsc + 1] with
      | none => rw [hi] at h; simp at h
      | some u =>
        rw [hi, Option.bind_some] at h
        have := ih _ _ _ h
        simp only [matchCount, hm, Option.some.injEq]
        cases m <;> simp at this ⊢ <;> omega

/-- When the search finds nothing, the byte is not in the from-data. -/
def FindsBytes (sa : List Nat) (fr to : Bytes) : Prop :=
  ∀ (scan : Nat) pos, scan < to.length → search sa fr (to.drop scan) (fr.length + 1) 0 fr.length = some (0, pos) →
    ∀ (p : Nat), fr[p]? ≠ to[scan]?

theorem findsBytes_of {sa : List Nat} {fr to : Bytes} (h : IsSuffixArray sa fr)
    (hend : ∀ x, (hx : x < sa.length) → sa[x] = fr.length → x = 0) : FindsBytes sa fr to := by
  intro scan pos hs hsr p hp
  rw [List.getElem?_eq_getElem hs] at hp
  rw [List.drop_eq_getElem_cons hs] at hsr
  obtain ⟨len, pos', g1, g2⟩ := search_first (to := to.drop (scan + 1)) (c := to[scan]) h ⟨p, _, drop_eq_cons_of_getElem? hp⟩ hend
    (fr.length + 1) 0 fr.length (Nat.zero_le _) (by have := h.length; omega) (by omega) (.inl rfl) (.inl rfl)
  rw [hsr] at g1
  simp only [Option.some.injEq, Prod.mk.injEq] at g1
  omega

theorem offsetMatch_true {fr to : Bytes} {lo i : Int} (h : offsetMatch fr to lo i = some true) :
    ∃ p : Nat, 0 ≤ i ∧ fr[p]? = to[i.toNat]? := by
  unfold offsetMatch at h
  simp only [Option.bind_eq_bind] at h
  cases hi : int32s [i + lo] with
  | none => rw [hi] at h; simp at h
  | some u =>
    rw [hi, Option.bind_some] at h
    split at h
    · cases ha : rd fr (i + lo) with
      | none => rw [ha] at h; simp at h
      | some a =>
        cases hb : rd to i with
        | none => rw [ha, hb] at h; simp at h
        | some b =>
          rw [ha, hb] at h
          simp at h
          subst h
          unfold rd at ha hb
          split at ha
          · cases ha
          · split at hb
            · cases hb
            · exact ⟨(i + lo).toNat, by omega, by rw [ha, hb]⟩
    · simp at h

theorem scanLoop_score (sa : List Nat) (fr to : Bytes) (hF : FindsBytes sa fr to) (lo : Int) (fuel : Nat) :
    ∀ (scsc : Int) (s r : Scan), 0 ≤ s.scan → matchCount fr to lo (s.scan - scsc).toNat scsc = 0 →
    s.score = matchCount fr to lo (scsc - s.scan).toNat s.scan →
    scanLoop sa fr to lo fuel scsc s = some r → r.scan < to.length → r.len ≠ r.score → 9 ≤ r.len := by
  induction fuel with
  | zero =>
    intro scsc s r _ _ _ h hr
    unfold scanLoop at h
    split at h
    · cases h
    · simp only [Option.some.injEq] at h; subst h; omega
  | succ fuel ih =>
    intro scsc s r h0 h1 h2 h hr hlen
    unfold scanLoop at h
    by_cases hs : s.scan < to.length
    · rw [if_pos hs] at h
      simp only [Option.bind_eq_bind] at h
      cases hi1 : int32s [(fr.length : Int), to.length, to.length - s.scan] with
      | none => rw [hi1] at h; simp at h
      | some u =>
      rw [hi1, Option.bind_some] at h
      cases hsr : search sa fr (to.drop s.scan.toNat) (fr.length + 1) 0 fr.length with
      | none => rw [hsr] at h; simp at h
      | some lp =>
      obtain ⟨len, pos⟩ := lp
      rw [hsr, Option.bind_some] at h
      simp only [] at h
      cases hi2 : int32s [s.scan + (len : Int)] with
      | none => rw [hi2] at h; simp at h
      | some u =>
      rw [hi2, Option.bind_some] at h
      cases hsc : scoreLoop fr to lo (s.scan + len - scsc).toNat scsc s.score with
      | none => rw [hsc] at h; simp at h
      | some sc =>
      rw [hsc, Option.bind_some] at h
      have hcount := scoreLoop_count _ _ _ _ _ _ _ hsc
      -- the score is the number of matches up to the new `scsc`
      have hsc' : sc = matchCount fr to lo (max scsc (s.scan + len) - s.scan).toNat s.scan := by
        rw [hcount, h2]
        by_cases hle : s.scan ≤ scsc
        · have e1 : (max scsc (s.scan + len) - s.scan).toNat = (scsc - s.scan).toNat + (s.scan + len - scsc).toNat := by omega
          rw [e1, matchCount_add, show s.scan + ((scsc - s.scan).toNat : Int) = scsc by omega]
        · have e1 : (s.scan + len - scsc).toNat = (s.scan - scsc).toNat + len := by omega
          have e2 : (max scsc (s.scan + len) - s.scan).toNat = len := by omega
          have e3 : (scsc - s.scan).toNat = 0 := by omega
          rw [e1, e2, e3, matchCount_add, h1, show scsc + ((s.scan - scsc).toNat : Int) = s.scan by omega]
          simp [matchCount]
      have hnn := matchCount_nonneg fr to lo (max scsc (s.scan + len) - s.scan).toNat s.scan
      cases hi3 : int32s [sc + 8] with
      | none => rw [hi3] at h; simp at h
      | some u =>
      rw [hi3, Option.bind_some] at h
      by_cases hc : ((len : Int) = sc ∧ len ≠ 0) ∨ (len : Int) > sc + 8
      · rw [if_pos hc] at h
        simp only [Option.some.injEq] at h
        subst h
        simp only [] at hlen ⊢
        omega
      · rw [if_neg hc] at h
        cases hm : offsetMatch fr to lo s.scan with
        | none => rw [hm] at h; simp at h
        | some m =>
        rw [hm, Option.bind_some] at h
        cases hi4 : int32s [if m = true then sc - 1 else sc, s.scan + 1] with
        | none => rw [hi4] at h; simp at h
        | some u =>
        rw [hi4, Option.bind_some] at h
        refine ih (max scsc (s.scan + len)) _ r ?_ ?_ ?_ h hr hlen
        · simp only []; omega
        · simp only []
          rcases Int.lt_or_le s.scan (max scsc (s.scan + len)) with hlt | hge
          · rw [show (s.scan + 1 - max scsc (s.scan + len)).toNat = 0 by omega]; rfl
          · -- nothing found
            have hl0 : len = 0 := by omega
            have hmx : max scsc (s.scan + len) = s.scan := by omega
            rw [hmx, show (s.scan + 1 - s.scan).toNat = 1 by omega]
            simp only [matchCount]
            rw [if_neg]
            · rfl
            · intro hmt
              obtain ⟨p, _, hp⟩ := offsetMatch_true hmt
              rw [hl0] at hsr
              exact hF s.scan.toNat pos (by omega) hsr p hp
        · simp only []
          rcases Int.lt_or_le s.scan (max scsc (s.scan + len)) with hlt | hge
          · have e1 : (max scsc (s.scan + len) - s.scan).toNat = (max scsc (s.scan + len) - (s.scan + 1)).toNat + 1 := by omega
            rw [e1] at hsc'
            simp only [matchCount, hm, Option.some.injEq] at hsc'
            cases m <;> simp at hsc' ⊢ <;> omega
          · have hl0 : len = 0 := by omega
            have hmx : max scsc (s.scan + len) = s.scan := by omega
            have hmf : m = false := by
              cases m with
              | false => rfl
              | true =>
                obtain ⟨p, _, hp⟩ := offsetMatch_true hm
                rw [hl0] at hsr
                exact absurd hp (hF s.scan.toNat pos (by omega) hsr p)
            rw [hmx] at hsc' ⊢
            rw [show (s.scan - s.scan).toNat = 0 by omega] at hsc'
            rw [show (s.scan - (s.scan + 1)).toNat = 0 by omega, hmf]
            simpa [matchCount] using hsc'
    · rw [if_neg hs] at h
      simp only [Option.some.injEq] at h
      subst h
      omega

theorem createLoop_count (sa : List Nat) (fr to : Bytes) (hlen : sa.length = fr.length + 1) (hin : ∀ p ∈ sa, p ≤ fr.length)
    (hF : FindsBytes sa fr to) (debuf : Nat) (hde : to.length ≤ debuf) (hsz : fr.length + to.length < 2 ^ 31) (fuel : Nat) :
    ∀ (s : Loop) (ops : List Op), s.scan < to.length → 0 ≤ s.scan → 0 ≤ s.len → s.scan + s.len ≤ to.length →
      0 ≤ s.lastScan → s.lastScan ≤ s.scan → 0 ≤ s.lastPos → s.lastPos ≤ fr.length →
      0 ≤ s.pos → s.pos ≤ fr.length → 0 ≤ s.scan + s.lastOffset → s.lastOffset ≤ fr.length →
      createLoop sa fr to debuf fuel s = some ops → 9 * (ops.length : Int) ≤ to.length - (s.scan + s.len) + 9 := by
  have hdone : ∀ fuel (s : Loop) ops, ¬ s.scan < to.length → createLoop sa fr to debuf fuel s = some ops → ops = [] := by
    intro fuel s ops hs h
    cases fuel <;> unfold createLoop at h <;> rw [if_neg hs] at h <;> simp only [Option.some.injEq] at h <;> exact h.symm
  induction fuel with
  | zero =>
    intro s ops hs _ _ _ _ _ _ _ _ _ _ _ h
    unfold createLoop at h
    rw [if_pos hs] at h
    cases h
  | succ fuel ih =>
    intro s ops hs h0 h1 h2 h3 h4 h5 h5' h6 h7 h8 h9 h
    unfold createLoop at h
    rw [if_pos hs] at h
    simp only [Option.bind_eq_bind] at h
    rw [show int32s [s.scan + s.len] = some () by fits32, Option.bind_some] at h
    obtain ⟨r, hr, hr1, hr2, hr3, hr4, hr5⟩ := scanLoop_some sa fr to hlen hin s.lastOffset (s.scan + s.len)
      to.length (s.scan + s.len) { scan := s.scan + s.len, len := s.len, pos := s.pos, score := 0 }
      (by simp; omega) (by omega) (by omega) (by simp) (by simp) (by simp; omega) (by simp) (by omega) h9 hsz (by simp) (by simp)
      (by simpa using h6) (by simpa using h7)
    have hsc := scanLoop_score sa fr to hF s.lastOffset to.length (s.scan + s.len) _ r (by simp only []; omega)
      (by simp [matchCount]) (by simp [matchCount]) hr
    simp only at hr1
    rw [hr, Option.bind_some] at h
    by_cases hw : r.len ≠ r.score ∨ r.scan = to.length
    · rw [if_pos hw] at h
      obtain ⟨op, ls', lp', hop, g1, g2, g3, g4, g5, g6, g7, g8, g9⟩ := write_some fr to debuf hde r.scan r.pos s.lastScan s.lastPos
        h3 (by omega) hr2 h5 h5' hr3 hr4 hsz
      rw [hop, Option.bind_some] at h
      simp only [] at h
      cases hrec : createLoop sa fr to debuf fuel { scan := r.scan, len := r.len, pos := r.pos, lastScan := ls', lastPos := lp', lastOffset := r.pos - r.scan } with
      | none => rw [hrec] at h; simp at h
      | some ops' =>
      rw [hrec, Option.bind_some] at h
      simp only [Option.some.injEq] at h
      subst h
      simp only [List.length_cons]
      by_cases he : r.scan = to.length
      · have := hdone _ _ _ (by simp only []; omega) hrec
        subst this
        simp; omega
      · have h9' := hsc (by omega) (hw.resolve_right he)
        have hr5 := hr5.resolve_left he
        have := ih _ _ (by simp only []; omega) (by simp only []; omega) (by simp only []; omega) (by simp only []; omega)
          (by simp only []; omega) (by simp only []; omega) (by simp only []; omega) (by simp only []; omega)
          (by simp only []; omega) (by simp only []; omega) (by simp only []; omega) (by simp only []; omega) hrec
        simp only [] at this
        omega
    · rw [if_neg hw] at h
      have he : r.scan ≠ to.length := fun h => hw (.inr h)
      have hr5 := hr5.resolve_left he
      have := ih _ _ (by simp only []; omega) (by simp only []; omega) (by simp only []; omega) (by simp only []; omega)
        (by simp only []; omega) (by simp only []; omega) (by simp only []; omega) (by simp only []; omega)
        (by simp only []; omega) (by simp only []; omega) (by simp only []; omega) (by simp only []; omega) h
      simp only [] at this
      omega

theorem createOps_count (sa : List Nat) (fr to : Bytes) (hlen : sa.length = fr.length + 1) (hin : ∀ p ∈ sa, p ≤ fr.length)
    (hF : FindsBytes sa fr to) (debuf : Nat) (hde : to.length ≤ debuf) (hsz : fr.length + to.length < 2 ^ 31) (ops : List Op)
    (hne : to ≠ []) (h : createOps sa fr to debuf = some ops) : ops.length ≤ to.length / 9 + 1 := by
  have h0 := List.length_pos_iff.2 hne
  have := createLoop_count sa fr to hlen hin hF debuf hde hsz (to.length + 2) {} ops (by simp; omega) (by simp) (by simp) (by simp)
    (by simp) (by simp) (by simp) (by simp) (by simp) (by simp) (by simp) (by simp) h
  simp at this
  omega

end Detools
