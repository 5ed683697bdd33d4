import Verif.Proofs.Bsdiff
import Verif.Spec.SuffixArray
/-
Binary search in a suffix array.
-/
namespace Detools

theorem LexLe.refl : ∀ (a : Bytes), LexLe a a
  | [] => trivial
  | _ :: as => .inr ⟨rfl, LexLe.refl as⟩

theorem lexLe_match_left : ∀ (a b t : Bytes), LexLe a b → LexLe b t → matchlen a t ≤ matchlen b t
  | [], _, _, _, _ => by simp [matchlen]
  | x :: as, [], _, h, _ => h.elim
  | x :: as, y :: bs, [], _, h => h.elim
  | x :: as, y :: bs, z :: ts, h1, h2 => by
    unfold matchlen
    by_cases hxz : x = z
    · subst hxz
      have hyx : y = x := by
        rcases h1 with h1 | h1
        · rcases h2 with h2 | h2
          · exact absurd (UInt8.lt_trans h1 h2) (UInt8.lt_irrefl _)
          · exact h2.1
        · exact h1.1.symm
      subst hyx
      rw [if_pos rfl, if_pos rfl]
      have k1 : LexLe as bs := by
        rcases h1 with h1 | h1
        · exact absurd h1 (UInt8.lt_irrefl _)
        · exact h1.2
      have k2 : LexLe bs ts := by
        rcases h2 with h2 | h2
        · exact absurd h2 (UInt8.lt_irrefl _)
        · exact h2.2
      have := lexLe_match_left as bs ts k1 k2
      omega
    · rw [if_neg hxz]; omega

theorem lexLe_match_right : ∀ (a b t : Bytes), LexLe t a → LexLe a b → matchlen b t ≤ matchlen a t
  | _, _, [], _, _ => by simp [matchlen]
  | [], _, _ :: _, h, _ => h.elim
  | _ :: _, [], _ :: _, _, h => h.elim
  | x :: as, y :: bs, z :: ts, h1, h2 => by
    unfold matchlen
    by_cases hyz : y = z
    · subst hyz
      have hyx : y = x := by
        rcases h1 with h1 | h1
        · rcases h2 with h2 | h2
          · exact absurd (UInt8.lt_trans h1 h2) (UInt8.lt_irrefl _)
          · exact h2.1.symm
        · exact h1.1
      subst hyx
      rw [if_pos rfl, if_pos rfl]
      have k1 : LexLe ts as := by
        rcases h1 with h1 | h1
        · exact absurd h1 (UInt8.lt_irrefl _)
        · exact h1.2
      have k2 : LexLe as bs := by
        rcases h2 with h2 | h2
        · exact absurd h2 (UInt8.lt_irrefl _)
        · exact h2.2
      have := lexLe_match_right as bs ts k1 k2
      omega
    · rw [if_neg hyz]; omega

theorem memcmpLt_true : ∀ (s t : Bytes), memcmpLt s t = true → LexLe s t
  | [], _, _ => trivial
  | _ :: _, [], h => by simp [memcmpLt] at h
  | a :: s, b :: t, h => by
    unfold memcmpLt at h
    by_cases hab : a = b
    · rw [if_pos hab] at h
      exact .inr ⟨hab, memcmpLt_true s t h⟩
    · rw [if_neg hab] at h
      exact .inl (by simpa using h)

theorem memcmpLt_false : ∀ (s t : Bytes), memcmpLt s t = false → LexLe t s ∨ (s.length < t.length ∧ t.take s.length = s)
  | [], [], _ => .inl trivial
  | [], b :: t, _ => .inr (by simp)
  | _ :: _, [], _ => .inl trivial
  | a :: s, b :: t, h => by
    unfold memcmpLt at h
    by_cases hab : a = b
    · rw [if_pos hab] at h
      rcases memcmpLt_false s t h with h | ⟨h1, h2⟩
      · exact .inl (.inr ⟨hab.symm, h⟩)
      · exact .inr ⟨by simpa using h1, by simp [hab, h2]⟩
    · rw [if_neg hab] at h
      have h : ¬ a < b := by simpa using h
      rcases UInt8.lt_or_lt_of_ne (fun e => hab e) with h' | h'
      · exact absurd h' h
      · exact .inl (.inl h')

theorem matchlen_match : ∀ (s t : Bytes), s.take (matchlen s t) = t.take (matchlen s t)
  | [], _ => by simp [matchlen]
  | _ :: _, [] => by simp [matchlen]
  | a :: s, b :: t => by
    unfold matchlen
    by_cases h : a = b
    · rw [if_pos h, List.take_succ_cons, List.take_succ_cons, matchlen_match s t, h]
    · rw [if_neg h]; simp

theorem matchlen_longest : ∀ (s t : Bytes) (n : Nat), n ≤ s.length → n ≤ t.length → s.take n = t.take n → n ≤ matchlen s t
  | _, _, 0, _, _, _ => Nat.zero_le _
  | [], _, n + 1, h, _, _ => by simp at h
  | _ :: _, [], n + 1, _, h, _ => by simp at h
  | a :: s, b :: t, n + 1, h1, h2, h3 => by
    rw [List.take_succ_cons, List.take_succ_cons] at h3
    injection h3 with h4 h5
    unfold matchlen
    rw [if_pos h4]
    have := matchlen_longest s t n (by simpa using h1) (by simpa using h2) h5
    omega

/-- The suffixes. -/
theorem suffixAt_get {sa : List Nat} {fr : Bytes} (h : IsSuffixArray sa fr) {x : Nat} (hx : x < sa.length) :
    suffixAt sa fr x = some (sa[x], fr.drop sa[x]) := by
  unfold suffixAt
  rw [List.getElem?_eq_getElem hx]
  simp only
  rw [if_pos ((h.all _).1 (List.getElem_mem hx))]

theorem suffix_le {sa : List Nat} {fr : Bytes} (h : IsSuffixArray sa fr) {x y : Nat} (hx : x ≤ y) (hy : y < sa.length) :
    LexLe (fr.drop (sa[x]'(by omega))) (fr.drop sa[y]) := by
  rcases Nat.lt_or_ge x y with hlt | hge
  · exact List.pairwise_iff_getElem.1 h.sorted x y (by omega) hy hlt
  · have : x = y := by omega
    subst this
    exact LexLe.refl _

theorem search_longest {sa : List Nat} {fr to : Bytes} (h : IsSuffixArray sa fr)
    (hno : ∀ p, p < fr.length → ¬ ((fr.drop p).length < to.length ∧ to.take (fr.drop p).length = fr.drop p))
    (hend : ∀ x, (hx : x < sa.length) → sa[x] = fr.length → x = 0) :
    ∀ (fuel b e : Nat) (hb : b ≤ e) (he : e < sa.length), e - b < fuel →
      (b = 0 ∨ LexLe (fr.drop (sa[b]'(by omega))) to) → (e = fr.length ∨ LexLe to (fr.drop sa[e])) →
      ∃ len pos, search sa fr to fuel b e = some (len, pos) ∧ pos ≤ fr.length ∧ len = matchlen (fr.drop pos) to ∧
        ∀ x, (hx : x < sa.length) → matchlen (fr.drop sa[x]) to ≤ len := by
  intro fuel
  induction fuel with
  | zero => intro b e hb he hf; omega
  | succ fuel ih =>
    intro b e hb he hf h1 h2
    unfold search
    have hl := h.length
    by_cases hsmall : e - b < 2
    · rw [if_pos hsmall]
      simp only [suffixAt_get h (show b < sa.length by omega), suffixAt_get h he, bind, Option.bind]
      have hB : ∀ x, (hx : x < sa.length) → x ≤ b → matchlen (fr.drop sa[x]) to ≤ matchlen (fr.drop (sa[b]'(by omega))) to := by
        intro x hx hxb
        rcases h1 with h1 | h1
        · have : x = b := by omega
          subst this; exact Nat.le_refl _
        · exact lexLe_match_left _ _ _ (suffix_le h hxb (by omega)) h1
      have hE : ∀ x, (hx : x < sa.length) → e ≤ x → matchlen (fr.drop sa[x]) to ≤ matchlen (fr.drop sa[e]) to := by
        intro x hx hxe
        rcases h2 with h2 | h2
        · have : x = e := by omega
          subst this; exact Nat.le_refl _
        · exact lexLe_match_right _ _ _ h2 (suffix_le h hxe hx)
      have hall : ∀ x, (hx : x < sa.length) → matchlen (fr.drop sa[x]) to ≤ matchlen (fr.drop (sa[b]'(by omega))) to ∨
          matchlen (fr.drop sa[x]) to ≤ matchlen (fr.drop sa[e]) to := by
        intro x hx
        rcases Nat.lt_or_ge b x with hbx | hbx
        · exact .inr (hE x hx (by omega))
        · exact .inl (hB x hx hbx)
      by_cases hgt : matchlen (fr.drop (sa[b]'(by omega))) to > matchlen (fr.drop sa[e]) to
      · rw [if_pos hgt]
        refine ⟨_, _, rfl, (h.all _).1 (List.getElem_mem _), rfl, ?_⟩
        intro x hx
        rcases hall x hx with h' | h' <;> omega
      · rw [if_neg hgt]
        refine ⟨_, _, rfl, (h.all _).1 (List.getElem_mem _), rfl, ?_⟩
        intro x hx
        rcases hall x hx with h' | h' <;> omega
    · rw [if_neg hsmall]
      have hx : b + (e - b) / 2 < sa.length := by omega
      simp only [suffixAt_get h hx, bind, Option.bind]
      cases hm : memcmpLt (fr.drop sa[b + (e - b) / 2]) to with
      | true =>
        rw [if_pos rfl]
        exact ih _ _ (by omega) he (by omega) (.inr (memcmpLt_true _ _ hm)) h2
      | false =>
        rw [if_neg (by simp)]
        refine ih _ _ (by omega) hx (by omega) h1 (.inr ?_)
        rcases memcmpLt_false _ _ hm with h' | h'
        · exact h'
        · have hp : sa[b + (e - b) / 2] ≤ fr.length := (h.all _).1 (List.getElem_mem hx)
          have hne : sa[b + (e - b) / 2] ≠ fr.length := by
            intro heq
            have := hend _ hx heq
            omega
          exact (hno _ (by omega) h').elim

theorem lexLe_nil {a : Bytes} (h : LexLe a []) : a = [] := by
  cases a with
  | nil => rfl
  | cons x a => exact h.elim

/-- The end of the data comes first. -/
theorem suffix_end {sa : List Nat} {fr : Bytes} (h : IsSuffixArray sa fr) (x : Nat) (hx : x < sa.length) (he : sa[x] = fr.length) : x = 0 := by
  rcases Nat.eq_zero_or_pos x with h0 | h0
  · exact h0
  · have h1 := suffix_le h (Nat.zero_le x) hx
    rw [he, List.drop_length] at h1
    have h2 := lexLe_nil h1
    have h3 : (sa[0]'(by omega)) = fr.length := by
      have := (h.all _).1 (List.getElem_mem (l := sa) (n := 0) (by omega))
      have h4 := congrArg List.length h2
      rw [List.length_drop, List.length_nil] at h4
      omega
    have := List.pairwise_iff_getElem.1 h.nodup 0 x (by omega) hx h0
    exact absurd (h3.trans he.symm) this

end Detools
