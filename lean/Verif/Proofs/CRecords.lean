import Verif.Proofs.CSeqPieces
import Verif.Proofs.CSizeVal
import Verif.Proofs.Records
import Verif.Spec.CFormat
/-
What the sequential C API does with the decompressed bytes of a patch.
-/
namespace Detools

variable [Build] [NoLzma]

/-- Run the consumer until it is done: its state and what it did not consume. -/
def runTo (fr : Bytes) (a : SeqA) : Bytes → Option (SeqA × Bytes)
  | [] => if a.phase = .done then some (a, []) else none
  | b :: t => if a.phase = .done then some (a, b :: t) else runTo fr (a.step fr (.byte b)) t

omit [NoLzma] [Build] in
theorem runTo_done {fr : Bytes} {a : SeqA} (h : a.phase = .done) (x : Bytes) : runTo fr a x = some (a, x) := by
  cases x <;> simp [runTo, h]

omit [NoLzma] [Build] in
theorem runTo_cons {fr : Bytes} {a : SeqA} (h : a.phase ≠ .done) (b : UInt8) (x : Bytes) :
    runTo fr a (b :: x) = runTo fr (a.step fr (.byte b)) x := by
  simp [runTo, h]

omit [NoLzma] [Build] in
theorem runTo_nil {fr : Bytes} {a : SeqA} (h : a.phase ≠ .done) : runTo fr a [] = none := by
  simp [runTo, h]

omit [NoLzma] [Build] in
theorem runTo_never {fr : Bytes} : ∀ (x : Bytes) {a : SeqA}, Never (seqSink fr) a → runTo fr a x = none := by
  intro x
  induction x with
  | nil => intro a h; exact runTo_nil (h [])
  | cons b t ih =>
    intro a h
    have h0 : a.phase ≠ .done := h []
    rw [runTo_cons h0]
    exact ih (h.step _)

omit [NoLzma] [Build] in
theorem runTo_failed {fr : Bytes} {a : SeqA} (h : a.phase = .failed) (x : Bytes) : runTo fr a x = none :=
  runTo_never x (never_fail fr a h)

omit [NoLzma] [Build] in
theorem runTo_append_none {fr : Bytes} : ∀ (x y : Bytes) (a : SeqA), runTo fr a x = none →
    runTo fr a (x ++ y) = runTo fr ((seqSink fr).steps a (x.map .byte)) y := by
  intro x y
  induction x with
  | nil => intro a _; rfl
  | cons b t ih =>
    intro a h
    by_cases hd : a.phase = .done
    · rw [runTo_done hd] at h; cases h
    · rw [runTo_cons hd] at h
      rw [List.cons_append, runTo_cons hd, ih _ h]
      rfl

omit [NoLzma] [Build] in
theorem runTo_append_some {fr : Bytes} : ∀ (x y : Bytes) (a : SeqA) {r rest}, runTo fr a x = some (r, rest) →
    runTo fr a (x ++ y) = some (r, rest ++ y) := by
  intro x y
  induction x with
  | nil =>
    intro a r rest h
    by_cases hd : a.phase = .done
    · rw [runTo_done hd] at h
      cases h
      exact runTo_done hd y
    · rw [runTo_nil hd] at h; cases h
  | cons b t ih =>
    intro a r rest h
    by_cases hd : a.phase = .done
    · rw [runTo_done hd] at h
      cases h
      exact runTo_done hd _
    · rw [runTo_cons hd] at h
      rw [List.cons_append, runTo_cons hd, ih _ h]

omit [NoLzma] [Build] in
theorem runTo_suffix {fr : Bytes} : ∀ (x : Bytes) (a : SeqA) {r rest}, runTo fr a x = some (r, rest) →
    r.phase = .done ∧ ∃ p, x = p ++ rest := by
  intro x
  induction x with
  | nil =>
    intro a r rest h
    by_cases hd : a.phase = .done
    · rw [runTo_done hd] at h
      cases h
      exact ⟨hd, [], rfl⟩
    · rw [runTo_nil hd] at h; cases h
  | cons b t ih =>
    intro a r rest h
    by_cases hd : a.phase = .done
    · rw [runTo_done hd] at h
      cases h
      exact ⟨hd, [], rfl⟩
    · rw [runTo_cons hd] at h
      obtain ⟨h1, p, h2⟩ := ih _ h
      exact ⟨h1, b :: p, by rw [h2]; rfl⟩

/-! ### Sizes -/

/-- Integers of at most four bytes. -/
def cSize (x : Bytes) : Option (Int × Bytes) :=
  match unpackSizeWithLength x with
  | .ok (v, k, t) => if k ≤ 4 then some (v, t) else none
  | .error _ => none

omit [NoLzma] [Build] in
theorem cSize_iff {x : Bytes} {v : Int} {t : Bytes} : cSize x = some (v, t) ↔ ∃ k, unpackSizeWithLength x = .ok (v, k, t) ∧ k ≤ 4 := by
  unfold cSize
  cases h : unpackSizeWithLength x with
  | error e => simp
  | ok p =>
    obtain ⟨v', k, t'⟩ := p
    simp only
    by_cases hk : k ≤ 4
    · rw [if_pos hk]
      constructor
      · intro h; cases h; exact ⟨k, rfl, hk⟩
      · rintro ⟨k', h, _⟩; cases h; rfl
    · rw [if_neg hk]
      constructor
      · intro h; cases h
      · rintro ⟨k', h, h'⟩; cases h; exact absurd h' hk

omit [NoLzma] [Build] in
theorem sizeByte_value_first {s : SizeAcc} {b : UInt8} {a v} (h : sizeByte s b = .ok (a, some (.value v))) : a.state = .first := by
  unfold sizeByte at h
  cases hs : s.state with
  | first =>
    simp only [hs] at h
    split at h <;> cases h
    rfl
  | consecutive =>
    simp only [hs] at h
    split at h
    · cases h
    · simp only [Bind.bind, Except.bind] at h
      split at h
      · cases h
      · split at h <;> cases h
        rfl

omit [NoLzma] [Build] in
theorem runTo_size {fr : Bytes} : ∀ (x : Bytes) (a : SeqA), a.phase.isSize = true →
    (∀ v acc t, sizeRun sizeByte a.acc x = .value v acc t → acc.state = .first ∧
      runTo fr a x = runTo fr (SeqA.onSize { a with acc := acc } v) t) ∧
    ((∀ v acc t, sizeRun sizeByte a.acc x ≠ .value v acc t) → runTo fr a x = none) := by
  intro x
  induction x with
  | nil =>
    intro a h
    have hd : a.phase ≠ .done := by intro hd; rw [hd] at h; cases h
    refine ⟨fun v acc t h => (by cases h), fun _ => runTo_nil hd⟩
  | cons b t ih =>
    intro a h
    have hd : a.phase ≠ .done := by intro hd; rw [hd] at h; cases h
    rw [runTo_cons hd, SeqA.step_size h]
    simp only [SeqA.sizeTok, sizeRun]
    cases hb : sizeByte a.acc b with
    | error e =>
      exact ⟨fun v acc t h => (by cases h), fun _ => runTo_failed rfl t⟩
    | ok p =>
      obtain ⟨acc', o⟩ := p
      cases o with
      | none => exact ih { a with acc := acc' } h
      | some o =>
        cases o with
        | value v =>
          refine ⟨fun v' acc t' h => ?_, fun h => absurd rfl (h v acc' t)⟩
          cases h
          exact ⟨sizeByte_value_first hb, rfl⟩
        | more => exact ⟨fun v acc t h => (by cases h), fun _ => runTo_failed rfl t⟩
        | fail e => exact ⟨fun v acc t h => (by cases h), fun _ => runTo_failed rfl t⟩

omit [NoLzma] [Build] in
theorem runTo_cSize {fr : Bytes} (x : Bytes) (a : SeqA) (h : a.phase.isSize = true) (hf : a.acc.state = .first) :
    match cSize x with
    | some (v, t) => ∃ acc, acc.state = .first ∧ runTo fr a x = runTo fr (SeqA.onSize { a with acc := acc } v) t
    | none => runTo fr a x = none := by
  obtain ⟨h1, h2⟩ := runTo_size (fr := fr) x a h
  have hr := run_first sizeByte_sizes (fun v => rfl) x a.acc hf
  unfold cSize
  cases hu : unpackSizeWithLength x with
  | error e =>
    rw [hu] at hr
    simp only at hr ⊢
    apply h2
    intro v acc t hv
    split at hr
    · obtain ⟨a', ha⟩ := hr; rw [ha] at hv; cases hv
    · rw [hr] at hv; cases hv
  | ok p =>
    obtain ⟨v, k, t⟩ := p
    rw [hu] at hr
    simp only at hr ⊢
    by_cases hk : k ≤ 4
    · rw [if_pos hk] at hr ⊢
      obtain ⟨acc, sn, e1, e2⟩ := hr
      rw [← e1] at e2
      exact ⟨acc, (h1 _ _ _ e2).1, (h1 _ _ _ e2).2⟩
    · rw [if_neg hk] at hr ⊢
      simp only
      apply h2
      intro v acc t hv
      rw [hr] at hv; cases hv

/-! ### Data -/

omit [NoLzma] [Build] in
theorem runTo_short {fr : Bytes} {x : Bytes} {a : SeqA} (h : a.phase = .diffData ∨ a.phase = .extraData)
    (hl : x.length < a.left) : runTo fr a x = none := by
  have hb : ∀ x : Bytes, byteCount (x.map .byte) = x.length := by
    intro x
    induction x with
    | nil => rfl
    | cons b t ih => simp [byteCount, ih]
  cases hr : runTo fr a x with
  | none => rfl
  | some p =>
    exfalso
    have key : ∀ (x : Bytes) (a : SeqA) (p : SeqA × Bytes), runTo fr a x = some p → ∃ y z, x = y ++ z ∧ ((seqSink fr).steps a (y.map .byte)).phase = .done := by
      intro x
      induction x with
      | nil =>
        intro a p h
        by_cases hd : a.phase = .done
        · exact ⟨[], [], rfl, hd⟩
        · rw [runTo_nil hd] at h; cases h
      | cons b t ih =>
        intro a p h
        by_cases hd : a.phase = .done
        · exact ⟨[], b :: t, rfl, hd⟩
        · rw [runTo_cons hd] at h
          obtain ⟨y, z, h1, h2⟩ := ih _ _ h
          exact ⟨b :: y, z, by rw [h1]; rfl, h2⟩
    obtain ⟨y, z, h1, h2⟩ := key x a p hr
    refine hungry_data fr (y.map .byte) a h ?_ h2
    rw [hb]
    have : x.length = y.length + z.length := by rw [h1, List.length_append]
    omega

omit [NoLzma] [Build] in
/-- Run all of `x`, given that only its last byte can finish. -/
theorem runTo_data {fr : Bytes} {x y : Bytes} {a : SeqA} (h : a.phase = .diffData ∨ a.phase = .extraData)
    (hl : x.length ≤ a.left) (h0 : x ≠ []) :
    runTo fr a (x ++ y) = runTo fr ((seqSink fr).steps a (x.map .byte)) y := by
  rcases List.eq_nil_or_concat x with h' | ⟨p, b, hx⟩
  · exact absurd h' h0
  · have hp : p.length < a.left := by
      have : x.length = p.length + 1 := by rw [hx]; simp
      omega
    have hn := runTo_short (fr := fr) h hp
    have hx' : x ++ y = p ++ (b :: y) := by rw [hx]; simp
    rw [hx', runTo_append_none p (b :: y) a hn, runTo_cons]
    · rw [hx]
      simp only [List.concat_eq_append, List.map_append, List.map_cons, List.map_nil, Sink.steps_append]
      rfl
    · refine hungry_data fr (p.map .byte) a h ?_
      have : byteCount (p.map .byte) = p.length := by
        clear hx hp hn hx'
        induction p with
        | nil => rfl
        | cons b t ih => simp [byteCount, ih]
      omega

omit [NoLzma] [Build] in
theorem norm_diff0 {a : SeqA} (h : a.phase = .diffData) (hl : a.left = 0) : a.norm = { a with phase := .extraSize } := by
  simp [SeqA.norm, h, hl]
omit [NoLzma] [Build] in
theorem norm_extra0 {a : SeqA} (h : a.phase = .extraData) (hl : a.left = 0) : a.norm = { a with phase := .adjustment } := by
  simp [SeqA.norm, h, hl]

omit [NoLzma] [Build] in
/-- A diff of `n` bytes. -/
theorem runTo_diff {fr : Bytes} {a : SeqA} (x : Bytes) (n : Nat) (hp : a.phase = .diffData) (h0 : 0 ≤ a.pos) (hn : a.left = n) :
    if n ≤ x.length ∧ (n ≠ 0 → a.pos + n ≤ fr.length) then
      runTo fr a.norm x = runTo fr { a with phase := .extraSize, out := a.out ++ List.zipWith (· + ·) (x.take n) (fr.drop a.pos.toNat), pos := a.pos + n, toOffset := if n = 0 then a.toOffset else sz (a.toOffset + n), left := 0 } (x.drop n)
    else runTo fr a.norm x = none := by
  by_cases hz : n = 0
  · subst hz
    rw [if_pos ⟨by omega, by intro h; exact absurd rfl h⟩, norm_diff0 hp hn]
    obtain ⟨ph, ac, o, s, l, p, ou⟩ := a
    simp only at hn hp
    subst hn hp
    simp
  · have hnorm : a.norm = a := SeqA.norm_of_left (by omega)
    rw [hnorm]
    by_cases hx : n ≤ x.length
    · have hl : (x.take n).length = n := by simp; omega
      have hne : x.take n ≠ [] := by intro h; rw [h] at hl; simp at hl; omega
      have hsplit := runTo_data (fr := fr) (x := x.take n) (y := x.drop n) (a := a) (.inl hp) (by omega) hne
      rw [List.take_append_drop] at hsplit
      obtain ⟨d1, d2⟩ := steps_diff fr (x.take n) a hp h0 hne (by omega)
      rw [hl] at d1 d2
      by_cases hb : a.pos + n ≤ fr.length
      · rw [if_pos ⟨hx, fun _ => hb⟩, hsplit, d1 hb]
        rw [norm_diff0 (by exact hp) (by show a.left - n = 0; omega)]
        rw [if_neg hz]
        have e1 : a.left - n = 0 := by omega
        rw [e1]
        have e2 : sumBytes (x.take n) ((fr.drop a.pos.toNat).take n) = List.zipWith (· + ·) (x.take n) (fr.drop a.pos.toNat) := by
          unfold sumBytes
          rw [List.zipWith_eq_zipWith_take_min (l₁ := x.take n) (l₂ := fr.drop a.pos.toNat)]
          have hm : min (x.take n).length (fr.drop a.pos.toNat).length = n := by
            rw [hl, List.length_drop]; omega
          rw [hm]
          simp [List.take_take]
        rw [e2]
      · rw [if_neg (fun h => hb (h.2 hz)), hsplit]
        exact runTo_failed (d2 hb) _
    · rw [if_neg (fun h => hx h.1)]
      exact runTo_short (.inl hp) (by omega)

omit [NoLzma] [Build] in
/-- An extra of `n` bytes. -/
theorem runTo_extra {fr : Bytes} {a : SeqA} (x : Bytes) (n : Nat) (hp : a.phase = .extraData) (hn : a.left = n) :
    if n ≤ x.length then
      runTo fr a.norm x = runTo fr { a with phase := .adjustment, out := a.out ++ x.take n, toOffset := if n = 0 then a.toOffset else sz (a.toOffset + n), left := 0 } (x.drop n)
    else runTo fr a.norm x = none := by
  by_cases hz : n = 0
  · subst hz
    rw [if_pos (by omega), norm_extra0 hp hn]
    obtain ⟨ph, ac, o, s, l, p, ou⟩ := a
    simp only at hn hp
    subst hn hp
    simp
  · have hnorm : a.norm = a := SeqA.norm_of_left (by omega)
    rw [hnorm]
    by_cases hx : n ≤ x.length
    · have hl : (x.take n).length = n := by simp; omega
      have hne : x.take n ≠ [] := by intro h; rw [h] at hl; simp at hl; omega
      have hsplit := runTo_data (fr := fr) (x := x.take n) (y := x.drop n) (a := a) (.inr hp) (by omega) hne
      rw [List.take_append_drop] at hsplit
      have d1 := steps_extra fr (x.take n) a hp hne (by omega)
      rw [hl] at d1
      rw [if_pos hx, hsplit, d1]
      rw [norm_extra0 (by exact hp) (by show a.left - n = 0; omega)]
      rw [if_neg hz]
      have e1 : a.left - n = 0 := by omega
      rw [e1]
    · rw [if_neg hx]
      exact runTo_short (.inr hp) (by omega)

/-! ### Records -/

omit [NoLzma] [Build] in
theorem sizeRun_bound : ∀ (x : Bytes) (acc : SizeAcc), acc.Inv → ∀ v a t, sizeRun sizeByte acc x = .value v a t →
    -2 ^ 27 < v ∧ v < 2 ^ 27 ∧ t.length < x.length := by
  intro x
  induction x with
  | nil => intro acc _ v a t h; cases h
  | cons b y ih =>
    intro acc hi v a t h
    rcases sizeByte_cases hi b with ⟨acc', e, hi', _⟩ | ⟨acc', v', e, _, _, h1, h2⟩ | ⟨acc', e, _⟩
    · simp only [sizeRun, e] at h
      have := ih acc' hi' v a t h
      simp only [List.length_cons]
      omega
    · simp only [sizeRun, e] at h
      cases h
      simp only [List.length_cons]
      omega
    · simp only [sizeRun, e] at h
      cases h

omit [NoLzma] [Build] in
theorem cSize_bound {x : Bytes} {v : Int} {t : Bytes} (h : cSize x = some (v, t)) : -2 ^ 27 < v ∧ v < 2 ^ 27 ∧ t.length < x.length := by
  obtain ⟨k, h1, h2⟩ := cSize_iff.1 h
  have hr := run_first sizeByte_sizes (fun v => rfl) x {} rfl
  rw [h1] at hr
  simp only [if_pos h2] at hr
  obtain ⟨a, sn, e1, e2⟩ := hr
  rw [← e1] at e2
  exact sizeRun_bound x {} (by intro h; cases h) _ _ _ e2

omit [NoLzma] [Build] in
theorem szOfInt_nonneg {v : Int} (h0 : 0 ≤ v) (h : v < 2 ^ 27) : szOfInt v = v.toNat := by
  unfold szOfInt; omega

omit [NoLzma] [Build] in
theorem szOfInt_neg {v : Int} (h0 : v < 0) (h : -2 ^ 27 < v) : 2 ^ 63 < szOfInt v := by
  unfold szOfInt; omega

omit [NoLzma] [Build] in
theorem tooBig_nonneg {o s : Nat} {v : Int} (h0 : 0 ≤ v) (h : v < 2 ^ 27) (ho : o < 2 ^ 62) :
    sizeTooBig o s v = true ↔ (s : Int) < o + v := by
  unfold sizeTooBig
  rw [szOfInt_nonneg h0 h]
  simp only [sz, gt_iff_lt, decide_eq_true_eq]
  omega

/-- The consumer after a record. -/
def afterRec (a : SeqA) (fr : Bytes) (r : Rec) (acc : SizeAcc) : SeqA where
  phase := if a.toOffset + r.diff.length + r.extra.length = a.toSize then .done else .diffSize
  acc := acc
  toOffset := a.toOffset + r.diff.length + r.extra.length
  toSize := a.toSize
  left := 0
  pos := a.pos + r.diff.length + r.adjustment
  out := a.out ++ List.zipWith (· + ·) r.diff (fr.drop a.pos.toNat) ++ r.extra

omit [NoLzma] [Build] in
theorem take_of_split {x y d : Bytes} {n : Nat} (h : x = d ++ y) (hn : d.length = n) : x.take n = d ∧ x.drop n = y ∧ n ≤ x.length := by
  subst h hn
  simp

omit [NoLzma] [Build] in
theorem runTo_record_mp {fr : Bytes} {x : Bytes} {a : SeqA} (hp : a.phase = .diffSize) (ha : a.acc.state = .first)
    (ho : a.toOffset ≤ a.toSize) (hs : a.toSize < 2 ^ 62) (h0 : 0 ≤ a.pos) (hx : x.length < 2 ^ 62)
    {r rest} (h : runTo fr a x = some (r, rest)) :
    ∃ rc b1 b2 b3 acc, rc.Small ∧
      unpackSizeWithLength x = .ok (rc.diffSize, rc.diffLen, rc.diff ++ b1) ∧
      rc.diffSize ≤ (a.toSize : Int) - a.toOffset ∧ rc.diff.length = rc.diffSize.toNat ∧
      unpackSizeWithLength b1 = .ok (rc.extraSize, rc.extraLen, rc.extra ++ b2) ∧
      rc.diff.length + rc.extraSize ≤ (a.toSize : Int) - a.toOffset ∧ rc.extra.length = rc.extraSize.toNat ∧
      unpackSizeWithLength b2 = .ok (rc.adjustment, rc.adjLen, b3) ∧
      (rc.diff ≠ [] → a.pos + rc.diff.length ≤ fr.length) ∧
      0 ≤ a.pos + rc.diff.length + rc.adjustment ∧ a.pos + rc.diff.length + rc.adjustment < 2 ^ 31 ∧
      acc.state = .first ∧ b3.length < x.length ∧
      runTo fr (afterRec a fr rc acc) b3 = some (r, rest) := by
  have h1 := runTo_cSize (fr := fr) x a (by rw [hp]; rfl) ha
  cases hc1 : cSize x with
  | none => rw [hc1] at h1; rw [h1] at h; cases h
  | some p =>
  obtain ⟨v1, t1⟩ := p
  rw [hc1] at h1
  obtain ⟨acc1, hf1, h1⟩ := h1
  obtain ⟨m1, m2, m3⟩ := cSize_bound hc1
  rw [h1] at h
  simp only [SeqA.onSize, hp] at h
  by_cases hb1 : sizeTooBig a.toOffset a.toSize v1 = true
  · rw [if_pos hb1, runTo_failed rfl] at h; cases h
  rw [if_neg hb1] at h
  by_cases hv1 : v1 < 0
  · exfalso
    have := szOfInt_neg hv1 m1
    rw [SeqA.norm_of_left (by show szOfInt v1 ≠ 0; omega), runTo_short (.inl rfl) (by show t1.length < szOfInt v1; omega)] at h
    cases h
  have hz1 := szOfInt_nonneg (v := v1) (by omega) m2
  rw [tooBig_nonneg (by omega) m2 (by omega)] at hb1
  have d1 := runTo_diff (fr := fr) (a := { a with acc := acc1, phase := .diffData, left := szOfInt v1 }) t1 v1.toNat rfl h0 hz1
  split at d1
  case isFalse => rw [d1] at h; cases h
  rename_i hd1
  obtain ⟨hd1, hd2⟩ := hd1
  rw [d1] at h
  have hl1 : (t1.take v1.toNat).length = v1.toNat := by simp; omega
  -- the extra
  have h2 := runTo_cSize (fr := fr) (t1.drop v1.toNat) _ (by rfl) (by exact hf1 : ({ a with acc := acc1, phase := .extraSize, out := a.out ++ List.zipWith (· + ·) (t1.take v1.toNat) (fr.drop a.pos.toNat), pos := a.pos + v1.toNat, toOffset := if v1.toNat = 0 then a.toOffset else sz (a.toOffset + v1.toNat), left := 0 } : SeqA).acc.state = .first)
  cases hc2 : cSize (t1.drop v1.toNat) with
  | none => rw [hc2] at h2; rw [h2] at h; cases h
  | some p =>
  obtain ⟨v2, t2⟩ := p
  rw [hc2] at h2
  obtain ⟨acc2, hf2, h2⟩ := h2
  obtain ⟨n1, n2, n3⟩ := cSize_bound hc2
  rw [h2] at h
  have hto : (if v1.toNat = 0 then a.toOffset else sz (a.toOffset + v1.toNat)) = a.toOffset + v1.toNat := by
    split
    · omega
    · unfold sz; omega
  rw [hto] at h
  simp only [SeqA.onSize] at h
  by_cases hb2 : sizeTooBig (a.toOffset + v1.toNat) a.toSize v2 = true
  · rw [if_pos hb2, runTo_failed rfl] at h; cases h
  rw [if_neg hb2] at h
  have hdl : (t1.drop v1.toNat).length = t1.length - v1.toNat := by simp
  by_cases hv2 : v2 < 0
  · exfalso
    have := szOfInt_neg hv2 n1
    rw [SeqA.norm_of_left (by show szOfInt v2 ≠ 0; omega), runTo_short (.inr rfl) (by show t2.length < szOfInt v2; omega)] at h
    cases h
  have hz2 := szOfInt_nonneg (v := v2) (by omega) n2
  rw [tooBig_nonneg (by omega) n2 (by omega)] at hb2
  have e1 := runTo_extra (fr := fr) (a := { a with acc := acc2, phase := .extraData, out := a.out ++ List.zipWith (· + ·) (t1.take v1.toNat) (fr.drop a.pos.toNat), pos := a.pos + v1.toNat, toOffset := a.toOffset + v1.toNat, left := szOfInt v2 }) t2 v2.toNat rfl hz2
  split at e1
  case isFalse => rw [e1] at h; cases h
  rename_i he1
  rw [e1] at h
  have hl2 : (t2.take v2.toNat).length = v2.toNat := by simp; omega
  have hto2 : (if v2.toNat = 0 then a.toOffset + v1.toNat else sz (a.toOffset + v1.toNat + v2.toNat)) = a.toOffset + v1.toNat + v2.toNat := by
    split
    · omega
    · unfold sz; omega
  simp only [hto2] at h
  -- the adjustment
  have h3 := runTo_cSize (fr := fr) (t2.drop v2.toNat) ({ a with acc := acc2, phase := .adjustment, out := a.out ++ List.zipWith (· + ·) (t1.take v1.toNat) (fr.drop a.pos.toNat) ++ t2.take v2.toNat, pos := a.pos + v1.toNat, toOffset := a.toOffset + v1.toNat + v2.toNat, left := 0 } : SeqA) (by rfl) hf2
  cases hc3 : cSize (t2.drop v2.toNat) with
  | none => rw [hc3] at h3; rw [h3] at h; cases h
  | some p =>
  obtain ⟨v3, t3⟩ := p
  rw [hc3] at h3
  obtain ⟨acc3, hf3, h3⟩ := h3
  obtain ⟨_, _, o3⟩ := cSize_bound hc3
  rw [h3] at h
  simp only [SeqA.onSize] at h
  by_cases hb3 : a.pos + v1.toNat + v3 < 0 ∨ 2 ^ 31 ≤ a.pos + v1.toNat + v3
  · rw [if_pos hb3, runTo_failed rfl] at h; cases h
  rw [if_neg hb3] at h
  obtain ⟨k1, u1, q1⟩ := cSize_iff.1 hc1
  obtain ⟨k2, u2, q2⟩ := cSize_iff.1 hc2
  obtain ⟨k3, u3, q3⟩ := cSize_iff.1 hc3
  have hdl2 : (t2.drop v2.toNat).length = t2.length - v2.toNat := by simp
  refine ⟨⟨v1, t1.take v1.toNat, v2, t2.take v2.toNat, v3, k1, k2, k3⟩, t1.drop v1.toNat, t2.drop v2.toNat, t3, acc3,
    ⟨by show 0 ≤ v1; omega, by show 0 ≤ v2; omega, q1, q2, q3⟩, ?_, ?_, hl1, ?_, ?_, hl2, u3, ?_, ?_, ?_, hf3, by omega, ?_⟩
  · rw [List.take_append_drop]; exact u1
  · show v1 ≤ _; omega
  · rw [List.take_append_drop]; exact u2
  · show ((t1.take v1.toNat).length : Int) + v2 ≤ _; omega
  · intro hne
    show a.pos + ((t1.take v1.toNat).length : Int) ≤ _
    rw [hl1]
    apply hd2
    intro hz
    apply hne
    show t1.take v1.toNat = []
    rw [hz]; rfl
  · show 0 ≤ a.pos + ((t1.take v1.toNat).length : Int) + v3
    rw [hl1]; omega
  · show a.pos + ((t1.take v1.toNat).length : Int) + v3 < _
    rw [hl1]; omega
  · rw [← h]
    simp only [afterRec, hl1, hl2]

omit [NoLzma] [Build] in
theorem runTo_record_mpr {fr : Bytes} {x : Bytes} {a : SeqA} (hp : a.phase = .diffSize) (ha : a.acc.state = .first)
    (ho : a.toOffset ≤ a.toSize) (hs : a.toSize < 2 ^ 62) (h0 : 0 ≤ a.pos)
    {rc : Rec} {b1 b2 b3 : Bytes} (hsm : rc.Small)
    (g1 : unpackSizeWithLength x = .ok (rc.diffSize, rc.diffLen, rc.diff ++ b1))
    (g2 : rc.diffSize ≤ (a.toSize : Int) - a.toOffset) (g3 : rc.diff.length = rc.diffSize.toNat)
    (g4 : unpackSizeWithLength b1 = .ok (rc.extraSize, rc.extraLen, rc.extra ++ b2))
    (g5 : rc.diff.length + rc.extraSize ≤ (a.toSize : Int) - a.toOffset) (g6 : rc.extra.length = rc.extraSize.toNat)
    (g7 : unpackSizeWithLength b2 = .ok (rc.adjustment, rc.adjLen, b3))
    (g8 : rc.diff ≠ [] → a.pos + rc.diff.length ≤ fr.length)
    (g9 : 0 ≤ a.pos + rc.diff.length + rc.adjustment) (g10 : a.pos + rc.diff.length + rc.adjustment < 2 ^ 31) :
    ∃ acc, acc.state = .first ∧ runTo fr a x = runTo fr (afterRec a fr rc acc) b3 := by
  obtain ⟨s1, s2, s3, s4, s5⟩ := hsm
  have hc1 : cSize x = some (rc.diffSize, rc.diff ++ b1) := cSize_iff.2 ⟨_, g1, s3⟩
  have hc2 : cSize b1 = some (rc.extraSize, rc.extra ++ b2) := cSize_iff.2 ⟨_, g4, s4⟩
  have hc3 : cSize b2 = some (rc.adjustment, b3) := cSize_iff.2 ⟨_, g7, s5⟩
  obtain ⟨_, m2, _⟩ := cSize_bound hc1
  obtain ⟨_, n2, _⟩ := cSize_bound hc2
  have h1 := runTo_cSize (fr := fr) x a (by rw [hp]; rfl) ha
  rw [hc1] at h1
  obtain ⟨acc1, hf1, h1⟩ := h1
  rw [h1]
  simp only [SeqA.onSize, hp]
  have hz1 := szOfInt_nonneg (v := rc.diffSize) s1 m2
  rw [if_neg (by rw [tooBig_nonneg s1 m2 (by omega)]; omega)]
  obtain ⟨q1, q2, q3⟩ := take_of_split (x := rc.diff ++ b1) rfl g3
  have d1 := runTo_diff (fr := fr) (a := { a with acc := acc1, phase := .diffData, left := szOfInt rc.diffSize }) (rc.diff ++ b1) rc.diffSize.toNat rfl h0 hz1
  rw [if_pos] at d1
  rotate_left
  · refine ⟨q3, fun hn => ?_⟩
    rw [← g3]
    apply g8
    intro h
    rw [h] at g3
    exact hn g3.symm
  rw [d1, q1, q2]
  have h2 := runTo_cSize (fr := fr) b1 _ (by rfl) (by exact hf1 : ({ a with acc := acc1, phase := .extraSize, out := a.out ++ List.zipWith (· + ·) rc.diff (fr.drop a.pos.toNat), pos := a.pos + rc.diffSize.toNat, toOffset := if rc.diffSize.toNat = 0 then a.toOffset else sz (a.toOffset + rc.diffSize.toNat), left := 0 } : SeqA).acc.state = .first)
  rw [hc2] at h2
  obtain ⟨acc2, hf2, h2⟩ := h2
  rw [h2]
  have hto : (if rc.diffSize.toNat = 0 then a.toOffset else sz (a.toOffset + rc.diffSize.toNat)) = a.toOffset + rc.diffSize.toNat := by
    split
    · omega
    · unfold sz; omega
  rw [hto]
  simp only [SeqA.onSize]
  have hz2 := szOfInt_nonneg (v := rc.extraSize) s2 n2
  rw [if_neg (by rw [tooBig_nonneg s2 n2 (by omega)]; omega)]
  obtain ⟨r1, r2, r3⟩ := take_of_split (x := rc.extra ++ b2) rfl g6
  have e1 := runTo_extra (fr := fr) (a := { a with acc := acc2, phase := .extraData, out := a.out ++ List.zipWith (· + ·) rc.diff (fr.drop a.pos.toNat), pos := a.pos + rc.diffSize.toNat, toOffset := a.toOffset + rc.diffSize.toNat, left := szOfInt rc.extraSize }) (rc.extra ++ b2) rc.extraSize.toNat rfl hz2
  rw [if_pos r3] at e1
  rw [e1, r1, r2]
  have hto2 : (if rc.extraSize.toNat = 0 then a.toOffset + rc.diffSize.toNat else sz (a.toOffset + rc.diffSize.toNat + rc.extraSize.toNat)) = a.toOffset + rc.diffSize.toNat + rc.extraSize.toNat := by
    split
    · omega
    · unfold sz; omega
  simp only [hto2]
  have h3 := runTo_cSize (fr := fr) b2 ({ a with acc := acc2, phase := .adjustment, out := a.out ++ List.zipWith (· + ·) rc.diff (fr.drop a.pos.toNat) ++ rc.extra, pos := a.pos + rc.diffSize.toNat, toOffset := a.toOffset + rc.diffSize.toNat + rc.extraSize.toNat, left := 0 } : SeqA) (by rfl) hf2
  rw [hc3] at h3
  obtain ⟨acc3, hf3, h3⟩ := h3
  refine ⟨acc3, hf3, ?_⟩
  rw [h3]
  simp only [SeqA.onSize]
  rw [if_neg (by rw [← g3]; omega)]
  simp only [afterRec, g3, g6]

omit [NoLzma] [Build] in
theorem runTo_records_mp (fr : Bytes) : ∀ (n : Nat) (x : Bytes) (a : SeqA), x.length ≤ n → a.phase = .diffSize → a.acc.state = .first →
    a.toOffset < a.toSize → a.toSize < 2 ^ 62 → 0 ≤ a.pos → x.length < 2 ^ 62 →
    ∀ {r rest}, runTo fr a x = some (r, rest) →
    ∃ recs out, Recs (a.toSize - a.toOffset) x recs rest ∧ (∀ rc ∈ recs, rc.Small) ∧ (∀ q ∈ seeks a.pos recs, q < 2 ^ 31) ∧
      rebuild false fr a.pos.toNat recs = some out ∧ r.out = a.out ++ out ∧ r.toSize = a.toSize := by
  intro n
  induction n with
  | zero =>
    intro x a hn hp ha ho hs h0 hx r rest h
    have : x = [] := List.length_eq_zero_iff.1 (by omega)
    subst this
    rw [runTo_nil (by rw [hp]; intro h; cases h)] at h
    cases h
  | succ n ih =>
    intro x a hn hp ha ho hs h0 hx r rest h
    obtain ⟨rc, b1, b2, b3, acc, hsm, g1, g2, g3, g4, g5, g6, g7, g8, g9, g10, hacc, hlt, hrun⟩ :=
      runTo_record_mp hp ha (by omega) hs h0 hx h
    have hex : (rc.extra.length : Int) = rc.extraSize := by have := hsm.2.1; omega
    have hreb : ∀ recs out, rebuild false fr (a.pos + rc.diff.length + rc.adjustment).toNat recs = some out →
        rebuild false fr a.pos.toNat (rc :: recs) = some (List.zipWith (· + ·) rc.diff (fr.drop a.pos.toNat) ++ rc.extra ++ out) := by
      intro recs out hr
      have ep : (a.pos.toNat : Int) = a.pos := by omega
      rw [rebuild, if_neg, if_neg, ep, hr]
      · rfl
      · rw [ep]; omega
      · rintro ⟨q1, q2⟩
        have := g8 q1
        omega
    have hrec : ∀ recs, Recs (a.toSize - a.toOffset - rc.diff.length - rc.extra.length) b3 recs rest →
        Recs (a.toSize - a.toOffset) x (rc :: recs) rest := fun recs hr => .record (by omega) g1 g2 g3 g4 g5 g6 g7 hr
    by_cases hd : a.toOffset + rc.diff.length + rc.extra.length = a.toSize
    · have hph : (afterRec a fr rc acc).phase = .done := by simp [afterRec, hd]
      rw [runTo_done hph] at hrun
      cases hrun
      refine ⟨[rc], List.zipWith (· + ·) rc.diff (fr.drop a.pos.toNat) ++ rc.extra, hrec [] (.done (by omega)), ?_, ?_, ?_, ?_, rfl⟩
      · intro rc' h'
        simp only [List.mem_singleton] at h'
        subst h'; exact hsm
      · intro q h'
        simp only [seeks, List.mem_singleton] at h'
        subst h'; exact g10
      · simpa using hreb [] [] rfl
      · simp [afterRec]
    · have hph : (afterRec a fr rc acc).phase = .diffSize := by simp [afterRec, hd]
      obtain ⟨recs, out, i1, i2, i3, i4, i5, i6⟩ := ih b3 (afterRec a fr rc acc) (by omega) hph hacc
        (by show a.toOffset + rc.diff.length + rc.extra.length < a.toSize; omega) hs (by exact g9) (by omega) hrun
      refine ⟨rc :: recs, List.zipWith (· + ·) rc.diff (fr.drop a.pos.toNat) ++ rc.extra ++ out, hrec recs ?_, ?_, ?_, hreb recs out i4, ?_, i6⟩
      · have e : (a.toSize : Int) - a.toOffset - rc.diff.length - rc.extra.length = (afterRec a fr rc acc).toSize - ((afterRec a fr rc acc).toOffset : Nat) := by
          simp only [afterRec]; omega
        rw [e]; exact i1
      · intro rc' h'
        rcases List.mem_cons.1 h' with rfl | h'
        · exact hsm
        · exact i2 _ h'
      · intro q h'
        simp only [seeks, List.mem_cons] at h'
        rcases h' with rfl | h'
        · exact g10
        · exact i3 q h'
      · rw [i5]
        simp [afterRec]

omit [NoLzma] [Build] in
theorem Rec.Small.extra_len {rc : Rec} (h : rc.Small) (hl : rc.extra.length = rc.extraSize.toNat) : (rc.extra.length : Int) = rc.extraSize := by
  have := h.2.1; omega

omit [NoLzma] [Build] in
theorem runTo_records_mpr (fr : Bytes) : ∀ (recs : List Rec) (x : Bytes) (a : SeqA), a.phase = .diffSize → a.acc.state = .first →
    a.toOffset < a.toSize → a.toSize < 2 ^ 62 → 0 ≤ a.pos →
    ∀ {rest out}, Recs (a.toSize - a.toOffset) x recs rest → (∀ rc ∈ recs, rc.Small) → (∀ q ∈ seeks a.pos recs, q < 2 ^ 31) →
      rebuild false fr a.pos.toNat recs = some out →
      ∃ r, runTo fr a x = some (r, rest) ∧ r.out = a.out ++ out ∧ r.toSize = a.toSize := by
  intro recs
  induction recs with
  | nil =>
    intro x a hp ha ho hs h0 rest out h
    cases h with
    | done h => omega
  | cons rc recs ih =>
    intro x a hp ha ho hs h0 rest out h hsm hsk hreb
    cases h with
    | @record _ _ b1 b2 b3 _ _ _ g0 g1 g2 g3 g4 g5 g6 g7 g8 =>
      have hsm1 := hsm rc (by simp)
      have hex := hsm1.extra_len g6
      have hsk1 := hsk (a.pos + rc.diff.length + rc.adjustment) (by simp [seeks])
      have ep : (a.pos.toNat : Int) = a.pos := by omega
      rw [rebuild] at hreb
      split at hreb
      · cases hreb
      rename_i hq1
      split at hreb
      · cases hreb
      rename_i hq2
      rw [ep] at hreb hq2
      have g9 : 0 ≤ a.pos + rc.diff.length + rc.adjustment := by
        rcases Int.lt_or_le (a.pos + rc.diff.length + rc.adjustment) 0 with h | h
        · exact absurd ⟨h, rfl⟩ hq2
        · exact h
      have gfr : rc.diff ≠ [] → a.pos + rc.diff.length ≤ fr.length := by
        intro hne
        have : ¬ fr.length < a.pos.toNat + rc.diff.length := fun h => hq1 ⟨hne, h⟩
        omega
      obtain ⟨acc, hacc, hrun⟩ := runTo_record_mpr hp ha (by omega) hs h0 hsm1 g1 g2 g3 g4 g5 g6 g7 gfr g9 hsk1
      cases hr : rebuild false fr (a.pos + rc.diff.length + rc.adjustment).toNat recs with
      | none => rw [hr] at hreb; cases hreb
      | some out' =>
        rw [hr] at hreb
        simp only [Option.map_some, Option.some.injEq] at hreb
        rw [hrun]
        by_cases hd : a.toOffset + rc.diff.length + rc.extra.length = a.toSize
        · have hph : (afterRec a fr rc acc).phase = .done := by simp [afterRec, hd]
          have hz : (a.toSize : Int) - a.toOffset - rc.diff.length - rc.extra.length = 0 := by omega
          rw [hz] at g8
          cases g8 with
          | record h => omega
          | done _ =>
            cases hr
            refine ⟨_, runTo_done hph _, ?_, rfl⟩
            rw [← hreb]
            simp [afterRec]
        · have hph : (afterRec a fr rc acc).phase = .diffSize := by simp [afterRec, hd]
          have e : (a.toSize : Int) - a.toOffset - rc.diff.length - rc.extra.length = (afterRec a fr rc acc).toSize - ((afterRec a fr rc acc).toOffset : Nat) := by
            simp only [afterRec]; omega
          rw [e] at g8
          obtain ⟨r, i1, i2, i3⟩ := ih b3 (afterRec a fr rc acc) hph hacc
            (by show a.toOffset + rc.diff.length + rc.extra.length < a.toSize; omega) hs (by exact g9) g8
            (fun rc' h' => hsm rc' (by simp [h'])) (fun q h' => hsk q (by simp only [seeks, List.mem_cons]; exact .inr h')) hr
          refine ⟨r, i1, ?_, i3⟩
          rw [i2, ← hreb]
          simp [afterRec]

omit [NoLzma] [Build] in
/-- A whole body. -/
theorem runTo_body (fr : Bytes) (v : Nat) (hv : v < 2 ^ 62) (h0 : 0 < v) (body : Bytes) (hb : body.length < 2 ^ 62) (rest : Bytes) :
    (∀ r, runTo fr (startA v) body = some (r, rest) → r.toSize = v ∧ CBodyMeans fr v body r.out rest) ∧
    (∀ out, CBodyMeans fr v body out rest → ∃ r, runTo fr (startA v) body = some (r, rest) ∧ r.out = out ∧ r.toSize = v) := by
  have hph : (startA v).phase = .dfpatchSize := by simp [startA, h0]
  have h1 := runTo_cSize (fr := fr) body (startA v) (by rw [hph]; rfl) rfl
  constructor
  · intro r h
    cases hc : cSize body with
    | none => rw [hc] at h1; rw [h1] at h; cases h
    | some p =>
      obtain ⟨d, b⟩ := p
      rw [hc] at h1
      obtain ⟨acc, hf, h1⟩ := h1
      obtain ⟨_, _, hlt⟩ := cSize_bound hc
      rw [h1] at h
      simp only [SeqA.onSize, hph] at h
      by_cases hd : d > 0
      · rw [if_pos hd, runTo_failed rfl] at h; cases h
      · rw [if_neg hd] at h
        obtain ⟨recs, out, i1, i2, i3, i4, i5, i6⟩ := runTo_records_mp fr b.length b _ (Nat.le_refl _) (by rfl) (by exact hf) (by exact h0) (by exact hv) (by exact Int.le_refl 0) (by omega) h
        obtain ⟨k, u1, u2⟩ := cSize_iff.1 hc
        refine ⟨i6, d, k, b, recs, u1, by omega, u2, ?_, i2, i3, ?_⟩
        · simpa [startA] using i1
        · rw [i5]
          simpa [startA] using i4
  · rintro out ⟨d, k, b, recs, u1, hd, u2, i1, i2, i3, i4⟩
    have hc : cSize body = some (d, b) := cSize_iff.2 ⟨k, u1, u2⟩
    rw [hc] at h1
    obtain ⟨acc, hf, h1⟩ := h1
    rw [h1]
    simp only [SeqA.onSize, hph]
    rw [if_neg (by omega)]
    obtain ⟨r, j1, j2, j3⟩ := runTo_records_mpr fr recs b { startA v with acc := acc, phase := .diffSize } rfl hf (by exact h0) (by exact hv) (by exact Int.le_refl 0) (by simpa [startA] using i1) i2 i3 i4
    exact ⟨r, j1, by simpa [startA] using j2, j3⟩

end Detools
