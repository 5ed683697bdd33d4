import Verif.Proofs.HsMean
import Verif.Proofs.HsReader
import Verif.Proofs.CDecodes
/-
The heatshrink patch reader in front of a consumer: exactly which streams are accepted.
-/
namespace Detools

variable [Build]

/-- The consumer gets done on a beginning of the bytes; `z` is left. -/
inductive Eats (S : Sink) : S.A → Bytes → S.A → Bytes → Prop
  | done {a x} : S.done a → Eats S a x a x
  | step {a b x res z} : ¬ S.done a → Eats S (S.step a (.byte b)) x res z → Eats S a (b :: x) res z

omit [Build] in
theorem Eats.suffix {S : Sink} {a x res z} (h : Eats S a x res z) : ∃ y, x = y ++ z := by
  induction h with
  | done => exact ⟨[], rfl⟩
  | @step a b _ _ _ _ _ ih => obtain ⟨y, rfl⟩ := ih; exact ⟨b :: y, rfl⟩

omit [Build] in
theorem eats_done {S : Sink} {a x res z} (hd : S.done a) : Eats S a x res z ↔ res = a ∧ z = x := by
  constructor
  · intro h
    cases h with
    | done => exact ⟨rfl, rfl⟩
    | step h => exact absurd hd h
  · rintro ⟨rfl, rfl⟩; exact .done hd

omit [Build] in
theorem eats_cons {S : Sink} {a b x res z} (hd : ¬ S.done a) : Eats S a (b :: x) res z ↔ Eats S (S.step a (.byte b)) x res z := by
  constructor
  · intro h
    cases h with
    | done h => exact absurd h hd
    | step _ h => exact h
  · exact .step hd

omit [Build] in
theorem eats_nil {S : Sink} {a res z} (hd : ¬ S.done a) : ¬ Eats S a [] res z := by
  intro h
  cases h with
  | done h => exact hd h

omit [Build] in
theorem eats_runTo (fr : Bytes) : ∀ (x : Bytes) (a res : SeqA) (z : Bytes), Eats (seqSink fr) a x res z ↔ runTo fr a x = some (res, z) := by
  intro x
  induction x with
  | nil =>
    intro a res z
    by_cases hd : a.phase = .done
    · rw [eats_done hd, runTo_done hd]
      simp only [Option.some.injEq, Prod.mk.injEq, eq_comm]
    · rw [runTo_nil hd]
      exact iff_of_false (eats_nil hd) nofun
  | cons b x ih =>
    intro a res z
    by_cases hd : a.phase = .done
    · rw [eats_done hd, runTo_done hd]
      simp only [Option.some.injEq, Prod.mk.injEq, eq_comm]
    · rw [eats_cons hd, runTo_cons hd]
      exact ih _ _ _

omit [Build] in
theorem eats_expect : ∀ x : Bytes, Eats expectSink (some x) x (some []) [] := by
  intro x
  induction x with
  | nil => exact .done rfl
  | cons b x ih =>
    refine .step (by simp) ?_
    rw [show expectSink.step (some (b :: x)) (.byte b) = some x from if_pos rfl]
    exact ih

/-! ### Parsing -/

omit [Build] in
theorem HsSym.expand_pos {w l : Nat} {s : HsSym} (h : s.Fits w l) (hist : Bytes) : 1 ≤ (s.expand hist).length := by
  cases s with
  | literal => simp [HsSym.expand]
  | backref d n => simp only [HsSym.expand, copyBack_length]; exact h.2.2.1

omit [Build] in
theorem HsSym.bits_pos {w l : Nat} (s : HsSym) : 1 ≤ (s.bits w l).length := by
  cases s <;> simp [HsSym.bits]

omit [Build] in
/-- Every bit string parses. -/
theorem hsParses_exists (w l : Nat) : ∀ (n : Nat) (bits : List Bool), bits.length ≤ n → ∃ syms, HsParses w l bits syms := by
  intro n
  induction n with
  | zero =>
    intro bits hn
    have : bits = [] := List.length_eq_zero_iff.1 (by omega)
    subst this
    refine ⟨[], by simp, [], rfl, ?_⟩
    intro s rest _ h
    have := congrArg List.length h
    have := s.bits_pos (w := w) (l := l)
    simp at *
    omega
  | succ n ih =>
    intro bits hn
    by_cases h : HsIncomplete w l bits
    · exact ⟨[], by simp, bits, rfl, h⟩
    · have : ∃ (s : HsSym) (rest : List Bool), s.Fits w l ∧ bits = s.bits w l ++ rest := by
        refine Classical.byContradiction fun hn => h ?_
        intro s rest hf he
        exact hn ⟨s, rest, hf, he⟩
      obtain ⟨s, rest, hf, rfl⟩ := this
      obtain ⟨syms, h1, t, h2, h3⟩ := ih rest (by
        have := s.bits_pos (w := w) (l := l)
        rw [List.length_append] at hn
        omega)
      refine ⟨s :: syms, ?_, t, ?_, h3⟩
      · intro s' hs'
        rcases List.mem_cons.1 hs' with rfl | h
        · exact hf
        · exact h1 s' h
      · rw [h2]; simp

omit [Build] in
theorem hsExpand_prefix {a b : List HsSym} (h : a <+: b) : hsExpand [] a <+: hsExpand [] b := by
  obtain ⟨t, rfl⟩ := h
  rw [hsExpand_append]
  exact List.prefix_append _ _

omit [Build] in
theorem hsExpand_length_lt {w l : Nat} {a b : List HsSym} (hf : ∀ s ∈ b, s.Fits w l) (h : a <+: b) (hl : a.length < b.length) :
    (hsExpand [] a).length < (hsExpand [] b).length := by
  obtain ⟨t, rfl⟩ := h
  cases t with
  | nil => simp at hl
  | cons s t =>
    rw [hsExpand_append, hsExpand]
    have := HsSym.expand_pos (hf s (by simp)) ([] ++ hsExpand [] a)
    simp only [List.length_append]
    omega

omit [Build] in
/-- Of two beginnings of the symbols, the one that means less is shorter. -/
theorem hsExpand_prefix_of_lt {w l : Nat} {a b S : List HsSym} (hf : ∀ s ∈ S, s.Fits w l) (ha : a <+: S) (hb : b <+: S)
    (h : (hsExpand [] a).length < (hsExpand [] b).length) : a <+: b ∧ a.length < b.length := by
  rcases Nat.lt_or_ge a.length b.length with hl | hl
  · exact ⟨List.prefix_of_prefix_length_le ha hb (by omega), hl⟩
  · have := (hsExpand_prefix (List.prefix_of_prefix_length_le hb ha hl)).length_le
    omega

omit [Build] in
/-- A parse of the beginning. -/
theorem HsParses.prefix_of {w l : Nat} {bits more : List Bool} {S0 S : List HsSym} (h0 : HsParses w l bits S0)
    (h : HsParses w l (bits ++ more) S) : S0 <+: S := by
  obtain ⟨h1, t, rfl, _⟩ := h0
  obtain ⟨g1, T, g2, g3⟩ := h
  obtain ⟨S', rfl, _⟩ := hsParse_prefix h1 g1 g3 (by rw [← g2, List.append_assoc])
  exact List.prefix_append _ _

omit [Build] in
/-- Symbols that go beyond a parse need more bits than were parsed. -/
theorem HsParses.beyond {w l : Nat} {prev more : List Bool} {S0 syms : List HsSym} {rest : List Bool} (h0 : HsParses w l prev S0)
    (hf : ∀ s ∈ syms, s.Fits w l) (he : prev ++ more = syms.flatMap (·.bits w l) ++ rest) (hp : S0 <+: syms) (hl : S0.length < syms.length) :
    prev.length < (syms.flatMap (·.bits w l)).length := by
  obtain ⟨t, rfl⟩ := hp
  cases t with
  | nil => simp at hl
  | cons s t =>
    obtain ⟨h1, tail, rfl, h3⟩ := h0
    simp only [List.flatMap_append, List.flatMap_cons, List.append_assoc, List.append_cancel_left_eq] at he
    rcases Nat.lt_or_ge tail.length (s.bits w l).length with hlt | hge
    · simp only [List.flatMap_append, List.flatMap_cons, List.length_append]; omega
    · exfalso
      have : s.bits w l <+: tail := by
        refine List.prefix_of_prefix_length_le (l₃ := tail ++ more) ?_ (List.prefix_append _ _) hge
        rw [he]; exact List.prefix_append _ _
      obtain ⟨r, rfl⟩ := this
      exact h3 s r (hf s (by simp)) rfl

/-! ### The reader -/

omit [Build] in
theorem hs_case {h : Hsd} {bits hist} (hi : HInv hsStatic h) (hm : HsMean hsStatic bits hist h) :
    (∃ b h', rNext (.heatshrink (some h), none) = some (.byte b, (.heatshrink (some h'), none)) ∧ HInv hsStatic h' ∧
      HsMean hsStatic bits (hist ++ [b]) h') ∨
    (rNext (.heatshrink (some h), none) = none ∧ (∃ S0, HsParses 8 7 bits S0 ∧ hist = hsExpand [] S0) ∧
      ∀ c, ∃ h', rFeed (.heatshrink (some h), none) c = some (.heatshrink (some h'), none) ∧ HInv hsStatic h' ∧
        HsMean hsStatic (bits ++ bytesBits [c]) hist h') := by
  obtain ⟨h1, d, e1, e2⟩ := hsPoll_run hsStatic_ok hi 1
  obtain ⟨g1, g2, _, g4, _⟩ := e2.inv hsStatic_ok hi
  match d, g2 with
  | [b], _ => exact .inl ⟨b, h1, hsNext_some hi e2, g1, hm.run hsStatic_ok e2 hi⟩
  | [], _ =>
    right
    obtain ⟨f1, f2⟩ := hsNext_none hi e2
    have hm1 := hm.run hsStatic_ok e2 hi
    rw [List.append_nil] at hm1
    have hs := g4 (by simp)
    refine ⟨f1, hm1.stuck hsStatic_ok g1 hs, ?_⟩
    intro c
    obtain ⟨h2, k1, k2, k3, k4⟩ := hsSink_spec hsStatic_ok g1 ((hsMicro_spec hsStatic_ok g1).1 hs).1 c
    refine ⟨h2, ?_, k2, hm1.sunk _ (by rw [k3]; simp [bytesBits_eq]) k4⟩
    rw [f2, k1]
    rfl

/-- What was fed last is one byte. -/
def LastByte (bits : List Bool) (hist : Bytes) : Prop :=
  ∃ prev last S0, bits = prev ++ last ∧ last.length ≤ 8 ∧ HsParses 8 7 prev S0 ∧ hsExpand [] S0 <+: hist

def LastByteUsed (bits : List Bool) (hist : Bytes) : Prop :=
  ∃ prev last S0, bits = prev ++ last ∧ last.length ≤ 8 ∧ HsParses 8 7 prev S0 ∧ hsExpand [] S0 <+: hist ∧ (hsExpand [] S0).length < hist.length

omit [Build] in
/-- A decoder that has output something of the last byte agrees to be destroyed exactly
at the end of a symbol. -/
theorem hs_destroy {h : Hsd} {bits more hist} (hi : HInv hsStatic h) (hm : HsMean hsStatic bits hist h) (hl : LastByteUsed bits hist)
    {S : List HsSym} (hp : HsParses 8 7 (bits ++ more) S) :
    (CReader.heatshrink (some h)).destroy = 0 ↔ ∃ S1, S1 <+: S ∧ hsExpand [] S1 = hist := by
  obtain ⟨prev, last, S0, rfl, hlast, h0, hpre, hlt⟩ := hl
  obtain ⟨syms, cons, h1, h2, h3, h4, h5⟩ := hm
  have h1 : ∀ s ∈ syms, s.Fits 8 7 := h1
  have h2 : prev ++ last = syms.flatMap (·.bits 8 7) ++ (cons ++ hsBits h) := h2
  have hsyms : syms <+: S := by
    obtain ⟨g1, T, g2, g3⟩ := hp
    obtain ⟨S', rfl, _⟩ := hsParse_prefix h1 g1 g3 (by rw [← g2, h2, List.append_assoc])
    exact List.prefix_append _ _
  have hS0 : S0 <+: S := h0.prefix_of (by rw [List.append_assoc] at hp; exact hp)
  have hle : hist.length ≤ (hsExpand [] syms).length := by
    split at h5
    · rw [← h5.2.2]; simp
    · rw [h5]; exact Nat.le_refl _
  have hb := h0.beyond (more := last) h1 h2 (hsExpand_prefix_of_lt hp.1 hS0 hsyms (by omega)).1 (hsExpand_prefix_of_lt hp.1 hS0 hsyms (by omega)).2
  have hlen := congrArg List.length h2
  simp only [List.length_append] at hlen
  have hin : h.inputSize = 0 := by
    have := hsBits_length hi.toHIn
    rcases hi.idx with g | g
    · omega
    · exact g.2
  by_cases hst : h.state = .yieldBackref
  · have hd : (CReader.heatshrink (some h)).destroy ≠ 0 := by
      simp only [CReader.destroy, hsFinish, hst]; decide
    refine iff_of_false hd ?_
    rintro ⟨S1, p1, rfl⟩
    rw [if_pos hst] at h5
    have hn := (hi.br hst).1
    have hl1 : (hsExpand [] S1).length < (hsExpand [] syms).length := by
      rw [← h5.2.2, List.length_append, copyBack_length]
      omega
    obtain ⟨⟨t, rfl⟩, q2⟩ := hsExpand_prefix_of_lt hp.1 p1 hsyms hl1
    obtain ⟨q3, q4⟩ := hsExpand_prefix_of_lt hp.1 hS0 p1 hlt
    have hb1 := h0.beyond (more := last) (syms := S1) (fun s hs => h1 s (by simp [hs])) (by
      rw [h2, List.flatMap_append, List.append_assoc]) q3 q4
    have hlt2 : t ≠ [] := by rintro rfl; simp at q2
    rw [List.flatMap_append, List.length_append] at hlen
    cases t with
    | nil => exact hlt2 rfl
    | cons s t =>
      have : 9 ≤ (s.bits 8 7).length := by cases s <;> simp [HsSym.bits, numBits_length]
      rw [List.flatMap_cons, List.length_append] at hlen
      omega
  · rw [if_neg hst] at h5
    have hd : (CReader.heatshrink (some h)).destroy = 0 := by
      simp only [CReader.destroy, hsFinish]
      cases hs : h.state <;> simp_all
    exact iff_of_true hd ⟨syms, hsyms, h5.symm⟩

omit [Build] in
theorem LastByteUsed.last {bits hist} (h : LastByteUsed bits hist) : LastByte bits hist := by
  obtain ⟨prev, last, S0, h1, h2, h3, h4, _⟩ := h
  exact ⟨prev, last, S0, h1, h2, h3, h4⟩

omit [Build] in
theorem LastByte.emit {bits hist} (h : LastByte bits hist) (b : UInt8) : LastByteUsed bits (hist ++ [b]) := by
  obtain ⟨prev, last, S0, h1, h2, h3, h4⟩ := h
  refine ⟨prev, last, S0, h1, h2, h3, h4.trans (List.prefix_append _ _), ?_⟩
  have := h4.length_le
  simp only [List.length_append, List.length_cons]
  omega

omit [Build] in
/-- The decoder in front of a consumer: the input is accepted exactly if the consumer gets
done at the end of a symbol. -/
theorem hs_exact (K : Sink) (S : List HsSym) (res : K.A) : ∀ (x rem : Bytes) (h : Hsd) (bits : List Bool) (hist : Bytes) (a : K.A),
    HInv hsStatic h → HsMean hsStatic bits hist h → LastByte bits hist → (K.done a → LastByteUsed bits hist) →
    HsParses 8 7 (bits ++ bytesBits x) S → hsExpand [] S = hist ++ rem →
    (Succ K (.heatshrink (some h), none) a x res ↔
      ∃ z S1, Eats K a rem res z ∧ S1 <+: S ∧ hsExpand [] S1 ++ z = hsExpand [] S) := by
  intro x
  induction x with
  | nil =>
    intro rem
    induction rem with
    | nil =>
      intro h bits hist a hi hm hl hu hp he
      by_cases hd : K.done a
      · rw [succ_done hd, hs_destroy hi hm (hu hd) hp]
        constructor
        · rintro ⟨rfl, S1, p1, p2⟩
          exact ⟨[], S1, .done hd, p1, by rw [p2, he]⟩
        · rintro ⟨z, S1, p1, p2, p3⟩
          obtain ⟨rfl, rfl⟩ := (eats_done hd).1 p1
          exact ⟨rfl, S1, p2, by rw [he] at p3; simpa using p3⟩
      · refine iff_of_false ?_ (fun ⟨z, S1, p1, _⟩ => eats_nil hd p1)
        rcases hs_case hi hm with ⟨b, h', k1, k2, k3⟩ | ⟨k1, _⟩
        · have := (k3.prefix (S := S) (show HsParses 8 7 bits S by simpa [bytesBits] using hp)).length_le
          rw [he] at this
          simp at this
          omega
        · exact succ_nil hd k1
    | cons b rem ih =>
      intro h bits hist a hi hm hl hu hp he
      by_cases hd : K.done a
      · rw [succ_done hd, hs_destroy hi hm (hu hd) hp]
        constructor
        · rintro ⟨rfl, S1, p1, p2⟩
          exact ⟨_, S1, .done hd, p1, by rw [p2, he]⟩
        · rintro ⟨z, S1, p1, p2, p3⟩
          obtain ⟨rfl, rfl⟩ := (eats_done hd).1 p1
          exact ⟨rfl, S1, p2, by rw [he] at p3; simpa using p3⟩
      · rcases hs_case hi hm with ⟨b', h', k1, k2, k3⟩ | ⟨k1, ⟨S0, k2, k3⟩, _⟩
        · have hpre := k3.prefix (S := S) (show HsParses 8 7 bits S by simpa [bytesBits] using hp)
          rw [he] at hpre
          have hb : b' = b := by
            rw [List.prefix_append_right_inj] at hpre
            obtain ⟨t, ht⟩ := hpre
            simp at ht
            exact ht.1
          subst hb
          rw [succ_next hd k1, ih h' bits (hist ++ [b']) _ k2 k3 (hl.emit b').last (fun _ => hl.emit b') hp (by rw [he]; simp)]
          simp only [eats_cons hd]
        · have := k2.unique (by simpa [bytesBits] using hp)
          subst this
          rw [k3] at he
          simp at he
  | cons c x ihx =>
    intro rem
    induction rem with
    | nil =>
      intro h bits hist a hi hm hl hu hp he
      by_cases hd : K.done a
      · rw [succ_done hd, hs_destroy hi hm (hu hd) hp]
        constructor
        · rintro ⟨rfl, S1, p1, p2⟩
          exact ⟨[], S1, .done hd, p1, by rw [p2, he]⟩
        · rintro ⟨z, S1, p1, p2, p3⟩
          obtain ⟨rfl, rfl⟩ := (eats_done hd).1 p1
          exact ⟨rfl, S1, p2, by rw [he] at p3; simpa using p3⟩
      · rcases hs_case hi hm with ⟨b', h', k1, k2, k3⟩ | ⟨k1, ⟨S0, k2, k3⟩, k4⟩
        · obtain ⟨T, hT⟩ := hsParses_exists 8 7 _ bits (Nat.le_refl _)
          have h1 := (k3.prefix hT).length_le
          have h2 := (hsExpand_prefix (hT.prefix_of hp)).length_le
          rw [he] at h2
          simp at h1 h2
          omega
        · obtain ⟨h', f1, f2, f3⟩ := k4 c
          rw [succ_feed hd k1 f1]
          exact ihx _ h' _ hist a f2 f3 ⟨bits, bytesBits [c], S0, rfl, by simp [bytesBits_length], k2, by rw [k3]; exact List.prefix_refl _⟩ (fun h => absurd h hd)
            (by rw [List.append_assoc, ← bytesBits_append]; exact hp) he
    | cons b rem ih =>
      intro h bits hist a hi hm hl hu hp he
      by_cases hd : K.done a
      · rw [succ_done hd, hs_destroy hi hm (hu hd) hp]
        constructor
        · rintro ⟨rfl, S1, p1, p2⟩
          exact ⟨_, S1, .done hd, p1, by rw [p2, he]⟩
        · rintro ⟨z, S1, p1, p2, p3⟩
          obtain ⟨rfl, rfl⟩ := (eats_done hd).1 p1
          exact ⟨rfl, S1, p2, by rw [he] at p3; simpa using p3⟩
      · rcases hs_case hi hm with ⟨b', h', k1, k2, k3⟩ | ⟨k1, ⟨S0, k2, k3⟩, k4⟩
        · obtain ⟨T, hT⟩ := hsParses_exists 8 7 _ bits (Nat.le_refl _)
          have hpre := (k3.prefix hT).trans (hsExpand_prefix (hT.prefix_of hp))
          rw [he] at hpre
          have hb : b' = b := by
            rw [List.prefix_append_right_inj] at hpre
            obtain ⟨t, ht⟩ := hpre
            simp at ht
            exact ht.1
          subst hb
          rw [succ_next hd k1, ih h' bits (hist ++ [b']) _ k2 k3 (hl.emit b').last (fun _ => hl.emit b') hp (by rw [he]; simp)]
          simp only [eats_cons hd]
        · obtain ⟨h', f1, f2, f3⟩ := k4 c
          rw [succ_feed hd k1 f1]
          exact ihx _ h' _ hist a f2 f3 ⟨bits, bytesBits [c], S0, rfl, by simp [bytesBits_length], k2, by rw [k3]; exact List.prefix_refl _⟩ (fun h => absurd h hd)
            (by rw [List.append_assoc, ← bytesBits_append]; exact hp) he

omit [Build] in
theorem hsHeader_iff (b : UInt8) : hsHeader b = (8, 7) ↔ b = 0x44 := by
  revert b
  suffices ∀ n : Fin 256, hsHeader (UInt8.ofNat n.val) = (8, 7) ↔ UInt8.ofNat n.val = 0x44 by
    intro b
    have := this ⟨b.toNat, b.toNat_lt⟩
    simpa using this
  decide +kernel

omit [Build] in
/-- The whole reader, header byte included. -/
theorem hs_reader (K : Sink) {a : K.A} (hd : ¬ K.done a) (b : UInt8) (x : Bytes) {S : List HsSym} (hp : HsParses 8 7 (bytesBits x) S) (res : K.A) :
    Succ K (.heatshrink none, none) a (b :: x) res ↔
      b = 0x44 ∧ ∃ z S1, Eats K a (hsExpand [] S) res z ∧ S1 <+: S ∧ hsExpand [] S1 ++ z = hsExpand [] S := by
  rw [succ_cons hd rfl]
  by_cases hb : b = 0x44
  · have hf : rFeed (.heatshrink none, none) b = some (.heatshrink (some (hsReset hsStatic)), none) := by
      simp only [rFeed]
      exact if_pos ((hsHeader_iff b).2 hb)
    have := hs_exact K S res x (hsExpand [] S) (hsReset hsStatic) [] [] a hsReset_inv (HsMean.reset hsStatic)
      ⟨[], [], [], rfl, by simp, ⟨by simp, [], rfl, by
        intro s rest _ h
        have h := congrArg List.length h
        have := s.bits_pos (w := 8) (l := 7)
        simp at h
        omega⟩, List.prefix_refl _⟩ (fun h => absurd h hd) (by simpa using hp) (by simp)
    rw [← this]
    constructor
    · rintro ⟨r, h1, h2⟩
      rw [hf] at h1
      cases h1
      exact ⟨hb, h2⟩
    · rintro ⟨_, h⟩
      exact ⟨_, hf, h⟩
  · refine iff_of_false ?_ (fun h => hb h.1)
    rintro ⟨r, h1, _⟩
    have : rFeed (.heatshrink none, none) b = none := by
      simp only [rFeed]
      exact if_neg (fun h => hb ((hsHeader_iff b).1 h))
    rw [this] at h1
    cases h1

omit [Build] in
theorem HsEncodes.parses {w l : Nat} {x data : Bytes} (hw : 7 ≤ w + l) (h : HsEncodes w l x data) :
    ∃ S, HsParses w l (bytesBits x) S ∧ hsExpand [] S = data := by
  obtain ⟨S, pad, h1, h2, h3, h4⟩ := h
  refine ⟨S, ⟨h1, pad, h2, ?_⟩, h4⟩
  rintro s rest _ rfl
  rw [List.length_append] at h3
  have : 8 ≤ (s.bits w l).length := by cases s <;> simp [HsSym.bits, numBits_length]; omega
  omega

/-- A heatshrink stream is decoded. -/
theorem decodes_hs {x plain : Bytes} (h : HsEncodes 8 7 x plain) (hne : plain ≠ []) : Decodes (.heatshrink none) (0x44 :: x) plain := by
  obtain ⟨S, h1, rfl⟩ := h.parses (by omega)
  refine (hs_reader expectSink (by simpa using hne) 0x44 x h1 (some [])).2 ⟨rfl, [], S, eats_expect _, List.prefix_refl _, by simp⟩

end Detools
