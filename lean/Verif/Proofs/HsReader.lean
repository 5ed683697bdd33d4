import Verif.Proofs.HsRun
/-
The heatshrink patch reader delivers what the byte-at-a-time meaning says, and the
specification of `decompress` for every reader.
-/
namespace Detools

variable [Build]

theorem backlog_hs {h : Hsd} (hi : HInv hsStatic h) : (CReader.heatshrink (some h)).backlog = hsWork h := by
  simp only [CReader.backlog, hsWork, hsBits_length hi.toHIn, bitsLeft]
  rw [Nat.add_comm (8 * _)]

omit [Build] in
theorem Run.nil_zero {cfg : HsCfg} {n h h'} (hr : Run cfg n h [] h') : Run cfg 0 h [] h' := by
  generalize hd : ([] : Bytes) = d at hr
  induction hr with
  | stuck h => exact .stuck h
  | full h => exact .full h
  | silent g _ ih => subst hd; exact .silent g (ih rfl)
  | emit => cases hd

omit [Build] in
theorem hsReset_inv : HInv hsStatic (hsReset hsStatic) := by
  constructor
  · constructor
    · exact List.length_replicate
    · exact Nat.zero_le _
    · right; exact ⟨rfl, rfl⟩
    · exact ⟨0, by omega, rfl⟩
  · exact List.length_replicate
  · exact Nat.two_pow_pos 16
  all_goals exact nofun

omit [Build] in
/-- Sinking a byte into a decoder with no input. -/
theorem hsSink_spec {cfg : HsCfg} (hcfg : cfg.Ok) {h : Hsd} (hi : HInv cfg h) (h0 : h.inputSize = 0) (b : UInt8) :
    ∃ h', hsSink cfg h [b] = .ok (1, h') ∧ HInv cfg h' ∧ hsBits h' = hsBits h ++ byteBits b ∧
      sameCore h h' := by
  have hi0 : h.inputIndex = 0 := by
    rcases hi.idx with h | h
    · omega
    · exact h.1
  have h1 := hcfg.i1
  have hlen := hi.inp
  unfold hsSink
  simp only [h0, Nat.sub_zero]
  rw [if_neg (by omega)]
  have hmin : min cfg.inputSize [b].length = 1 := by simp; omega
  rw [hmin]
  simp only [List.take_succ_cons, List.take_zero, Bind.bind, Except.bind, Pure.pure, Except.pure]
  rw [writeAt_one (by omega)]
  refine ⟨_, rfl, ?_, ?_, ⟨rfl, rfl, rfl, rfl, rfl⟩⟩
  · refine { inp := ?_, isz := ?_, idx := ?_, bit := hi.bit, win := hi.win, head := hi.head, im := hi.im, cm := hi.cm, cl := hi.cl, br := hi.br }
    · simpa using hlen
    · show 1 ≤ _; exact h1
    · left; show h.inputIndex < 1; omega
  · unfold hsBits
    simp only [h0, hi0]
    show _ ++ (((h.input.set 0 b).take 1).drop 0).flatMap byteBits = _
    cases hin : h.input with
    | nil => rw [hin] at hlen; simp at hlen; omega
    | cons x t => simp

omit [Build] in
theorem hsNext_some {h h1 : Hsd} {b : UInt8} (hi : HInv hsStatic h) (hr : Run hsStatic 1 h [b] h1) :
    rNext (.heatshrink (some h), none) = some (.byte b, (.heatshrink (some h1), none)) := by
  obtain ⟨h', d, e1, e2⟩ := hsPoll_run hsStatic_ok hi 1
  obtain ⟨rfl, rfl⟩ := hr.det e2
  simp only [rNext, e1]

omit [Build] in
theorem hsNext_none {h h1 : Hsd} (hi : HInv hsStatic h) (hr : Run hsStatic 1 h [] h1) :
    rNext (.heatshrink (some h), none) = none ∧
      ∀ b, rFeed (.heatshrink (some h), none) b =
        match hsSink hsStatic h1 [b] with
        | .ok (1, h) => some (.heatshrink (some h), none)
        | _ => none := by
  obtain ⟨h', d, e1, e2⟩ := hsPoll_run hsStatic_ok hi 1
  obtain ⟨rfl, rfl⟩ := hr.det e2
  constructor
  · simp only [rNext, e1]
  · intro b
    simp only [rFeed, e1]
    rfl

omit [Build] in
theorem succ_congr {S : Sink} {r r' : RState} {a : S.A} {x res} (hd : ¬ S.done a) (h1 : rNext r = rNext r')
    (h2 : ∀ b, rFeed r b = rFeed r' b) : Succ S r a x res ↔ Succ S r' a x res := by
  cases hn : rNext r with
  | some p =>
    obtain ⟨t, r2⟩ := p
    rw [succ_next hd hn, succ_next hd (h1 ▸ hn)]
  | none =>
    cases x with
    | nil => exact iff_of_false (succ_nil hd hn) (succ_nil hd (h1 ▸ hn))
    | cons b x => rw [succ_cons hd hn, succ_cons hd (h1 ▸ hn), h2]

omit [Build] in
theorem hs_settle {S : Sink} {h h' : Hsd} {a : S.A} {x res} (hi : HInv hsStatic h) (hd : ¬ S.done a)
    (hr : Run hsStatic 0 h [] h') :
    Succ S (.heatshrink (some h), none) a x res ↔ Succ S (.heatshrink (some h'), none) a x res := by
  have hi' := (hr.inv hsStatic_ok hi).1
  obtain ⟨g, d, e1, e2⟩ := hsPoll_run hsStatic_ok hi' 1
  have e3 := hr.settle e2
  have hl := (e2.inv hsStatic_ok hi').2.1
  match d, hl with
  | [], _ =>
    obtain ⟨f1, f2⟩ := hsNext_none hi e3
    obtain ⟨f3, f4⟩ := hsNext_none hi' e2
    exact succ_congr hd (f1.trans f3.symm) (fun b => (f2 b).trans (f4 b).symm)
  | [b], _ => rw [succ_next hd (hsNext_some hi e3), succ_next hd (hsNext_some hi' e2)]

omit [Build] in
theorem hs_succ_bytes (S : Sink) (x : Bytes) (res : S.A) :
    ∀ (d : Bytes) (n : Nat) (h h' : Hsd) (a : S.A), HInv hsStatic h → Run hsStatic n h d h' →
      Hungry S (max d.length 1) a →
      (Succ S (.heatshrink (some h), none) a x res ↔
        Succ S (.heatshrink (some h'), none) (S.steps a (d.map .byte)) x res) := by
  intro d
  induction d with
  | nil =>
    intro n h h' a hi hr hh
    exact hs_settle hi (hh.notDone (by omega)) hr.nil_zero
  | cons b t ih =>
    intro n h h' a hi hr hh
    obtain ⟨h1, m, _, e2, e3⟩ := hr.split b t rfl
    have hi1 := (e2.inv hsStatic_ok hi).1
    rw [succ_next (hh.notDone (by omega)) (hsNext_some hi e2)]
    cases t with
    | nil =>
      obtain ⟨_, rfl⟩ := e2.stop.det e3.nil_zero
      rfl
    | cons b' t =>
      rw [ih m h1 h' _ hi1 e3 (by
        simp only [List.length_cons] at hh ⊢
        exact Hungry.mono (Hungry.byte (hh.mono (by omega : t.length + 1 + 1 ≤ _)) b) (by omega))]
      rfl

omit [Build] in
theorem Hungry.steps {S : Sink} : ∀ (d : Bytes) {n : Nat} {a : S.A}, Hungry S n a → d.length ≤ n →
    Hungry S (n - d.length) (S.steps a (d.map .byte)) := by
  intro d
  induction d with
  | nil => intro n a h _; exact h
  | cons b d ih =>
    intro n a h hl
    simp only [List.length_cons] at hl ⊢
    obtain ⟨m, rfl⟩ : ∃ m, n = m + 1 := ⟨n - 1, by omega⟩
    have := ih (h.byte b) (by omega)
    rw [show m + 1 - (d.length + 1) = m - d.length by omega]
    exact this

omit [Build] in
/-- The loop of `patch_reader_heatshrink_decompress`. -/
theorem hsDecompressLoop_spec {size : Nat} :
    ∀ (fuel : Nat) (h : Hsd) (c : Chunk) (out : Bytes), HInv hsStatic h → c.Inv → c.rest.length < fuel →
      out.length < size →
      ∃ h' c', HInv hsStatic h' ∧ c'.Inv ∧
        ((∃ d, hsDecompressLoop fuel h c size out = .ok (.ok (out ++ d), h', c') ∧ out ++ d ≠ [] ∧
            out.length + d.length ≤ size ∧
            hsWork h' + 2 ^ 32 * c'.rest.length + d.length ≤ hsWork h + 2 ^ 32 * c.rest.length ∧
            ∀ (S : Sink) (a : S.A) x res, Hungry S (size - out.length) a →
              (Succ S (.heatshrink (some h), none) a (c.rest ++ x) res ↔
                Succ S (.heatshrink (some h'), none) (S.steps a (d.map .byte)) (c'.rest ++ x) res)) ∨
          (hsDecompressLoop fuel h c size out = .ok (.more, h', c') ∧ out = [] ∧ c'.rest = [] ∧
            rNext (.heatshrink (some h'), none) = none ∧
            hsWork h' + 2 ^ 32 * c'.rest.length ≤ hsWork h + 2 ^ 32 * c.rest.length ∧
            ∀ (S : Sink) (a : S.A) x res, ¬ S.done a →
              (Succ S (.heatshrink (some h), none) a (c.rest ++ x) res ↔
                Succ S (.heatshrink (some h'), none) a x res))) := by
  intro fuel
  induction fuel with
  | zero => intro h c out _ _ h; omega
  | succ fuel ih =>
    intro h c out hi hc hf ho
    unfold hsDecompressLoop
    obtain ⟨h1, d, e1, e2⟩ := hsPoll_run hsStatic_ok hi (size - out.length)
    obtain ⟨i1, i2, i3, i4, i5⟩ := e2.inv hsStatic_ok hi
    rw [e1]
    simp only [Bind.bind, Except.bind]
    have hlen : (out ++ d).length = out.length + d.length := by simp
    by_cases hfull : size - (out ++ d).length = 0
    · rw [if_pos hfull]
      have hd1 : 1 ≤ d.length := by omega
      rw [hlen] at hfull
      refine ⟨h1, c, i1, hc, .inl ⟨d, rfl, ?_, ?_, ?_, ?_⟩⟩
      · intro h0; have := (List.append_eq_nil_iff.1 h0).2; rw [this] at hd1; simp at hd1
      · omega
      · omega
      · intro S a x res hh
        exact hs_succ_bytes S (c.rest ++ x) res d _ h h1 a hi e2 (hh.mono (by omega))
    · rw [if_neg hfull]
      have hstuck := i4 (by omega)
      obtain ⟨hz, hnb⟩ := (hsMicro_spec hsStatic_ok i1).1 hstuck
      have hr1 : Run hsStatic 1 h1 [] h1 := .stuck hstuck
      obtain ⟨hn1, hf1⟩ := hsNext_none i1 hr1
      cases hr : c.rest with
      | nil =>
        rw [c.get_nil hc hr]
        by_cases hnil : (out ++ d).length ≠ 0
        · simp only [hnil, ne_eq, not_false_iff, if_true]
          refine ⟨h1, c, i1, hc, .inl ⟨d, rfl, by intro h0; rw [h0] at hnil; simp at hnil, by omega, ?_, ?_⟩⟩
          · simp only [hr, List.length_nil]; omega
          · intro S a x res hh
            rw [hr]
            exact hs_succ_bytes S ([] ++ x) res d _ h h1 a hi e2 (hh.mono (by omega))
        · simp only [hnil, if_false]
          have hout : out = [] := by
            cases out with
            | nil => rfl
            | cons => simp at hnil
          have hd : d = [] := by
            cases d with
            | nil => rfl
            | cons => simp at hnil
          subst hd
          refine ⟨h1, c, i1, hc, .inr ⟨rfl, hout, hr, hn1, ?_, ?_⟩⟩
          · simp only [hr, List.length_nil] at i3 ⊢; omega
          · intro S a x res hd
            exact hs_settle hi hd e2.nil_zero
      | cons b t =>
        obtain ⟨hg, ht, hc'⟩ := c.get_cons hc hr
        obtain ⟨h2, k1, k2, k3, k4⟩ := hsSink_spec hsStatic_ok i1 hz b
        rw [hg]
        simp only [k1]
        rw [if_neg (by decide)]
        rw [hr] at hf
        simp only [List.length_cons] at hf
        have hw : hsWork h2 = hsWork h1 + 2 ^ 19 := by
          unfold hsWork
          rw [k3, k4.1, k4.2.2.2.1, List.length_append, byteBits_length]
          omega
        have hfeed : ∀ (S : Sink) (a : S.A) x res, ¬ S.done a →
            (Succ S (.heatshrink (some h1), none) a (b :: t ++ x) res ↔
              Succ S (.heatshrink (some h2), none) a (t ++ x) res) := by
          intro S a x res hd
          exact succ_feed hd hn1 (by rw [hf1, k1]; rfl)
        obtain ⟨h', c', j1, j2, j3⟩ := ih h2 { c with offset := c.offset + 1 } (out ++ d) k2 hc' (by rw [ht]; omega)
          (by omega)
        rw [ht] at j3
        refine ⟨h', c', j1, j2, ?_⟩
        rcases j3 with ⟨d', q1, q2, q3, q4, q5⟩ | ⟨q1, q2, q3, q4, q5, q6⟩
        · left
          refine ⟨d ++ d', by rw [q1]; simp, by simpa using q2, by simp at q3 ⊢; omega, ?_, ?_⟩
          · simp only [List.length_append, List.length_cons]; omega
          · intro S a x res hh
            rw [hs_succ_bytes S (b :: t ++ x) res d _ h h1 a hi e2 (hh.mono (by omega))]
            have hh2 := Hungry.steps d hh (by omega)
            rw [hfeed S _ x res (hh2.notDone (by omega)), q5 S _ x res (hh2.mono (by omega)), List.map_append,
              Sink.steps_append]
        · right
          have hout : out = [] := by
            cases out with
            | nil => rfl
            | cons => simp at q2
          have hd : d = [] := by
            cases d with
            | nil => rfl
            | cons => simp at q2
          subst hout hd
          refine ⟨q1, rfl, q3, q4, ?_, ?_⟩
          · simp only [List.length_nil, List.length_cons] at i3 ⊢; omega
          · intro S a x res hd
            rw [hs_settle hi hd e2.nil_zero, hfeed S a x res hd]
            exact q6 S a x res hd

/-- Invariant of the patch readers. -/
def CReader.Inv : CReader → Prop
  | .raw p o => rawInv p o
  | .lzma _ => False
  | .crle s => s.Inv
  | .heatshrink none => True
  | .heatshrink (some h) => HInv hsStatic h

theorem hs_some_dec {h : Hsd} (hi : HInv hsStatic h) {c c0 : Chunk} (hc : c.Inv) {size : Nat} (h1 : 1 ≤ size)
    {r0 : CReader} (hw : hsWork h + 2 ^ 32 * c.rest.length ≤ work r0 c0)
    (hs : ∀ (S : Sink) (a : S.A) x res, ¬ S.done a →
      (Succ S r0.abs a (c0.rest ++ x) res ↔ Succ S (.heatshrink (some h), none) a (c.rest ++ x) res)) :
    ∃ d h' c', hsDecompressLoop (c.left + 1) h c size [] = .ok (d, h', c') ∧
      DecSpec CReader.Inv r0 c0 size (d, .heatshrink (some h'), c') := by
  obtain ⟨h', c', i1, i2, i3⟩ := hsDecompressLoop_spec (size := size) (c.left + 1) h c [] hi hc
    (by rw [c.left_eq hc]; omega) (by simp only [List.length_nil]; omega)
  have hbl := backlog_hs i1
  rcases i3 with ⟨d, q1, q2, q3, q4, q5⟩ | ⟨q1, q2, q3, q4, q5, q6⟩
  · refine ⟨_, h', c', q1, i1, i2, by simpa using q3, ?_, ?_⟩
    · have : 1 ≤ d.length := by
        cases d with
        | nil => simp at q2
        | cons => simp
      unfold work at hw ⊢
      rw [hbl]
      omega
    · intro S a x res hh
      rw [hs S a x res (hh.notDone (by omega)), toks_of_ne q2]
      exact q5 S a x res hh
  · have : work (.heatshrink (some h')) c' ≤ work r0 c0 := by
      unfold work at hw ⊢
      rw [hbl]
      omega
    refine ⟨_, h', c', q1, i1, i2, q3, q4, fun _ => this, this, ?_⟩
    intro S a x res hd
    rw [hs S a x res hd]
    exact q6 S a x res hd

theorem hs_dec {h : CHs} (hi : (CReader.heatshrink h).Inv) {c : Chunk} (hc : c.Inv) {cap size : Nat} (h1 : 1 ≤ size)
    (h2 : size ≤ cap) :
    ∃ out, (CReader.heatshrink h).decompress c cap size = .ok out ∧ DecSpec CReader.Inv (.heatshrink h) c size out := by
  have hcap : ¬ cap < size := by omega
  simp only [CReader.decompress, hsDecompress, hcap, if_false]
  cases h with
  | some h =>
    obtain ⟨d, h', c', q1, q2⟩ := hs_some_dec (h := h) (c := c) (c0 := c) (r0 := .heatshrink (some h)) hi hc h1
      (by unfold work; rw [backlog_hs hi]; omega) (fun S a x res _ => Iff.rfl)
    refine ⟨_, ?_, q2⟩
    simp only [q1]
    rfl
  | none =>
    cases hr : c.rest with
    | nil =>
      rw [c.get_nil hc hr]
      refine ⟨_, rfl, trivial, hc, hr, rfl, fun _ => Nat.le_refl _, Nat.le_refl _, ?_⟩
      intro S a x res _
      rw [hr]; rfl
    | cons b t =>
      obtain ⟨hg, ht, hc'⟩ := c.get_cons hc hr
      rw [hg]
      simp only [Bind.bind, Except.bind]
      by_cases hb : hsHeader b = (hsStatic.window, hsStatic.lookahead)
      · rw [if_neg (by simpa using hb)]
        obtain ⟨d, h', c', q1, q2⟩ := hs_some_dec (h := hsReset hsStatic) (c := { c with offset := c.offset + 1 }) (c0 := c)
          (r0 := .heatshrink none) (size := size) hsReset_inv hc' h1 (by
            unfold work
            rw [ht, hr]
            have : hsWork (hsReset hsStatic) = 0 := by decide +kernel
            rw [this]
            simp only [List.length_cons]
            omega)
          (by
            intro S a x res hd
            rw [ht, hr]
            exact succ_feed hd rfl (by simp [rFeed, hb, CReader.abs]))
        simp only [q1]
        exact ⟨_, rfl, q2⟩
      · rw [if_pos (by simpa using hb)]
        refine ⟨_, rfl, by decide, hc', ?_⟩
        intro S a x res hh
        rw [hr]
        exact succ_feed_none (hh.notDone (by omega)) rfl (by simp [rFeed, hb, CReader.abs])

/-- `patch_reader_decompress`, for every reader: no undefined behaviour, and it
delivers what the stream means. -/
theorem dec_spec {r : CReader} (hi : r.Inv) {c : Chunk} (hc : c.Inv) {cap size : Nat} (h1 : 1 ≤ size)
    (h2 : size ≤ cap) (hcap : cap ≤ 128) :
    ∃ out, r.decompress c cap size = .ok out ∧ DecSpec CReader.Inv r c size out := by
  cases r with
  | raw p o => exact raw_dec hi hc h1 h2 hcap (fun _ _ h => h)
  | lzma _ => exact hi.elim
  | crle s => exact crle_dec hi hc h1 h2 (fun _ h => h)
  | heatshrink h => exact hs_dec hi hc h1 h2

end Detools
