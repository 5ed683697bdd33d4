import Verif.Spec.Bsdiff40
import Verif.Proofs.PyContainers
/-
Which BSDIFF40 patches are accepted.
-/
namespace Detools

theorem offtin_iff {a : Bytes} (h : a.length = 8) : ∃ v, offtin a = .ok v ∧ IsOff8 a v := by
  refine ⟨_, ?_, h, rfl⟩
  simp only [offtin, h, ne_eq, not_true_eq_false, if_false]
  by_cases hx : leValue a < 2 ^ 63
  · rw [if_neg (by omega), if_pos hx]
  · rw [if_pos (by omega), if_neg hx]
    congr 2
    omega

theorem IsOff8.unique {a : Bytes} {v w : Int} (h : IsOff8 a v) (g : IsOff8 a w) : v = w := by rw [h.2, g.2]

theorem Takes.unique {n : Int} {s p r p' r' : Bytes} (h : Takes n s p r) (g : Takes n s p' r') : p = p' ∧ r = r' := by
  obtain ⟨h1, h2⟩ := h
  obtain ⟨g1, g2⟩ := g
  have hl : p.length + r.length = p'.length + r'.length := by
    have e1 := congrArg List.length h1
    have e2 := congrArg List.length g1
    simp only [List.length_append] at e1 e2
    omega
  have hpl : p.length = p'.length := by
    rcases h2 with ⟨h2, rfl⟩ | ⟨h2, h3⟩
    · rcases g2 with ⟨g2, rfl⟩ | ⟨g2, g3⟩
      · rfl
      · have := List.length_pos_iff.2 g2
        rcases g3 with g3 | ⟨g3, _⟩ <;> omega
    · have := List.length_pos_iff.2 h2
      rcases g2 with ⟨g2, rfl⟩ | ⟨g2, g3⟩
      · rcases h3 with h3 | ⟨h3, _⟩ <;> omega
      · rcases h3 with h3 | ⟨h3, rfl⟩ <;> rcases g3 with g3 | ⟨g3, rfl⟩
        · omega
        · simp only [List.length_nil] at hl; omega
        · simp only [List.length_nil] at hl; omega
        · simp only [List.length_nil] at hl; omega
  exact List.append_inj (h1.symm.trans g1) hpl

theorem zipWith_take_le {f : α → β → γ} : ∀ (p : List α) (q : List β) (n : Nat), p.length ≤ n → List.zipWith f p (q.take n) = List.zipWith f p q
  | [], q, n, _ => by simp
  | x :: p, [], n, _ => by simp
  | x :: p, y :: q, 0, h => by simp at h
  | x :: p, y :: q, n + 1, h => by
    simp only [List.take_succ_cons, List.zipWith_cons_cons, zipWith_take_le p q n (by simpa using h)]

/-- Reading from a stream. -/
theorem takes_any {C : PyCodec} {S : WholeStream C} (E : S.Ends) {st : C.decomp.σ} {s : Bytes} (h : S.owes st s) {n : Nat} (hn : 0 < n) :
    (∃ p rest st', Takes n s p rest ∧ C.decomp.decompress st [] n = .ok (st', p) ∧ S.owes st' rest) ∨
    ((∀ p rest, ¬ Takes n s p rest) ∧ ∃ e, e ≠ .timeout ∧ C.decomp.decompress st [] n = .error e) := by
  by_cases hs : s = []
  · subst hs
    right
    refine ⟨?_, E.ended h hn⟩
    rintro p rest ⟨h1, h2⟩
    have : p = [] := (List.append_eq_nil_iff.1 h1.symm).1
    rcases h2 with ⟨h2, _⟩ | ⟨h2, _⟩
    · omega
    · exact h2 this
  · left
    by_cases hl : s.length < n
    · obtain ⟨st', h1, h2⟩ := E.short h hs hl
      exact ⟨s, [], st', ⟨by simp, .inr ⟨hs, .inr ⟨by omega, rfl⟩⟩⟩, h1, h2⟩
    · have hne : s.take n ≠ [] := by
        intro h0
        have := congrArg List.length h0
        simp only [List.length_take, List.length_nil] at this
        omega
      rw [← List.take_append_drop n s] at h
      obtain ⟨st', h1, h2⟩ := S.read h hne
      rw [List.length_take, Nat.min_eq_left (by omega)] at h1
      exact ⟨s.take n, s.drop n, st', ⟨(List.take_append_drop n s).symm, .inr ⟨hne, .inl (by simp; omega)⟩⟩, h1, h2⟩

theorem offtin_short {a : Bytes} (h : a.length ≠ 8) : offtin a = .error (.builtin "struct.error") := by
  simp [offtin, h]

theorem readCtrl_any {C : PyCodec} {S : WholeStream C} (E : S.Ends) {st : C.decomp.σ} {s : Bytes} (h : S.owes st s) :
    (∃ a rest v st', s = a ++ rest ∧ IsOff8 a v ∧ readCtrl st = .ok (v, st') ∧ S.owes st' rest) ∨
    (s.length < 8 ∧ ∃ e, e ≠ .timeout ∧ readCtrl st = .error e) := by
  rcases takes_any E h (n := 8) (by decide) with ⟨p, rest, st', ⟨h1, h2⟩, h3, h4⟩ | ⟨h1, e, h2, h3⟩
  · have hp : p.length = 8 ∨ (p.length < 8 ∧ rest = []) := by
      rcases h2 with ⟨h2, _⟩ | ⟨_, h2⟩
      · omega
      · rcases h2 with h2 | ⟨h2, h2'⟩
        · exact .inl (by omega)
        · exact .inr ⟨by omega, h2'⟩
    rcases hp with hp | ⟨hp, rfl⟩
    · obtain ⟨v, k1, k2⟩ := offtin_iff hp
      exact .inl ⟨p, rest, v, st', h1, k2, by simp [readCtrl, h3, k1, bind, Except.bind, pure, Except.pure], h4⟩
    · right
      refine ⟨by rw [h1]; simpa using hp, .builtin "struct.error", (by intro h; cases h), ?_⟩
      simp [readCtrl, h3, offtin_short (show p.length ≠ 8 by omega), bind, Except.bind]
  · right
    refine ⟨?_, e, h2, by simp [readCtrl, h3, bind, Except.bind]⟩
    rcases Nat.lt_or_ge s.length 8 with h | h
    · exact h
    · exfalso
      refine h1 (s.take 8) (s.drop 8) ⟨(List.take_append_drop 8 s).symm, .inr ⟨?_, .inl (by simp; omega)⟩⟩
      intro h0
      have := congrArg List.length h0
      simp only [List.length_take, List.length_nil] at this
      omega

theorem bsdiffDiff_any {C : PyCodec} {S : WholeStream C} (E : S.Ends) (s : BsdiffStreams C.decomp) (toPos toSize d : Int) {diff : Bytes}
    (h : S.owes s.diff diff) :
    (∃ dd diff' st', d ≤ toSize - toPos ∧ Takes d diff dd diff' ∧ dd.length = ((s.from_.data.drop s.from_.pos).take d.toNat).length ∧
      S.owes st' diff' ∧
      bsdiffDiff s toPos toSize d = ⟨List.zipWith (· + ·) dd (s.from_.data.drop s.from_.pos),
        .ok (toPos + d.toNat, { s with diff := st', from_ := { s.from_ with pos := s.from_.pos + dd.length } })⟩) ∨
    ((∀ dd diff', ¬ (d ≤ toSize - toPos ∧ Takes d diff dd diff' ∧ dd.length = ((s.from_.data.drop s.from_.pos).take d.toNat).length)) ∧
      ∃ e, e ≠ .timeout ∧ bsdiffDiff s toPos toSize d = ⟨[], .error e⟩) := by
  by_cases h1 : toPos + d > toSize
  · refine .inr ⟨fun dd diff' ⟨g, _⟩ => by omega, .error "Patch diff data too long.", (by intro h; cases h), ?_⟩
    rw [bsdiffDiff, if_pos h1]; rfl
  by_cases h2 : d > 0
  · rcases takes_any E h (n := d.toNat) (by omega) with ⟨p, rest, st', k1, k2, k3⟩ | ⟨k1, e, k2, k3⟩
    · rw [Int.toNat_of_nonneg (by omega)] at k1
      by_cases hl : p.length = ((s.from_.data.drop s.from_.pos).take d.toNat).length
      · left
        refine ⟨p, rest, st', by omega, k1, hl, k3, ?_⟩
        rw [bsdiffDiff, if_neg h1, if_pos h2, k2, W.lift_bind_ok]
        simp only [PyFile.read, addBytes, hl, ne_eq, not_true_eq_false, if_false, W.lift_bind_ok]
        have : List.zipWith (· + ·) p ((s.from_.data.drop s.from_.pos).take d.toNat) = List.zipWith (· + ·) p (s.from_.data.drop s.from_.pos) := by
          exact zipWith_take_le p _ _ (by simp only [List.length_take] at hl; omega)
        rw [this]
        simp only [W.write, W.mk_bind_ok, W.pure_eq]
        simp [Int.max_eq_left (Int.le_of_lt h2)]
      · right
        refine ⟨fun dd diff' ⟨_, g2, g3⟩ => ?_, .builtin "ValueError: Lengths must be equal.", (by intro h; cases h), ?_⟩
        · exact hl ((k1.unique g2).1 ▸ g3)
        · rw [bsdiffDiff, if_neg h1, if_pos h2, k2, W.lift_bind_ok]
          simp only [PyFile.read, addBytes, ne_eq, hl, not_false_eq_true, if_true]
          rfl
    · rw [Int.toNat_of_nonneg (by omega)] at k1
      right
      refine ⟨fun dd diff' ⟨_, g2, _⟩ => k1 _ _ g2, e, k2, ?_⟩
      rw [bsdiffDiff, if_neg h1, if_pos h2, k3]
      rfl
  · left
    refine ⟨[], diff, s.diff, by omega, ⟨rfl, .inl ⟨by omega, rfl⟩⟩, by rw [show d.toNat = 0 by omega]; simp, h, ?_⟩
    rw [bsdiffDiff, if_neg h1, if_neg h2, show d.toNat = 0 by omega]
    simp [W.pure]

theorem bsdiffExtra_any {C : PyCodec} {S : WholeStream C} (E : S.Ends) (s : BsdiffStreams C.decomp) (toPos toSize d : Int) {extra : Bytes}
    (h : S.owes s.extra extra) :
    (∃ ee extra' st', d ≤ toSize - toPos ∧ Takes d extra ee extra' ∧ S.owes st' extra' ∧
      bsdiffExtra s toPos toSize d = ⟨ee, .ok (toPos + d.toNat, { s with extra := st' })⟩) ∨
    ((∀ ee extra', ¬ (d ≤ toSize - toPos ∧ Takes d extra ee extra')) ∧ ∃ e, e ≠ .timeout ∧ bsdiffExtra s toPos toSize d = ⟨[], .error e⟩) := by
  by_cases h1 : toPos + d > toSize
  · refine .inr ⟨fun dd diff' ⟨g, _⟩ => by omega, .error "Patch extra data too long.", (by intro h; cases h), ?_⟩
    rw [bsdiffExtra, if_pos h1]; rfl
  by_cases h2 : d > 0
  · rcases takes_any E h (n := d.toNat) (by omega) with ⟨p, rest, st', k1, k2, k3⟩ | ⟨k1, e, k2, k3⟩
    · rw [Int.toNat_of_nonneg (by omega)] at k1
      left
      refine ⟨p, rest, st', by omega, k1, k3, ?_⟩
      rw [bsdiffExtra, if_neg h1, if_pos h2, k2, W.lift_bind_ok]
      simp only [W.write, W.mk_bind_ok, W.pure_eq]
      simp [Int.max_eq_left (Int.le_of_lt h2)]
    · rw [Int.toNat_of_nonneg (by omega)] at k1
      right
      refine ⟨fun dd diff' ⟨_, g2⟩ => k1 _ _ g2, e, k2, ?_⟩
      rw [bsdiffExtra, if_neg h1, if_pos h2, k3]
      rfl
  · left
    refine ⟨[], extra, s.extra, by omega, ⟨rfl, .inl ⟨by omega, rfl⟩⟩, h, ?_⟩
    rw [bsdiffExtra, if_neg h1, if_neg h2, show d.toNat = 0 by omega]
    simp [W.pure]

theorem Bs40.unique {clamp : Bool} {fr : Bytes} {left : Int} {pos : Nat} {ctrl diff extra out out' : Bytes}
    (h : Bs40 clamp fr left pos ctrl diff extra out) : Bs40 clamp fr left pos ctrl diff extra out' → out' = out := by
  induction h generalizing out' with
  | done h0 =>
    generalize hc : ([] : Bytes) = ctrl
    intro g
    cases g with
    | done _ => rfl
    | record h1 => omega
  | @record left d e adj pos a b c ctrl diff dd diff' extra ee extra' out h1 h2 h3 h4 h5 h6 h7 h8 h9 h10 h11 ih =>
    generalize hc : a ++ b ++ c ++ ctrl = C
    intro g
    cases g with
    | done _ => omega
    | record g1 g2 g3 g4 g5 g6 g7 g8 g9 g10 g11 =>
      simp only [List.append_assoc] at hc
      obtain ⟨rfl, c1⟩ := List.append_inj hc (by rw [h2.1, g2.1])
      obtain ⟨rfl, c2⟩ := List.append_inj c1 (by rw [h3.1, g3.1])
      obtain ⟨rfl, rfl⟩ := List.append_inj c2 (by rw [h4.1, g4.1])
      obtain rfl := h2.unique g2
      obtain rfl := h3.unique g3
      obtain rfl := h4.unique g4
      obtain ⟨rfl, rfl⟩ := h6.unique g6
      obtain ⟨rfl, rfl⟩ := h9.unique g9
      rw [ih g11]

/-- What the loop does with any streams. -/
theorem bsdiffLoop_any {C : PyCodec} {S : WholeStream C} (E : S.Ends) (clamp : Bool) (fr : Bytes) : ∀ (n : Nat) (ctrl diff extra : Bytes)
    (s : BsdiffStreams C.decomp) (toPos toSize : Int) (pos : Nat), ctrl.length ≤ n →
    s.from_ = { data := fr, pos := pos, clampSeek := clamp } → S.owes s.ctrl ctrl → S.owes s.diff diff → S.owes s.extra extra →
    (∃ out s', Bs40 clamp fr (toSize - toPos) pos ctrl diff extra out ∧ S.owes s'.ctrl [] ∧ S.owes s'.diff [] ∧ S.owes s'.extra [] ∧
      ∀ fuel, n < fuel → bsdiffLoop fuel toPos toSize s = ⟨out, .ok s'⟩) ∨
    ((∀ out, ¬ Bs40 clamp fr (toSize - toPos) pos ctrl diff extra out) ∧
      ((∃ out e, e ≠ .timeout ∧ ∀ fuel, n < fuel → bsdiffLoop fuel toPos toSize s = ⟨out, .error e⟩) ∨
       (∃ out s' c d e, S.owes s'.ctrl c ∧ S.owes s'.diff d ∧ S.owes s'.extra e ∧ (c ≠ [] ∨ d ≠ [] ∨ e ≠ []) ∧
         ∀ fuel, n < fuel → bsdiffLoop fuel toPos toSize s = ⟨out, .ok s'⟩))) := by
  intro n
  induction n using Nat.strongRecOn with
  | _ n ih =>
  intro ctrl diff extra s toPos toSize pos hn hfrom oc od oe
  by_cases hlt : toPos < toSize
  · -- a record
    have hrec : ∀ out, Bs40 clamp fr (toSize - toPos) pos ctrl diff extra out →
        ∃ d e adj a b c ctrl' dd diff' ee extra' out', ctrl = a ++ b ++ c ++ ctrl' ∧ IsOff8 a d ∧ IsOff8 b e ∧ IsOff8 c adj ∧
          d ≤ toSize - toPos ∧ Takes d diff dd diff' ∧ dd.length = ((fr.drop pos).take d.toNat).length ∧
          d.toNat + e ≤ toSize - toPos ∧ Takes e extra ee extra' ∧ (0 ≤ (pos : Int) + dd.length + adj ∨ clamp = true) ∧
          Bs40 clamp fr (toSize - toPos - d.toNat - e.toNat) ((pos : Int) + dd.length + adj).toNat ctrl' diff' extra' out' := by
      intro out h
      cases h with
      | done h => omega
      | record h1 h2 h3 h4 h5 h6 h7 h8 h9 h10 h11 => exact ⟨_, _, _, _, _, _, _, _, _, _, _, _, rfl, h2, h3, h4, h5, h6, h7, h8, h9, h10, h11⟩
    have fails : (∀ out, ¬ Bs40 clamp fr (toSize - toPos) pos ctrl diff extra out) →
        (∃ out e, e ≠ .timeout ∧ ∀ fuel, bsdiffLoop (fuel + 1) toPos toSize s = ⟨out, .error e⟩) →
        ((∀ out, ¬ Bs40 clamp fr (toSize - toPos) pos ctrl diff extra out) ∧
          ((∃ out e, e ≠ .timeout ∧ ∀ fuel, n < fuel → bsdiffLoop fuel toPos toSize s = ⟨out, .error e⟩) ∨
           (∃ out s' c d e, S.owes s'.ctrl c ∧ S.owes s'.diff d ∧ S.owes s'.extra e ∧ (c ≠ [] ∨ d ≠ [] ∨ e ≠ []) ∧
             ∀ fuel, n < fuel → bsdiffLoop fuel toPos toSize s = ⟨out, .ok s'⟩))) := by
      rintro h ⟨out, e, he, hf⟩
      refine ⟨h, .inl ⟨out, e, he, fun fuel hfu => ?_⟩⟩
      obtain ⟨k, rfl⟩ : ∃ k, fuel = k + 1 := ⟨fuel - 1, by omega⟩
      exact hf k
    have loop : ∀ fuel, bsdiffLoop (fuel + 1) toPos toSize s = (do
      let (diffSize, ctrl) ← W.lift (readCtrl s.ctrl)
      let (extraSize, ctrl) ← W.lift (readCtrl ctrl)
      let (adjustment, ctrl) ← W.lift (readCtrl ctrl)
      let (toPos, s) ← bsdiffDiff { s with ctrl := ctrl } toPos toSize diffSize
      let (toPos, s) ← bsdiffExtra s toPos toSize extraSize
      let from_ ← W.lift (s.from_.seekCur adjustment)
      bsdiffLoop fuel toPos toSize { s with from_ := from_ }) := fun fuel => by rw [bsdiffLoop, if_pos hlt]
    -- control data
    rcases readCtrl_any E oc with ⟨a, r1, d, c1, rfl, ia, k1, o1⟩ | ⟨hs, e, he, k1⟩
    rotate_left
    · refine .inr (fails (fun out h => ?_) ⟨[], e, he, fun fuel => by rw [loop, k1]; rfl⟩)
      obtain ⟨_, _, _, a, b, c, _, _, _, _, _, _, g, ga, gb, gc, _⟩ := hrec out h
      have := congrArg List.length g
      have l1 := ga.1; have l2 := gb.1; have l3 := gc.1
      simp only [List.length_append] at this
      omega
    rcases readCtrl_any E o1 with ⟨b, r2, ex, c2, rfl, ib, k2, o2⟩ | ⟨hs, e, he, k2⟩
    rotate_left
    · refine .inr (fails (fun out h => ?_) ⟨[], e, he, fun fuel => by rw [loop, k1, W.lift_bind_ok]; simp only [k2]; rfl⟩)
      obtain ⟨_, _, _, a', b', c', _, _, _, _, _, _, g, ga, gb, gc, _⟩ := hrec out h
      have := congrArg List.length g
      have l1 := ga.1; have l2 := gb.1; have l3 := gc.1; have l4 := ia.1
      simp only [List.length_append] at this
      omega
    rcases readCtrl_any E o2 with ⟨c, r3, adj, c3, rfl, ic, k3, o3⟩ | ⟨hs, e, he, k3⟩
    rotate_left
    · refine .inr (fails (fun out h => ?_) ⟨[], e, he, fun fuel => by rw [loop, k1, W.lift_bind_ok]; simp only [k2, W.lift_bind_ok, k3]; rfl⟩)
      obtain ⟨_, _, _, a', b', c', _, _, _, _, _, _, g, ga, gb, gc, _⟩ := hrec out h
      have := congrArg List.length g
      have l1 := ga.1; have l2 := gb.1; have l3 := gc.1; have l4 := ia.1; have l5 := ib.1
      simp only [List.length_append] at this
      omega
    have la := ia.1; have lb := ib.1; have lc := ic.1
    -- the numbers of any record are these
    have hrec' : ∀ out, Bs40 clamp fr (toSize - toPos) pos (a ++ (b ++ (c ++ r3))) diff extra out →
        ∃ dd diff' ee extra' out', d ≤ toSize - toPos ∧ Takes d diff dd diff' ∧ dd.length = ((fr.drop pos).take d.toNat).length ∧
          d.toNat + ex ≤ toSize - toPos ∧ Takes ex extra ee extra' ∧ (0 ≤ (pos : Int) + dd.length + adj ∨ clamp = true) ∧
          Bs40 clamp fr (toSize - toPos - d.toNat - ex.toNat) ((pos : Int) + dd.length + adj).toNat r3 diff' extra' out' := by
      intro out h
      obtain ⟨d', e', adj', a', b', c', ctrl', dd, diff', ee, extra', out', g, ga, gb, gc, rest⟩ := hrec out h
      simp only [List.append_assoc] at g
      obtain ⟨rfl, g1⟩ := List.append_inj g (by rw [la, ga.1])
      obtain ⟨rfl, g2⟩ := List.append_inj g1 (by rw [lb, gb.1])
      obtain ⟨rfl, rfl⟩ := List.append_inj g2 (by rw [lc, gc.1])
      obtain rfl := ia.unique ga
      obtain rfl := ib.unique gb
      obtain rfl := ic.unique gc
      exact ⟨dd, diff', ee, extra', out', rest⟩
    have loop2 : ∀ fuel, bsdiffLoop (fuel + 1) toPos toSize s = (do
      let (toPos, s) ← bsdiffDiff { s with ctrl := c3 } toPos toSize d
      let (toPos, s) ← bsdiffExtra s toPos toSize ex
      let from_ ← W.lift (s.from_.seekCur adj)
      bsdiffLoop fuel toPos toSize { s with from_ := from_ }) := by
      intro fuel
      rw [loop, k1, W.lift_bind_ok]
      simp only [k2, W.lift_bind_ok, k3]
    have hdat : s.from_.data = fr := by rw [hfrom]
    have hpos : s.from_.pos = pos := by rw [hfrom]
    have hcl : s.from_.clampSeek = clamp := by rw [hfrom]
    -- diff data
    rcases bsdiffDiff_any E { s with ctrl := c3 } toPos toSize d od with ⟨dd, diff', st1, q1, q2, q3, q4, q5⟩ | ⟨q1, e, q2, q3⟩
    rotate_left
    · refine .inr (fails (fun out h => ?_) ⟨[], e, q2, fun fuel => by rw [loop2, q3]; rfl⟩)
      obtain ⟨dd, diff', _, _, _, g1, g2, g3, _⟩ := hrec' out h
      exact q1 dd diff' ⟨g1, g2, by simp only [hdat, hpos]; exact g3⟩
    simp only [hdat, hpos, hcl] at q3 q5
    -- extra data
    rcases bsdiffExtra_any E { ctrl := c3, diff := st1, extra := s.extra, from_ := { data := fr, pos := pos + dd.length, clampSeek := clamp } }
        (toPos + d.toNat) toSize ex oe with ⟨ee, extra', st2, p1, p2, p3, p4⟩ | ⟨p1, e, p2, p3⟩
    rotate_left
    · refine .inr (fails (fun out h => ?_) ⟨List.zipWith (· + ·) dd (fr.drop pos) ++ [], e, p2, fun fuel => by rw [loop2, q5, W.mk_bind_ok]; simp only [hdat, hcl]; rw [p3]; rfl⟩)
      obtain ⟨_, _, ee, extra', _, _, _, _, g1, g2, _⟩ := hrec' out h
      exact p1 ee extra' ⟨by omega, g2⟩
    have loop3 : ∀ fuel, bsdiffLoop (fuel + 1) toPos toSize s = (do
      let from_ ← (⟨List.zipWith (· + ·) dd (fr.drop pos) ++ ee, ({ data := fr, pos := pos + dd.length, clampSeek := clamp } : PyFile).seekCur adj⟩ : W PyFile)
      bsdiffLoop fuel (toPos + d.toNat + ex.toNat) toSize { ctrl := c3, diff := st1, extra := st2, from_ := from_ }) := by
      intro fuel
      rw [loop2, q5, W.mk_bind_ok]
      simp only [hdat, hcl]
      rw [p4, W.mk_bind_ok]
      simp only
      cases PyFile.seekCur { data := fr, pos := pos + dd.length, clampSeek := clamp } adj <;> simp [W.lift, bind, W.bind]
    by_cases hseek : 0 ≤ (pos : Int) + dd.length + adj ∨ clamp = true
    rotate_left
    · have hb : ¬ 0 ≤ (pos : Int) + dd.length + adj ∧ clamp = false := by
        refine ⟨fun h => hseek (.inl h), ?_⟩
        cases clamp
        · rfl
        · exact absurd (.inr rfl) hseek
      refine .inr (fails (fun out h => ?_) ⟨List.zipWith (· + ·) dd (fr.drop pos) ++ ee, .builtin "OSError", (by intro h; cases h), fun fuel => ?_⟩)
      rotate_left
      · rw [loop3, PyFile.seekCur]
        simp only
        rw [if_pos (by omega), if_neg (by rw [hb.2]; decide)]
        rfl
      · obtain ⟨dd', diff'', ee, extra', _, _, g2, _, _, _, g6, _⟩ := hrec' out h
        obtain ⟨rfl, rfl⟩ := q2.unique g2
        exact hseek g6
    have hsk : ({ data := fr, pos := pos + dd.length, clampSeek := clamp } : PyFile).seekCur adj =
        .ok { data := fr, pos := ((pos : Int) + dd.length + adj).toNat, clampSeek := clamp } := by
      simp only [PyFile.seekCur]
      by_cases h0 : 0 ≤ (pos : Int) + dd.length + adj
      · rw [if_neg (by omega)]
        congr 2
      · rcases hseek with h | h
        · exact absurd h h0
        · rw [if_pos (by omega), if_pos h]
          congr 2
          omega
    rw [hsk] at loop3
    have hlen : r3.length ≤ n - 24 ∧ 24 ≤ n := by
      simp only [List.length_append] at hn
      omega
    have hleft : toSize - (toPos + d.toNat + ex.toNat) = toSize - toPos - d.toNat - ex.toNat := by omega
    have step := ih (n - 24) (by omega) r3 diff' extra' { ctrl := c3, diff := st1, extra := st2, from_ := { data := fr, pos := ((pos : Int) + dd.length + adj).toNat, clampSeek := clamp } }
      (toPos + d.toNat + ex.toNat) toSize ((pos : Int) + dd.length + adj).toNat hlen.1 rfl o3 q4 p3
    rw [hleft] at step
    have hno : (∀ out, ¬ Bs40 clamp fr (toSize - toPos - d.toNat - ex.toNat) ((pos : Int) + dd.length + adj).toNat r3 diff' extra' out) →
        ∀ out, ¬ Bs40 clamp fr (toSize - toPos) pos (a ++ (b ++ (c ++ r3))) diff extra out := by
      intro h out g
      obtain ⟨dd', diff'', ee', extra'', out', _, g2, _, _, g5, _, g7⟩ := hrec' out g
      obtain ⟨rfl, rfl⟩ := q2.unique g2
      obtain ⟨rfl, rfl⟩ := p2.unique g5
      exact h _ g7
    rcases step with ⟨out, s', t1, t2, t3, t4, t5⟩ | ⟨t1, t2⟩
    · left
      refine ⟨List.zipWith (· + ·) dd (fr.drop pos) ++ ee ++ out, s', ?_, t2, t3, t4, fun fuel hf => ?_⟩
      · have := Bs40.record (clamp := clamp) (fr := fr) (left := toSize - toPos) (by omega) ia ib ic q1 q2 q3 (by omega) p2 hseek t1
        simpa only [List.append_assoc] using this
      · obtain ⟨k, rfl⟩ : ∃ k, fuel = k + 1 := ⟨fuel - 1, by omega⟩
        rw [loop3, W.mk_bind_ok, t5 k (by omega)]
    · right
      refine ⟨hno t1, ?_⟩
      rcases t2 with ⟨out, e, t2, t3⟩ | ⟨out, s', c', d', e', u1, u2, u3, u4, u5⟩
      · left
        refine ⟨List.zipWith (· + ·) dd (fr.drop pos) ++ ee ++ out, e, t2, fun fuel hf => ?_⟩
        obtain ⟨k, rfl⟩ : ∃ k, fuel = k + 1 := ⟨fuel - 1, by omega⟩
        rw [loop3, W.mk_bind_ok, t3 k (by omega)]
      · right
        refine ⟨List.zipWith (· + ·) dd (fr.drop pos) ++ ee ++ out, s', c', d', e', u1, u2, u3, u4, fun fuel hf => ?_⟩
        obtain ⟨k, rfl⟩ : ∃ k, fuel = k + 1 := ⟨fuel - 1, by omega⟩
        rw [loop3, W.mk_bind_ok, u5 k (by omega)]
  · have hrun : ∀ fuel, bsdiffLoop fuel toPos toSize s = ⟨[], .ok s⟩ := by
      intro fuel
      cases fuel <;> rw [bsdiffLoop, if_neg hlt] <;> rfl
    by_cases h0 : ctrl = [] ∧ diff = [] ∧ extra = []
    · obtain ⟨rfl, rfl, rfl⟩ := h0
      exact .inl ⟨[], s, .done (by omega), oc, od, oe, fun fuel _ => hrun fuel⟩
    · refine .inr ⟨fun out h => ?_, .inr ⟨[], s, ctrl, diff, extra, oc, od, oe, ?_, fun fuel _ => hrun fuel⟩⟩
      · cases h with
        | done _ => exact h0 ⟨rfl, rfl, rfl⟩
        | record h1 => omega
      · by_cases h1 : ctrl = []
        · by_cases h2 : diff = []
          · exact .inr (.inr fun h3 => h0 ⟨h1, h2, h3⟩)
          · exact .inr (.inl h2)
        · exact .inl h1

end Detools
