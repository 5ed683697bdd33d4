import Verif.Spec.CDumpRestore
import Verif.Proofs.CDump
import Verif.Props.CSequential
/-
Runs of the program of c/examples/dump_restore/main.c.
-/
namespace Detools

variable [Build]

/-! What is written, and heatshrink readers that have not read their header. -/

theorem dec_ok_hsNone {r : CReader} {c : Chunk} {cap size : Nat} {to r' c'}
    (h : r.decompress c cap size = .ok (.ok to, r', c')) : r' ≠ .heatshrink none := by
  by_cases hr : r = .heatshrink none
  · subst hr
    intro hr'
    subst hr'
    simp only [CReader.decompress, hsDecompress, Bind.bind, Except.bind, pure, Except.pure] at h
    by_cases h1 : cap < size
    · rw [if_pos h1] at h; cases h
    · rw [if_neg h1] at h
      cases hg : c.get with
      | error u => rw [hg] at h; cases h
      | ok o =>
        rw [hg] at h
        cases o with
        | none => cases h
        | some o =>
          obtain ⟨b, c2⟩ := o
          simp only at h
          by_cases h2 : hsHeader b ≠ (hsStatic.window, hsStatic.lookahead)
          · rw [if_pos h2] at h; cases h
          · rw [if_neg h2] at h
            cases hl : hsDecompressLoop (c2.left + 1) (hsReset hsStatic) c2 size [] with
            | error u => rw [hl] at h; cases h
            | ok v => obtain ⟨_, _, _⟩ := v; rw [hl] at h; cases h
  · exact dec_hsNone hr h

/-- What a step adds to the to-file, and that nothing is written with a heatshrink reader
that has not read its header. -/
def AddsTo (w w' : World Files) (s' : ApplyPatch) : Prop :=
  ∃ x, w'.arg.out = w.arg.out ++ x ∧ (x ≠ [] → s'.reader ≠ some (.heatshrink none))

omit [Build] in
theorem AddsTo.same {w w' : World Files} {s' : ApplyPatch} (h : w'.arg.out = w.arg.out) : AddsTo w w' s' :=
  ⟨[], by rw [h, List.append_nil], fun h => absurd rfl h⟩

theorem write_adds (fr : Bytes) {s : ApplyPatch} {w w0 : World Files} {to res s' w'} (h0 : w0.arg.out = w.arg.out)
    (hr : s.reader ≠ some (.heatshrink none)) (h : processWrite (fileEnv fr) s w0 to = .ok (res, s', w')) : AddsTo w w' s' := by
  simp only [processWrite, fileEnv, ne_eq, not_true, if_false] at h
  cases h
  exact ⟨to, by rw [h0], fun _ => hr⟩

theorem data_adds (fr : Bytes) {s : ApplyPatch} {w : World Files} {next diff res s' w'}
    (h : processData (fileEnv fr) s w next diff = .ok (res, s', w')) : AddsTo w w' s' := by
  unfold processData at h
  by_cases hz : min dataCap s.chunkSize = 0
  · simp only [hz, if_true] at h
    cases h; exact .same rfl
  · simp only [hz, if_false] at h
    cases hr1 : s.reader with
    | none => rw [hr1] at h; cases h
    | some r =>
      rw [hr1] at h
      simp only [Bind.bind, Except.bind] at h
      cases hdd : r.decompress s.chunk dataCap (min dataCap s.chunkSize) with
      | error u => rw [hdd] at h; cases h
      | ok v =>
        obtain ⟨d, r', c'⟩ := v
        rw [hdd] at h
        match d, h, hdd with
        | .more, h, _ => cases h; exact .same rfl
        | .fail e, h, _ => cases h; exact .same rfl
        | .ok to, h, hdd =>
          have h1 : some r' ≠ some (.heatshrink none) := fun h => dec_ok_hsNone hdd (by cases h; rfl)
          cases diff with
          | false => exact write_adds fr (s := { s with reader := some r', chunk := c' }) rfl h1 h
          | true =>
            simp only [if_true, fileEnv] at h
            by_cases hp : to.length = 0 ∨ w.arg.pos + to.length ≤ fr.length
            · simp only [hp, if_true, ne_eq, not_true, if_false] at h
              split at h
              · cases h
              · refine write_adds fr (s := { s with reader := some r', chunk := c', fromOffset := _ }) ?_ h1 h
                rfl
            · simp only [hp, if_false] at h
              rw [if_pos (by decide)] at h
              cases h
              exact .same rfl

theorem once_adds (fr : Bytes) {s : ApplyPatch} {w : World Files} {res s' w'}
    (h : processOnce (fileEnv fr) s w = .ok (res, s', w')) : AddsTo w w' s' := by
  unfold processOnce at h
  split at h
  · cases h; exact .same rfl
  · cases hsw : processSwitch (fileEnv fr) s w with
    | error u => rw [hsw] at h; cases h
    | ok v =>
      obtain ⟨r1, s1, w1⟩ := v
      have key : AddsTo w w1 s1 := by
        have hsize : ∀ next, processSize s w next = .ok (r1, s1, w1) → AddsTo w w1 s1 := by
          intro next hp
          simp only [processSize, Bind.bind, Except.bind] at hp
          split at hp
          · cases hp
          · split at hp
            · cases hp; exact .same rfl
            · cases hp; exact .same rfl
            · split at hp <;> (cases hp; exact .same rfl)
        unfold processSwitch at hsw
        cases h : s.state with
        | init =>
          rw [h] at hsw
          rw [init_quiet hsw]
          exact .same rfl
        | dfpatchSize =>
          rw [h] at hsw
          simp only [processDfpatchSize, Bind.bind, Except.bind] at hsw
          split at hsw
          · cases hsw
          · split at hsw
            · cases hsw; exact .same rfl
            · cases hsw; exact .same rfl
            · split at hsw <;> (cases hsw; exact .same rfl)
        | diffSize => rw [h] at hsw; exact hsize _ hsw
        | extraSize => rw [h] at hsw; exact hsize _ hsw
        | diffData => rw [h] at hsw; exact data_adds fr hsw
        | extraData => rw [h] at hsw; exact data_adds fr hsw
        | adjustment =>
          rw [h] at hsw
          simp only [processAdjustment, Bind.bind, Except.bind] at hsw
          split at hsw
          · cases hsw
          · split at hsw
            · cases hsw; exact .same rfl
            · cases hsw; exact .same rfl
            · rename_i off _ _
              have ho : ((fileEnv fr).fromSeek w.arg off).2.out = w.arg.out := by
                simp only [fileEnv]
                split <;> rfl
              split at hsw
              · cases hsw; exact .same ho
              · split at hsw
                · cases hsw
                · split at hsw <;> (cases hsw; exact .same ho)
        | done => rw [h] at hsw; cases hsw; exact .same rfl
        | failed => rw [h] at hsw; cases hsw; exact .same rfl
      rw [hsw] at h
      simp only [Bind.bind, Except.bind] at h
      split at h
      · cases h; exact key
      · cases h; exact key

/-- The to-file is empty while the header, or the header of heatshrink, has not been
read. -/
def NoneYet (s : ApplyPatch) (w : World Files) : Prop :=
  s.state = .init ∨ s.reader = some (.heatshrink none) → w.arg.out = []

theorem once_noneYet (fr : Bytes) {s : ApplyPatch} {w : World Files} (hn : NoneYet s w) {res s' w'}
    (h : processOnce (fileEnv fr) s w = .ok (res, s', w')) : NoneYet s' w' := by
  intro hc
  obtain ⟨x, h1, h2⟩ := once_adds fr h
  by_cases hs : s.state = .init
  · have hw : w' = w := by
      unfold processOnce at h
      rw [if_neg (by rw [hs]; decide)] at h
      unfold processSwitch at h
      rw [hs] at h
      cases hi : processInit s w with
      | error u => simp only [hi] at h; cases h
      | ok v =>
        obtain ⟨r1, s1, w1⟩ := v
        have hw := init_quiet hi
        simp only [hi, Bind.bind, Except.bind] at h
        split at h
        · cases h; exact hw
        · cases h; exact hw
    rw [hw]
    exact hn (.inl hs)
  · have hr' : s'.reader = some (.heatshrink none) := hc.resolve_left (once_notInit _ hs h)
    have hr : s.reader = some (.heatshrink none) := Classical.not_not.1 fun h0 => once_hsNone _ hs h0 h hr'
    have hx : x = [] := Classical.not_not.1 fun h0 => h2 h0 hr'
    rw [h1, hx, List.append_nil]
    exact hn (.inr hr)

/-! `processAll` as calls. -/

omit [Build] in
theorem fedBytes_process : ∀ ps : List Bytes, fedBytes (ps.map .process) = ps.flatten
  | [] => rfl
  | p :: ps => by simp only [List.map_cons, fedBytes, List.flatten_cons, fedBytes_process ps]

theorem processAll_calls (E : SeqEnv σ) : ∀ (ps : List Bytes) {s : ApplyPatch} {w : World σ} {s' w'},
    processAll E s w ps = .ok (0, s', w') → ∃ rs, runCalls E s w (ps.map .process) = .ok (rs, s', w')
  | [], s, w, s', w', h => by cases h; exact ⟨[], rfl⟩
  | p :: ps, s, w, s', w', h => by
    unfold processAll at h
    cases h1 : applyPatchProcess E s w p with
    | error u => rw [h1] at h; cases h
    | ok v =>
      obtain ⟨r, s1, w1⟩ := v
      rw [h1] at h
      simp only [Bind.bind, Except.bind] at h
      by_cases hr : r = 0
      · rw [if_neg (by rw [hr]; decide)] at h
        obtain ⟨rs, hrs⟩ := processAll_calls E ps h
        refine ⟨r :: rs, ?_⟩
        rw [List.map_cons, runCalls_process E h1, hrs]
        rfl
      · rw [if_pos hr] at h
        cases h
        exact absurd rfl hr

theorem processAll_cons (E : SeqEnv σ) (s : ApplyPatch) (w : World σ) (p : Bytes) (ps : List Bytes) : processAll E s w (p :: ps) = (do
    let (res, s, w) ← applyPatchProcess E s w p
    if res ≠ 0 then .ok (res, s, w) else processAll E s w ps) := rfl

theorem processAll_append (E : SeqEnv σ) (b : List Bytes) : ∀ (a : List Bytes) {s : ApplyPatch} {w : World σ} {s' w'},
    processAll E s w (a ++ b) = .ok (0, s', w') ↔
      ∃ s1 w1, processAll E s w a = .ok (0, s1, w1) ∧ processAll E s1 w1 b = .ok (0, s', w')
  | [], s, w, s', w' => by
    constructor
    · intro h; exact ⟨s, w, rfl, h⟩
    · rintro ⟨s1, w1, h1, h2⟩; cases h1; exact h2
  | p :: ps, s, w, s', w' => by
    rw [List.cons_append, processAll_cons, processAll_cons]
    cases h1 : applyPatchProcess E s w p with
    | error u =>
      simp only [Bind.bind, Except.bind]
      constructor
      · intro h; cases h
      · rintro ⟨s1, w1, h1, h2⟩; cases h1
    | ok v =>
      obtain ⟨r, s1, w1⟩ := v
      simp only [Bind.bind, Except.bind]
      by_cases hr : r = 0
      · simp only [hr, ne_eq, not_true, if_false]
        exact processAll_append E b ps
      · simp only [hr, ne_eq, not_false_iff, if_true]
        constructor
        · intro h; cases h; exact absurd rfl hr
        · rintro ⟨s1, w1, h1, h2⟩; cases h1; exact absurd rfl hr

theorem processAll_one (E : SeqEnv σ) {s : ApplyPatch} {w : World σ} {p : Bytes} {s' w'} :
    processAll E s w [p] = .ok (0, s', w') ↔ applyPatchProcess E s w p = .ok (0, s', w') := by
  rw [processAll_cons]
  cases h1 : applyPatchProcess E s w p with
  | error u => simp only [Bind.bind, Except.bind]
  | ok v =>
    obtain ⟨r, s1, w1⟩ := v
    simp only [Bind.bind, Except.bind]
    by_cases hr : r = 0
    · simp only [hr, ne_eq, not_true, if_false]; rfl
    · simp only [hr, ne_eq, not_false_iff, if_true]

/-- What process returns is not positive. -/
theorem process_le (E : SeqEnv σ) {s : ApplyPatch} (h : SInv s) {w : World σ} {p : Bytes} {res s' w'}
    (he : applyPatchProcess E s w p = .ok (res, s', w')) : res ≤ 0 ∧ SInv s' ∧ s'.patchSize = s.patchSize := by
  rcases process_ok E h w p with (e | e) | ⟨r, s1, w1, e, g1, g2, _⟩
  · rw [e] at he; cases he
  · rw [e] at he; cases he
  · rw [e] at he
    cases he
    refine ⟨?_, g2.inv, g2.psize⟩
    cases g1 with
    | ok => exact Int.le_refl 0
    | fail _ _ _ k => omega
    | io => decide

theorem processAll_le (E : SeqEnv σ) : ∀ (ps : List Bytes) {s : ApplyPatch} (_ : SInv s) {w : World σ} {res s' w'},
    processAll E s w ps = .ok (res, s', w') → res ≤ 0 ∧ SInv s'
  | [], s, hs, w, res, s', w', h => by cases h; exact ⟨Int.le_refl 0, hs⟩
  | p :: ps, s, hs, w, res, s', w', h => by
    unfold processAll at h
    cases h1 : applyPatchProcess E s w p with
    | error u => rw [h1] at h; cases h
    | ok v =>
      obtain ⟨r, s1, w1⟩ := v
      rw [h1] at h
      simp only [Bind.bind, Except.bind] at h
      obtain ⟨g1, g2, _⟩ := process_le E hs h1
      split at h
      · cases h; exact ⟨g1, g2⟩
      · exact processAll_le E ps g2 h

/-- What an accepted patch says about its pieces. -/
theorem CAccepts.split {fr : Bytes} {P : Nat} {pieces : List Bytes} {n : Int} {out : Bytes} (h : CAccepts fr P pieces n out) :
    ∃ s w sf wf, processAll (fileEnv fr) (applyPatchInit P) { arg := {} } pieces = .ok (0, s, w) ∧
      applyPatchFinalize (fileEnv fr) s w = .ok (n, sf, wf) ∧ 0 ≤ n ∧ wf.arg.out = out ∧ sf.state = .done := by
  obtain ⟨sf, wf, he, hn, ho⟩ := h
  have hd := (pieces_history (fileEnv fr) pieces (HS.start P) he hn).2.1
  unfold applyPieces at he
  cases h1 : processAll (fileEnv fr) (applyPatchInit P) { arg := {} } pieces with
  | error u => rw [h1] at he; cases he
  | ok v =>
    obtain ⟨r, s, w⟩ := v
    rw [h1] at he
    simp only [Bind.bind, Except.bind] at he
    by_cases hr : r = 0
    · subst hr
      rw [if_neg (by decide)] at he
      exact ⟨s, w, sf, wf, rfl, he, hn, ho, hd⟩
    · rw [if_pos hr] at he
      cases he
      have := (processAll_le _ _ (SInv.start P) h1).1
      omega

/-! Updates that have come past the header. -/

/-- `q` took the update past the header, then `qs` was processed. -/
structure MidWay (fr patch q : Bytes) (qs : List Bytes) (s : ApplyPatch) (w : World Files) : Prop where
  first : ∃ s0 w0, applyPatchProcess (fileEnv fr) (applyPatchInit patch.length) { arg := {} } q = .ok (0, s0, w0) ∧ s0.state ≠ .init
  all : processAll (fileEnv fr) (applyPatchInit patch.length) { arg := {} } (q :: qs) = .ok (0, s, w)
  pre : q ++ qs.flatten <+: patch

variable {fr patch : Bytes} {n : Int} {out : Bytes}

theorem headerInFirst_of {q : Bytes} {more : List Bytes} (hall : (q :: more).flatten = patch)
    (hq : ∃ b t v k tail, q = b :: t ∧ unpackSizeWithLength t = .ok (v, k, tail)) : HeaderInFirst patch.length (q :: more) := by
  obtain ⟨b, t, v, k, tail, rfl, hu⟩ := hq
  intro b' t' v' k' rest' h1 h2 h3 h4
  obtain ⟨c, rfl, hc, _⟩ := unpackSizeWithLength_consumes t v k tail hu
  have h5 := unpackSizeWithLength_append hu more.flatten
  rw [List.flatten_cons, List.cons_append] at h1
  cases h1
  rw [h5] at h3
  cases h3
  have hl : 1 + k ≤ (b :: (c ++ tail)).length := by
    simp only [List.length_cons, List.length_append]; omega
  refine ⟨?_, ?_⟩
  · rw [← hall, List.flatten_cons, List.length_append]; omega
  · intro piece hp
    rw [List.find?_cons_of_pos (by simp)] at hp
    cases hp
    exact hl

theorem first_header {P : Nat} {q : Bytes} {w : World Files} {s0 w0} (h : applyPatchProcess (fileEnv fr) (applyPatchInit P) w q = .ok (0, s0, w0))
    (hi : s0.state ≠ .init) : ∃ b t v k tail, q = b :: t ∧ unpackSizeWithLength t = .ok (v, k, tail) := by
  have hs := process_hs _ (HS.start P) h
  have hf : s0.state ≠ .failed := by
    rcases process_ok (fileEnv fr) (SInv.start P) w q with (e | e) | ⟨r, s1, w1, e, g1, g2, _⟩
    · rw [e] at h; cases h
    · rw [e] at h; cases h
    · rw [e] at h
      cases h
      cases g1 with
      | ok _ _ _ g =>
        rcases g with g | ⟨g, _⟩
        · exact g
        · cases g
      | fail _ _ _ k => omega
  obtain ⟨b, t, a, t', _, q1, q2⟩ := (HT.body hi hf).1 hs.ht
  rw [List.nil_append] at q1
  obtain ⟨v, k, q3, _⟩ := hdrRun_value q2
  exact ⟨b, t, v, k, t', q1, q3⟩

theorem Applies.whole (ha : Applies fr patch n out) : HeaderInFirst patch.length [patch] := by
  obtain ⟨c, v, rest, hh, _⟩ := caccepts_header ha.accepts
  obtain ⟨b, t, w, k, h1, _, _, h2, _⟩ := hh
  refine headerInFirst_of (by simp) ⟨b, t, w, k, rest, ?_, h2⟩
  simpa using h1

theorem Applies.pieces (ha : Applies fr patch n out) {pieces : List Bytes} (hall : pieces.flatten = patch)
    (hw : HeaderInFirst patch.length pieces) : CAccepts fr patch.length pieces n out := by
  refine (C09_chunk_independence fr ha.frLen patch.length (by have := ha.patchLen; omega) [patch] pieces ?_ ?_ ha.whole hw n out).1 ha.accepts
  · rw [hall]; simp
  · rw [List.flatten_singleton]; exact ha.lzma

theorem MidWay.accepts {q : Bytes} {qs : List Bytes} {s w} (h : MidWay fr patch q qs s w) (ha : Applies fr patch n out) {more : List Bytes}
    (hall : q ++ qs.flatten ++ more.flatten = patch) : CAccepts fr patch.length (q :: qs ++ more) n out := by
  obtain ⟨s0, w0, h1, h2⟩ := h.first
  have e : (q :: (qs ++ more)).flatten = patch := by
    rw [List.flatten_cons, List.flatten_append, ← List.append_assoc, hall]
  exact ha.pieces e (headerInFirst_of e (first_header h1 h2))

theorem MidWay.notInit {q : Bytes} {qs : List Bytes} {s w} (h : MidWay fr patch q qs s w) : s.state ≠ .init := by
  obtain ⟨s0, w0, h1, h2⟩ := h.first
  obtain ⟨s1, w1, h3, h4⟩ := (processAll_append _ qs [q]).1 h.all
  rw [processAll_one, h1] at h3
  cases h3
  obtain ⟨rs, h5⟩ := processAll_calls _ qs h4
  exact runCalls_induct (fileEnv fr) (fun s _ => s.state ≠ .init) (fun h he => once_notInit _ h he) (fun _ _ h => h) _ h2 h5

/-- The rest of the patch can be processed. -/
theorem MidWay.goOn {q : Bytes} {qs : List Bytes} {s w} (h : MidWay fr patch q qs s w) (ha : Applies fr patch n out) {p rest : Bytes}
    (hall : q ++ qs.flatten ++ (p ++ rest) = patch) :
    ∃ s1 w1, applyPatchProcess (fileEnv fr) s w p = .ok (0, s1, w1) ∧ MidWay fr patch q (qs ++ [p]) s1 w1 := by
  obtain ⟨s2, w2, sf, wf, g1, g2, g3, g4, g5⟩ := (h.accepts ha (more := [p, rest]) (by simpa using hall)).split
  rw [show q :: qs ++ [p, rest] = (q :: qs ++ [p]) ++ [rest] by simp] at g1
  obtain ⟨s1, w1, k1, _⟩ := (processAll_append _ _ _).1 g1
  obtain ⟨s', w', e1, e2⟩ := (processAll_append _ _ _).1 k1
  rw [h.all] at e1
  cases e1
  rw [processAll_one] at e2
  refine ⟨s1, w1, e2, h.first, k1, ?_⟩
  rw [← hall]
  exact ⟨rest, by simp⟩

/-- The end of the patch can be processed and finalized. -/
theorem MidWay.finish {q : Bytes} {qs : List Bytes} {s w} (h : MidWay fr patch q qs s w) (ha : Applies fr patch n out)
    (hall : q ++ qs.flatten = patch) :
    ∃ sf wf, applyPatchFinalize (fileEnv fr) s w = .ok (n, sf, wf) ∧ 0 ≤ n ∧ wf.arg.out = out ∧ sf.state = .done ∧
      sf.reader ≠ some (.heatshrink none) := by
  obtain ⟨s2, w2, sf, wf, g1, g2, g3, g4, g5⟩ := (h.accepts ha (more := []) (by simpa using hall)).split
  rw [List.append_nil, h.all] at g1
  cases g1
  refine ⟨sf, wf, g2, g3, g4, g5, fun hr => ?_⟩
  obtain ⟨rs, hc⟩ := processAll_calls _ _ h.all
  have e1 : NoneYet s w := runCalls_induct (fileEnv fr) NoneYet (fun h he => once_noneYet fr h he) (fun _ _ h => h) _ (fun _ => rfl) hc
  have e2 : NoneYet sf wf := runCalls_induct (fileEnv fr) NoneYet (fun h he => once_noneYet fr h he) (fun _ _ h => h) [.finalize] e1
    (by rw [runCalls_finalize _ g2]; rfl)
  exact ha.ne (g4 ▸ e2 (.inr hr))

theorem MidWay.facts {q : Bytes} {qs : List Bytes} {s w} (h : MidWay fr patch q qs s w) (ha : Applies fr patch n out) :
    s.state ≠ .failed ∧ DInv s w ∧ s.compression ≠ 1 ∧ s.patchOffset = (q ++ qs.flatten).length ∧ s.toOffset = w.arg.out.length ∧
      w.arg.out <+: out := by
  obtain ⟨rs, hc⟩ := processAll_calls _ _ h.all
  have hd : DInv s w := runCalls_induct (fileEnv fr) DInv (fun h he => once_dump fr _ rfl ha.frLen h he)
    (fun _ _ h => h.quiet rfl rfl rfl rfl rfl) _
    ⟨fun _ => ⟨rfl, rfl⟩, fun _ => ⟨rfl, by decide, by decide⟩, fun h => absurd rfl h, rfl⟩ hc
  obtain ⟨rest, hr⟩ := h.pre
  obtain ⟨s1, w1, k1, k2⟩ := h.goOn ha (p := rest) (rest := []) (by simpa using hr)
  obtain ⟨sf, wf, g1, _, g3, g4, _⟩ := k2.finish ha (by simpa using hr)
  have hcalls : runCalls (fileEnv fr) s w [.process rest, .finalize] = .ok ([0, n], sf, wf) := by
    rw [runCalls_process _ k1, runCalls_finalize _ g1]; rfl
  have hnf : s.state ≠ .failed := fun h0 => by
    have := runCalls_failed _ _ h0 hcalls
    rw [g4] at this
    cases this
  have hout : w.arg.out <+: out := by
    rw [← g3]
    exact runCalls_induct (fileEnv fr) (fun _ w' => w.arg.out <+: w'.arg.out)
      (fun h he => by obtain ⟨x, hx, _⟩ := once_adds fr he; rw [hx]; exact h.trans (List.prefix_append _ _)) (fun _ _ h => h) _ (List.prefix_refl _) hcalls
  have hfed := runCalls_fed _ _ _ _ hc
  rw [fedBytes_process, List.flatten_cons] at hfed
  have hlen := h.pre.length_le
  have := ha.patchLen
  have := hout.length_le
  have := ha.outLen
  refine ⟨hnf, hd, ?_, ?_, ?_, hout⟩
  · obtain ⟨b, t, hf, hb⟩ := runCalls_comp _ _ _ _ hc h.notInit hnf
    rw [hb]
    rcases ha.lzma with hl | hl
    · intro h1
      have hx : SInv s := (processAll_le _ _ (SInv.start _) h.all).2
      obtain ⟨c, v, rest', hh, hbi, _⟩ := caccepts_header ha.accepts
      obtain ⟨b', t', _, _, e1, _, e3, _⟩ := hh
      rw [fedBytes_process, List.flatten_cons] at hf
      rw [List.flatten_singleton, ← hr, hf, List.cons_append] at e1
      cases e1
      rw [show b.toNat &&& 0xf = b.toNat % 16 from Nat.and_two_pow_sub_one_eq_mod b.toNat 4, e3] at h1
      subst h1
      rcases hbi with hbi | hbi | hbi | ⟨_, hbi⟩
      · cases hbi
      · cases hbi
      · cases hbi
      · exact hbi hl
    · rw [show b.toNat &&& 0xf = b.toNat % 16 from Nat.and_two_pow_sub_one_eq_mod b.toNat 4]
      rw [fedBytes_process, List.flatten_cons] at hf
      exact hl b (t ++ rest) (by rw [← hr, hf]; rfl)
  · rw [hfed]; unfold sz; omega
  · rw [hd.out]; unfold sz; omega

theorem process_grows {s : ApplyPatch} {w : World Files} {p : Bytes} {res s' w'}
    (h : applyPatchProcess (fileEnv fr) s w p = .ok (res, s', w')) : w.arg.out <+: w'.arg.out :=
  runCalls_induct (fileEnv fr) (fun _ w' => w.arg.out <+: w'.arg.out)
    (fun h he => by obtain ⟨x, hx, _⟩ := once_adds fr he; rw [hx]; exact h.trans (List.prefix_append _ _)) (fun _ _ h => h) [.process p]
    (List.prefix_refl _) (by rw [runCalls_process _ h]; rfl)

/-! Files a run can go on from. -/

/-- What is stored in state.bin agrees with the to-file. -/
def DumpDisk.Good (fr patch : Bytes) (d : DumpDisk) : Prop :=
  ∀ t, d.state = some (.whole t) →
    t.state = .init ∧ t.patchSize = patch.length ∨
    ∃ q qs s w, MidWay fr patch q qs s w ∧ Restored s t ∧ w.arg.out <+: d.to ∧ q ++ qs.flatten ≠ patch

omit [Build] in
theorem truncateTo_prefix {a b : Bytes} (h : a <+: b) : truncateTo b a.length = a := by
  obtain ⟨c, rfl⟩ := h
  unfold truncateTo
  rw [List.take_left, List.length_append, show a.length - (a.length + c.length) = 0 by omega]
  simp

/-- The object of a run: `b` says whether it continues an update that has come past the
header, and then `q` and `qs` were processed before. -/
inductive Resumed (fr patch : Bytes) : Nat → Bool → ApplyPatch → World Files → Prop
  | fresh : Resumed fr patch 0 false (applyPatchInit patch.length) { arg := {} }
  | mid {q qs s w t v} : MidWay fr patch q qs s w → Restored s t → v.arg = w.arg → q ++ qs.flatten ≠ patch →
      Resumed fr patch (q ++ qs.flatten).length true t v

omit [Build] in
theorem Restored.state_eq {s t : ApplyPatch} (h : Restored s t) : t.state = s.state ∧ t.patchOffset = s.patchOffset ∧ t.patchSize = s.patchSize ∧
    t.compression = s.compression ∧ t.reader = s.reader ∧ t.toOffset = s.toOffset := by
  obtain ⟨i, z, c, rfl⟩ := h
  exact ⟨rfl, rfl, rfl, rfl, rfl, rfl⟩

omit [Build] in
theorem Restored.refl (s : ApplyPatch) : Restored s s := ⟨s.initState, s.size, s.chunk, rfl⟩

theorem tryRestore_good (ha : Applies fr patch n out) {d : DumpDisk} (hd : d.Good fr patch) (hs : d.state ≠ some .short) :
    ∃ b t v, tryRestore fr patch.length d = some (b, t, v) ∧ Resumed fr patch d.offset b t v ∧ t.patchOffset = d.offset := by
  unfold tryRestore DumpDisk.offset
  cases h : d.state with
  | none =>
    refine ⟨_, _, _, rfl, ?_, rfl⟩
    have : truncateTo d.to 0 = [] := by unfold truncateTo; simp
    simp only [applyPatchInit, this]
    exact .fresh
  | some st =>
    cases st with
    | short => exact absurd h hs
    | whole t =>
      rcases hd t h with ⟨h1, h2⟩ | ⟨q, qs, s, w, hm, hR, hp, hne⟩
      · simp only [applyPatchRestore, h1, if_true, h2]
        refine ⟨_, _, _, rfl, ?_, rfl⟩
        have : truncateTo d.to 0 = [] := by unfold truncateTo; simp
        simp only [applyPatchInit, this]
        exact .fresh
      · obtain ⟨f1, f2, f3, f4, f5, _⟩ := hm.facts ha
        obtain ⟨e1, e2, e3, e4, e5, e6⟩ := hR.state_eq
        have hni := hm.notInit
        obtain ⟨_, t2, v2, g1, g2, g3⟩ := restore_again fr patch.length hR (w := w) (v := w) rfl f2 hni f1 f3
        obtain ⟨i, z, c, rfl⟩ := hR
        have hc := (f2.comp hni f1).resolve_left f3
        obtain ⟨p1, p2, p3⟩ := f2.pos f1
        have hseek : (fileEnv fr).fromSeek { pos := 0, out := d.to } s.fromOffset = (0, { pos := 0 + s.fromOffset, out := d.to }) := by
          refine if_neg ?_
          show ¬ (0 + s.fromOffset < 0)
          omega
        simp only [applyPatchRestore, withInit_state, withInit_patchSize, withInit_compression, withInit_patchOffset, withInit_toOffset, withInit_toSize,
          withInit_fromOffset, withInit_chunkSize, withInit_reader, withInit_readerSize, if_neg hni, hseek, ne_eq, not_true, if_false, if_pos hc]
        refine ⟨_, _, _, rfl, ?_, (if_neg hni).symm⟩
        have key : ∀ {k b t v}, k = s.patchOffset → b = true → Resumed fr patch (q ++ qs.flatten).length true t v → Resumed fr patch k b t v := by
          rintro _ _ _ _ rfl rfl h; rw [f4]; exact h
        refine key (if_neg hni) (decide_eq_true hni) ?_
        refine .mid hm ⟨.fixedHeader, {}, {}, rfl⟩ ?_ hne
        show ({ pos := 0 + s.fromOffset, out := truncateTo d.to s.toOffset } : Files) = w.arg
        rw [p1, Int.zero_add, f5, truncateTo_prefix hp]

/-- What processing does to the object of a run, if it succeeds. -/
inductive Stepped (fr patch : Bytes) (k : Nat) (b : Bool) : ApplyPatch → World Files → Prop
  | early {t v} : b = false → t.state = .init → t.patchSize = patch.length → SInv t → Stepped fr patch k b t v
  | mid {q qs s w t v} : MidWay fr patch q qs s w → (b = false ∧ t = s ∧ v = w ∨ b = true ∧ Restored s t) → v.arg = w.arg →
      (q ++ qs.flatten).length = k → Stepped fr patch k b t v

omit [Build] in
theorem readPatch_some {offset size : Nat} {p : Bytes} (h : readPatch patch offset size = some p) :
    0 < size ∧ offset + size ≤ patch.length ∧ p.length = size ∧ patch.take offset ++ (p ++ patch.drop (offset + size)) = patch := by
  unfold readPatch at h
  by_cases h1 : size = 0 ∨ patch.length < offset + size
  · rw [if_pos h1] at h; cases h
  · rw [if_neg h1] at h
    cases h
    refine ⟨by omega, by omega, ?_, ?_⟩
    · rw [List.length_take, List.length_drop]; omega
    · rw [← List.drop_drop, List.take_append_drop, List.take_append_drop]

omit [Build] in
theorem readPatch_ok {offset size : Nat} (h1 : 0 < size) (h2 : offset + size ≤ patch.length) :
    readPatch patch offset size = some ((patch.drop offset).take size) := by
  unfold readPatch
  rw [if_neg (by omega)]

omit [Build] in
theorem prefix_split {a b c d : Bytes} (h : a <+: d) (hd : d.take a.length ++ (b ++ c) = d) : a ++ (b ++ c) = d := by
  obtain ⟨x, rfl⟩ := h
  rwa [List.take_left] at hd

/-- A part is processed. -/
theorem Resumed.step (ha : Applies fr patch n out) {k b t v} (h : Resumed fr patch k b t v) {size : Nat} {p : Bytes}
    (hp : readPatch patch k size = some p) {res t1 v1} (he : applyPatchProcess (fileEnv fr) t v p = .ok (res, t1, v1)) (hres : 0 ≤ res) :
    Stepped fr patch (k + size) b t1 v1 := by
  obtain ⟨p1, p2, p3, p4⟩ := readPatch_some hp
  cases h with
  | fresh =>
    obtain ⟨g1, g2, g3⟩ := process_le _ (SInv.start _) he
    have hr : res = 0 := by omega
    subst hr
    by_cases hi : t1.state = .init
    · exact .early rfl hi g3 g2
    · refine .mid (q := p) (qs := []) ⟨⟨t1, v1, he, hi⟩, (processAll_one _).2 he, ?_⟩ (.inl ⟨rfl, rfl, rfl⟩) rfl ?_
      · exact ⟨patch.drop (0 + size), by simpa using p4⟩
      · simp [p3]
  | @mid q qs s w _ _ hm hR hv hne =>
    have hall := prefix_split hm.pre p4
    obtain ⟨s1, w1, g1, g2⟩ := hm.goOn ha hall
    obtain ⟨i, z, ho⟩ := process_rel (fileEnv fr) hR hm.notInit hv p
    rw [g1, he] at ho
    obtain ⟨_, o2, o3, _⟩ := ho
    refine .mid g2 (.inr ⟨rfl, i, z, s1.chunk, o2⟩) o3 ?_
    simp only [List.flatten_append, List.flatten_singleton, List.length_append] at *
    omega

/-- Processing succeeds, past the header or with enough data for it. -/
theorem Resumed.process (ha : Applies fr patch n out) {k b t v} (h : Resumed fr patch k b t v) {size : Nat} {p : Bytes}
    (hp : readPatch patch k size = some p) (hk : 0 < k ∨ 6 ≤ size ∨ k + size = patch.length) :
    ∃ t1 v1, applyPatchProcess (fileEnv fr) t v p = .ok (0, t1, v1) ∧ t1.state ≠ .init := by
  obtain ⟨p1, p2, p3, p4⟩ := readPatch_some hp
  cases h with
  | fresh =>
    obtain ⟨c, vv, rest, hh, _⟩ := caccepts_header ha.accepts
    have hlen := hh.rest_lt
    obtain ⟨b, tt, w, kk, h1, h1', h1'', h2, h3, h3'⟩ := hh
    rw [List.flatten_singleton] at h1 hlen
    obtain ⟨cc, rfl, hc, h0, hu⟩ := unpackSizeWithLength_consumes _ _ _ _ h2
    have hp0 : p <+: patch := ⟨patch.drop (0 + size), by simpa using p4⟩
    have hcc : b :: cc <+: p := by
      refine List.prefix_of_prefix_length_le (l₃ := patch) ⟨rest, by rw [h1]; simp⟩ hp0 ?_
      rw [h1] at hk hlen
      simp only [List.length_cons, List.length_append] at hk hlen ⊢
      omega
    obtain ⟨y, rfl⟩ := hcc
    have hall : ([b :: cc ++ y, patch.drop (0 + size)] : List Bytes).flatten = patch := by simpa using p4
    obtain ⟨s2, w2, sf, wf, g1, g2, g3, g4, g5⟩ := (ha.pieces hall (headerInFirst_of hall ⟨b, cc ++ y, w, kk, y, rfl, hu y⟩)).split
    obtain ⟨s1, w1, k1, k2⟩ := (processAll_append _ [patch.drop (0 + size)] [b :: cc ++ y]).1 g1
    rw [processAll_one] at k1
    refine ⟨s1, w1, k1, fun hi => ?_⟩
    have hs := process_hs _ (HS.start _) k1
    have ht := hs.ht
    simp only [HT, hi, hs.rest hi] at ht
    cases hii : s1.initState with
    | fixedHeader => rw [hii] at ht; obtain ⟨h4, _⟩ := ht; cases h4
    | toSize =>
      rw [hii] at ht
      obtain ⟨b', t', _, h5, h6⟩ := ht
      rw [List.append_nil] at h5
      cases h5
      obtain ⟨a, h7⟩ := hdrRun_of_unpack (hu y) h3
      have h8 := h7.symm.trans h6
      cases h8
  | @mid q qs s w _ _ hm hR hv hne =>
    have hall := prefix_split hm.pre p4
    obtain ⟨s1, w1, g1, g2⟩ := hm.goOn ha hall
    obtain ⟨i, z, ho⟩ := process_rel (fileEnv fr) hR hm.notInit hv p
    rw [g1] at ho
    cases he : applyPatchProcess (fileEnv fr) t v p with
    | error u => rw [he] at ho; exact ho.elim
    | ok o =>
      obtain ⟨res, t1, v1⟩ := o
      rw [he] at ho
      obtain ⟨rfl, o2, o3, o4⟩ := ho
      exact ⟨t1, v1, rfl, by rw [o2]; exact o4⟩

/-- What is stored can be used. -/
theorem Stepped.good (ha : Applies fr patch n out) {k b t v} (h : Stepped fr patch k b t v) (hk : k < patch.length) {to : Bytes} (hto : v.arg.out <+: to) :
    applyPatchDump t = (0, t) ∧ DumpDisk.Good fr patch { to := to, state := some (.whole t) } ∧
      DumpDisk.offset { to := to, state := some (.whole t) } = (if t.state = .init then 0 else k) := by
  cases h with
  | early h1 h2 h3 h4 =>
    refine ⟨by simp only [applyPatchDump, if_pos h2], ?_, ?_⟩
    · intro t' ht
      cases ht
      exact .inl ⟨h2, h3⟩
    · simp only [DumpDisk.offset, h2, if_true]
  | @mid q qs s w _ _ hm hR hv hl =>
    have hR : Restored s t := by
      rcases hR with ⟨_, rfl, _⟩ | ⟨_, h⟩
      · exact .refl _
      · exact h
    obtain ⟨f1, f2, f3, f4, f5, _⟩ := hm.facts ha
    obtain ⟨e1, e2, e3, e4, e5, e6⟩ := hR.state_eq
    have hni := hm.notInit
    have hc := (f2.comp hni f1).resolve_left f3
    rw [← e4] at hc
    have hni' : t.state ≠ .init := by rw [e1]; exact hni
    refine ⟨by simp only [applyPatchDump, if_neg hni', if_pos hc], ?_, ?_⟩
    · intro t' ht
      cases ht
      refine .inr ⟨q, qs, s, w, hm, hR, by rw [← hv]; exact hto, fun h => ?_⟩
      rw [h] at hl
      omega
    · simp only [DumpDisk.offset, if_neg hni']
      rw [e2, f4, hl]

/-- Finalizing a restored object is defined if the reader has read its header. -/
theorem finalize_loops {s t : ApplyPatch} (hR : Restored s t) (hs : s.state ≠ .init) {w v : World Files} (hw : v.arg = w.arg) {res sf wf}
    (h : applyPatchFinalize (fileEnv fr) s w = .ok (res, sf, wf)) (hr : sf.reader ≠ some (.heatshrink none)) :
    match applyPatchFinalizeRestored (fileEnv fr) t v with
    | .ok _ => True
    | .error _ => False := by
  obtain ⟨i, z, c, rfl⟩ := hR
  unfold applyPatchFinalize at h
  unfold applyPatchFinalizeRestored
  have e1 : ({ { s.withInit i z with chunk := c } with chunk := { buf := [], offset := 0 } } : ApplyPatch) =
      ({ s with chunk := { buf := [], offset := 0 } } : ApplyPatch).withInit i z := rfl
  rw [e1]
  have hs1 : ({ s with chunk := { buf := [], offset := 0 } } : ApplyPatch).state ≠ .init := hs
  simp only at h
  generalize ({ s with chunk := { buf := [], offset := 0 } } : ApplyPatch) = s1 at *
  simp only [fuel_withInit]
  have := finalizeLoop_rel (fileEnv fr) i z s1.fuel s1 hs1 hw
  generalize s1.fuel = m at *
  cases h1 : finalizeLoop (fileEnv fr) m s1 w with
  | error u => rw [h1] at h; cases h
  | ok o =>
    cases h2 : finalizeLoop (fileEnv fr) m (s1.withInit i z) v with
    | error u' => rw [h1, h2] at this; exact this.elim
    | ok o' =>
      rw [h1, h2] at this
      obtain ⟨r, s3, w3⟩ := o
      obtain ⟨r', s3', w3'⟩ := o'
      obtain ⟨rfl, rfl, h3, h4⟩ := this
      rw [h1] at h
      cases h
      have hr : (s3.withInit i z).reader ≠ some (.heatshrink none) := hr
      simp only [Bind.bind, Except.bind]
      rw [if_neg hr]
      trivial

/-- The end of the patch. -/
theorem Stepped.finish (ha : Applies fr patch n out) {b t v} (h : Stepped fr patch patch.length b t v) (hi : t.state ≠ .init) :
    finalizeAndExit fr b t v = .ok (0, { to := out, state := none }) := by
  cases h with
  | early h1 h2 => exact absurd h2 hi
  | @mid q qs s w _ _ hm hR hv hl =>
    have hall : q ++ qs.flatten = patch := hm.pre.eq_of_length hl
    obtain ⟨sf, wf, g1, g2, g3, g4, g5⟩ := hm.finish ha hall
    have hn : ¬ n < 0 := by omega
    rcases hR with ⟨rfl, rfl, rfl⟩ | ⟨rfl, hR⟩
    · simp only [finalizeAndExit, Bool.false_eq_true, if_false, g1, Bind.bind, Except.bind, hn, g3]
    · have key : ∃ sf' wf', applyPatchFinalizeRestored (fileEnv fr) t v = .ok (n, sf', wf') ∧ wf'.arg = wf.arg := by
        rcases finalize_rel (fileEnv fr) hR hm.notInit hv with ⟨i, z, ho⟩ | ⟨h1, h2⟩
        · rw [g1] at ho
          cases he : applyPatchFinalizeRestored (fileEnv fr) t v with
          | error u => rw [he] at ho; exact ho.elim
          | ok o =>
            obtain ⟨r, sf', wf'⟩ := o
            rw [he] at ho
            obtain ⟨rfl, _, o3, _⟩ := ho
            exact ⟨sf', wf', rfl, o3⟩
        · exfalso
          have hloop := finalize_loops hR hm.notInit hv g1 g5
          rw [h2] at hloop
          exact hloop
      obtain ⟨sf', wf', k1, k2⟩ := key
      simp only [finalizeAndExit, if_true, k1, Bind.bind, Except.bind, hn, if_false, k2, g3]

theorem Stepped.prefix_out (ha : Applies fr patch n out) {k b t v} (h : Stepped fr patch k b t v) (hi : t.state ≠ .init) : v.arg.out <+: out := by
  cases h with
  | early h1 h2 => exact absurd h2 hi
  | mid hm hR hv hl =>
    obtain ⟨_, _, _, _, _, h⟩ := hm.facts ha
    rw [hv]; exact h

/-- Processing more after the state was stored. -/
theorem Stepped.more (ha : Applies fr patch n out) {k b t v} (h : Stepped fr patch k b t v) (hi : t.state ≠ .init) {size : Nat} {p : Bytes}
    (hp : readPatch patch k size = some p) :
    ∃ t1 v1, applyPatchProcess (fileEnv fr) t v p = .ok (0, t1, v1) ∧ v1.arg.out <+: out ∧ v.arg.out <+: v1.arg.out := by
  obtain ⟨p1, p2, p3, p4⟩ := readPatch_some hp
  cases h with
  | early h1 h2 => exact absurd h2 hi
  | @mid q qs s w _ _ hm hR hv hl =>
    have hR : Restored s t := by
      rcases hR with ⟨_, rfl, _⟩ | ⟨_, h⟩
      · exact .refl _
      · exact h
    rw [← hl] at p4
    have hall := prefix_split hm.pre p4
    obtain ⟨s1, w1, g1, g2⟩ := hm.goOn ha hall
    obtain ⟨i, z, ho⟩ := process_rel (fileEnv fr) hR hm.notInit hv p
    rw [g1] at ho
    cases he : applyPatchProcess (fileEnv fr) t v p with
    | error u => rw [he] at ho; exact ho.elim
    | ok o =>
      obtain ⟨res, t1, v1⟩ := o
      rw [he] at ho
      obtain ⟨rfl, o2, o3, o4⟩ := ho
      obtain ⟨_, _, _, _, _, hout⟩ := g2.facts ha
      refine ⟨t1, v1, rfl, by rw [o3]; exact hout, ?_⟩
      rw [o3, hv]
      exact process_grows g1

theorem storeAndGoOn_good (ha : Applies fr patch n out) {k b t v} (h : Stepped fr patch k b t v) (hk : k < patch.length) {after status d'}
    (he : storeAndGoOn fr patch k after t v = .ok (status, d')) :
    d'.Good fr patch ∧ d'.state ≠ some .short ∧ (status = 0 → d'.state = some (.whole t) ∧ d'.offset = if t.state = .init then 0 else k) ∧
      (status ≠ 0 → status = 1 ∧ d'.state = none) := by
  have bad : ∀ {to : Bytes}, cleanAndExit to = (status, d') → d'.Good fr patch ∧ d'.state ≠ some .short ∧
      (status = 0 → d'.state = some (.whole t) ∧ d'.offset = if t.state = .init then 0 else k) ∧
      (status ≠ 0 → status = 1 ∧ d'.state = none) := by
    intro to h
    cases h
    exact ⟨(fun t h => by cases h), (fun h => by cases h), (fun h => by cases h), fun _ => ⟨rfl, rfl⟩⟩
  unfold storeAndGoOn at he
  have hdump := (h.good ha hk (List.prefix_refl _)).1
  simp only [hdump, ne_eq, not_true, if_false] at he
  by_cases h0 : after = 0
  · rw [if_pos h0] at he
    cases he
    obtain ⟨_, g2, g3⟩ := h.good ha hk (List.prefix_refl _)
    exact ⟨g2, (fun h => by cases h), fun _ => ⟨rfl, g3⟩, fun h => absurd rfl h⟩
  · rw [if_neg h0] at he
    cases hp : readPatch patch k after with
    | none => rw [hp] at he; simp only at he; exact bad (by cases he; rfl)
    | some p =>
      rw [hp] at he
      simp only [Bind.bind, Except.bind] at he
      cases h1 : applyPatchProcess (fileEnv fr) t v p with
      | error u => rw [h1] at he; cases he
      | ok o =>
        obtain ⟨res, t1, v1⟩ := o
        rw [h1] at he
        simp only at he
        by_cases hr : res < 0
        · rw [if_pos hr] at he; exact bad (by cases he; rfl)
        · rw [if_neg hr] at he
          cases he
          obtain ⟨_, g2, g3⟩ := h.good ha hk (process_grows h1)
          exact ⟨g2, (fun h => by cases h), fun _ => ⟨rfl, g3⟩, fun h => absurd rfl h⟩

/-- What a run that ends does. -/
theorem run_good (ha : Applies fr patch n out) {d : DumpDisk} (hd : d.Good fr patch) {size after status d'}
    (he : dumpRestoreMain fr patch size after d = .ok (status, d')) :
    d'.Good fr patch ∧ d'.state ≠ some .short ∧ (status ≠ 0 → status = 1 ∧ d'.state = none) ∧
      (status = 0 → d'.state = none ∧ d'.to = out ∧ d.offset + size = patch.length ∨
        (∃ t, d'.state = some (.whole t)) ∧ d.offset + size < patch.length ∧
          (d'.offset = d.offset + size ∨ d'.offset = 0 ∧ d.offset = 0 ∧ size < 6)) := by
  have bad : ∀ {to : Bytes}, cleanAndExit to = (status, d') → d'.Good fr patch ∧ d'.state ≠ some .short ∧
      (status ≠ 0 → status = 1 ∧ d'.state = none) ∧
      (status = 0 → d'.state = none ∧ d'.to = out ∧ d.offset + size = patch.length ∨
        (∃ t, d'.state = some (.whole t)) ∧ d.offset + size < patch.length ∧
          (d'.offset = d.offset + size ∨ d'.offset = 0 ∧ d.offset = 0 ∧ size < 6)) := by
    intro to h
    cases h
    exact ⟨(fun t h => by cases h), (fun h => by cases h), fun _ => ⟨rfl, rfl⟩, (fun h => by cases h)⟩
  unfold dumpRestoreMain at he
  by_cases hne : patch = []
  · rw [if_pos hne] at he; exact bad (by cases he; rfl)
  rw [if_neg hne] at he
  by_cases hs : d.state = some .short
  · have : tryRestore fr patch.length d = none := by unfold tryRestore; rw [hs]
    rw [this] at he
    exact bad (by cases he; rfl)
  obtain ⟨b, t, v, g1, g2, g3⟩ := tryRestore_good ha hd hs
  rw [g1] at he
  simp only [g3] at he
  cases hp : readPatch patch d.offset size with
  | none => rw [hp] at he; simp only at he; exact bad (by cases he; rfl)
  | some p =>
    rw [hp] at he
    simp only [Bind.bind, Except.bind] at he
    cases h1 : applyPatchProcess (fileEnv fr) t v p with
    | error u => rw [h1] at he; cases he
    | ok o =>
      obtain ⟨res, t1, v1⟩ := o
      rw [h1] at he
      simp only at he
      by_cases hr : res < 0
      · rw [if_pos hr] at he; exact bad (by cases he; rfl)
      · rw [if_neg hr] at he
        have hst := g2.step ha hp h1 (by omega)
        obtain ⟨p1, p2, _⟩ := readPatch_some hp
        have hni : 0 < d.offset ∨ 6 ≤ size ∨ d.offset + size = patch.length → t1.state ≠ .init := by
          intro hk
          obtain ⟨t2, v2, e1, e2⟩ := g2.process ha hp hk
          rw [h1] at e1
          cases e1
          exact e2
        by_cases hend : d.offset + size = patch.length
        · rw [if_pos hend] at he
          rw [hend] at hst
          rw [hst.finish ha (hni (.inr (.inr hend)))] at he
          cases he
          exact ⟨(fun t h => by cases h), (fun h => by cases h), fun h => absurd rfl h, fun _ => .inl ⟨rfl, rfl, hend⟩⟩
        · rw [if_neg hend] at he
          obtain ⟨q1, q2, q3, q4⟩ := storeAndGoOn_good ha hst (by omega) he
          refine ⟨q1, q2, q4, fun h0 => .inr ⟨⟨_, (q3 h0).1⟩, by omega, ?_⟩⟩
          by_cases hi : t1.state = .init
          · right
            refine ⟨by rw [(q3 h0).2, if_pos hi], ?_, ?_⟩
            · exact Nat.eq_zero_of_not_pos fun h => hni (.inl h) hi
            · exact Nat.lt_of_not_le fun h => hni (.inr (.inl h)) hi
          · left
            rw [(q3 h0).2, if_neg hi]

theorem interrupted_good (ha : Applies fr patch n out) {d : DumpDisk} (hd : d.Good fr patch) {size d'} (hi : Interrupted true fr patch size d d') :
    d'.Good fr patch := by
  cases hi with
  | early => exact hd
  | @processing b t v to g1 hto =>
    intro u hu
    have hs : d.state ≠ some .short := by intro h; simp only [h] at hu; cases hu
    obtain ⟨b', t', v', g1', g2, g3⟩ := tryRestore_good ha hd hs
    rw [g1] at g1'
    cases g1'
    rcases hd u hu with h | ⟨q, qs, s, w, hm, hR, hp, hne⟩
    · exact .inl h
    · refine .inr ⟨q, qs, s, w, hm, hR, ?_, hne⟩
      obtain ⟨_, f2, _, f4, f5, _⟩ := hm.facts ha
      -- what the run begins with is what was written before the dump
      have e : v.arg.out = w.arg.out := by
        have hni : u.state ≠ .init := by rw [hR.state_eq.1]; exact hm.notInit
        simp only at hu
        simp only [tryRestore, hu] at g1
        split at g1
        · cases g1
        · cases g1
          simp only
          have : (applyPatchRestore (fileEnv fr) (applyPatchInit patch.length) { arg := { out := d.to } } u).2.1.toOffset = u.toOffset := by
            simp only [applyPatchRestore, if_neg hni]
            split
            · rfl
            · split <;> rfl
          rw [this, hR.state_eq.2.2.2.2.2, f5, truncateTo_prefix hp]
      rw [← e]
      exact hto
  | storing => intro u hu; cases hu
  | removed => intro u hu; cases hu
  | @stored b t v p res t1 v1 dumped to g1 hp h1 hr hend hdump _ hsync =>
    by_cases hs : d.state = some .short
    · unfold tryRestore at g1
      rw [hs] at g1
      cases g1
    · obtain ⟨b', t', v', g1', g2, g3⟩ := tryRestore_good ha hd hs
      rw [g1] at g1'
      cases g1'
      rw [g3] at hp hend
      have hst := g2.step ha hp h1 hr
      obtain ⟨p1, p2, _⟩ := readPatch_some hp
      obtain ⟨q1, q2, q3⟩ := hst.good ha (by omega) (hsync rfl)
      rw [q1] at hdump
      cases hdump
      exact q2

theorem reach_good (ha : Applies fr patch n out) {d : DumpDisk} (h : DumpReach true fr patch d) : d.Good fr patch := by
  induction h with
  | first to => intro u hu; cases hu
  | ran _ he ih => exact (run_good ha ih he).1
  | interrupted _ hi ih => exact interrupted_good ha ih hi

/-- A run that goes well. -/
theorem run_ok (ha : Applies fr patch n out) {d : DumpDisk} (hd : d.Good fr patch) (hs : d.state ≠ some .short) {size after : Nat}
    (h0 : 0 < size) (h1 : d.offset + size < patch.length) (h2 : 0 < after → d.offset + size + after ≤ patch.length) (h3 : 0 < d.offset ∨ 6 ≤ size) :
    ∃ d', dumpRestoreMain fr patch size after d = .ok (0, d') ∧ d'.offset = d.offset + size ∧ d'.to <+: out := by
  obtain ⟨b, t, v, g1, g2, g3⟩ := tryRestore_good ha hd hs
  have hp := readPatch_ok (patch := patch) h0 (Nat.le_of_lt h1)
  have hk : 0 < d.offset ∨ 6 ≤ size ∨ d.offset + size = patch.length := by omega
  obtain ⟨t1, v1, e1, e2⟩ := g2.process ha hp hk
  have hst := g2.step ha hp e1 (Int.le_refl 0)
  have hne : patch ≠ [] := by intro h; rw [h] at h1; cases h1
  have key : ∃ d', storeAndGoOn fr patch (d.offset + size) after t1 v1 = .ok (0, d') ∧ d'.to <+: out := by
    obtain ⟨q1, q2, q3⟩ := hst.good ha h1 (List.prefix_refl _)
    unfold storeAndGoOn
    simp only [q1, ne_eq, not_true, if_false]
    by_cases ha0 : after = 0
    · rw [if_pos ha0]
      exact ⟨_, rfl, hst.prefix_out ha e2⟩
    · rw [if_neg ha0]
      have hp2 := readPatch_ok (patch := patch) (by omega) (h2 (by omega))
      obtain ⟨t2, v2, k1, k2, k3⟩ := hst.more ha e2 hp2
      rw [hp2]
      simp only [k1, Bind.bind, Except.bind]
      exact ⟨_, rfl, k2⟩
  obtain ⟨d', k1, k2⟩ := key
  refine ⟨d', ?_, ?_, k2⟩
  · unfold dumpRestoreMain
    rw [if_neg hne, g1]
    simp only [g3, hp, e1, Bind.bind, Except.bind]
    rw [if_neg (by decide), if_neg (by omega)]
    exact k1
  · have := (storeAndGoOn_good ha hst h1 k1).2.2.1 rfl
    rw [this.2, if_neg e2]

/-- The last run. -/
theorem run_last (ha : Applies fr patch n out) {d : DumpDisk} (hd : d.Good fr patch) (hs : d.state ≠ some .short) (after : Nat) :
    d.offset < patch.length ∧ dumpRestoreMain fr patch (patch.length - d.offset) after d = .ok (0, { to := out, state := none }) := by
  obtain ⟨b, t, v, g1, g2, g3⟩ := tryRestore_good ha hd hs
  have hlt : d.offset < patch.length := by
    obtain ⟨c, vv, rest, hh, _⟩ := caccepts_header ha.accepts
    have hl := hh.rest_lt
    rw [List.flatten_singleton] at hl
    clear g1 g3
    generalize hk : d.offset = k at g2
    cases g2 with
    | fresh => omega
    | mid hm _ _ hne =>
      have := hm.pre.length_le
      exact Nat.lt_of_le_of_ne this fun h => hne (hm.pre.eq_of_length h)
  refine ⟨hlt, ?_⟩
  have hp := readPatch_ok (patch := patch) (offset := d.offset) (size := patch.length - d.offset) (by omega) (by omega)
  have hend : d.offset + (patch.length - d.offset) = patch.length := by omega
  obtain ⟨t1, v1, e1, e2⟩ := g2.process ha hp (.inr (.inr hend))
  have hst := g2.step ha hp e1 (Int.le_refl 0)
  have hne : patch ≠ [] := by intro h; rw [h] at hlt; cases hlt
  unfold dumpRestoreMain
  rw [if_neg hne, g1]
  simp only [g3, hp, e1, Bind.bind, Except.bind]
  rw [if_neg (by decide), if_pos hend]
  rw [hend] at hst
  exact hst.finish ha e2

end Detools
