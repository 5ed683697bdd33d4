import Verif.Proofs.CSeqRun
/-
Whole runs: the loops of process and finalize, and a sequence of pieces.
-/
namespace Detools

variable [Build] [NoLzma]

omit [NoLzma] in
theorem mean_failed {fr : Bytes} {p : Nat} {s : ApplyPatch} {w : World Files} (h : s.state = .failed) {x res} :
    ¬ Mean fr p s w x res := by
  simp [Mean, h]

omit [NoLzma] in
theorem mean_done_iff {fr : Bytes} {p : Nat} {s : ApplyPatch} {w : World Files} (hg : GInv s w) (h : s.state = .done) {x res} :
    Mean fr p s w x res ↔ res = seqAbs s w.arg ∧ ∀ r, s.reader = some r → r.destroy = 0 := by
  obtain ⟨r, hb⟩ := hg.body (by rw [h]; decide) (by rw [h]; decide)
  rw [mean_body (by rw [h]; decide) (by rw [h]; decide) hb]
  have hd : (seqSink fr).done (seqAbs s w.arg) := by
    show (seqAbs s w.arg).phase = .done
    simp [seqAbs, SeqA.norm, h]
  have hdes : r.abs.1.destroy = r.destroy := by
    cases r <;> rfl
  rw [succ_done hd, hdes]
  constructor
  · rintro ⟨h1, h2⟩
    refine ⟨h1, fun r' hr' => ?_⟩
    rw [hb.reader] at hr'
    cases hr'
    exact h2
  · rintro ⟨h1, h2⟩
    exact ⟨h1, h2 r hb.reader⟩

omit [NoLzma] in
/-- In the state done the rest of the patch is not looked at. -/
theorem mean_done {fr : Bytes} {p : Nat} {s : ApplyPatch} {w : World Files} (hg : GInv s w) (h : s.state = .done) {x y res} :
    Mean fr p s w x res ↔ Mean fr p s w y res := by
  rw [mean_done_iff hg h, mean_done_iff hg h]

theorem gout (fr : Bytes) (hfr : fr.length < 2 ^ 31) (p : Nat) (hp : p < 2 ^ 63) (later : Bytes) {s : ApplyPatch} {w : World Files}
    (hg : GInv s w) (hq : HQ p s later) (h2 : s.state ≠ .failed) (h3 : s.state ≠ .done) :
    (∃ u, processOnce (fileEnv fr) s w = .error u ∧ ∀ res, ¬ Mean fr p s w (s.chunk.rest ++ later) res) ∨
      ∃ out, processOnce (fileEnv fr) s w = .ok out ∧ GOut fr p later s w out := by
  by_cases h1 : s.state = .init
  · exact .inr (hdr_gout fr p hp later hg h1 hq)
  · exact body_gout fr hfr p later hg h1 h2 h3

/-- What the loop of process achieves. -/
inductive LOut (fr : Bytes) (p : Nat) (later : Bytes) (s : ApplyPatch) (w : World Files) : SeqRes Files → Prop
  | fail {e s' w'} : e < 0 → e ≠ ALREADY_DONE → (∀ res, ¬ Mean fr p s w (s.chunk.rest ++ later) res) → LOut fr p later s w (e, s', w')
  | ok {e s' w'} : e = 0 ∨ e = 1 ∨ e = ALREADY_DONE → GInv s' w' → s'.state ≠ .failed → HQ p s' later →
      (s'.state = .init → s'.chunk.rest = []) →
      (s'.state = .init → s'.initState = .fixedHeader → s.chunk.rest = []) →
      (∀ res, Mean fr p s w (s.chunk.rest ++ later) res ↔ Mean fr p s' w' later res) →
      LOut fr p later s w (e, s', w')

omit [NoLzma] in
theorem processOnce_done (E : SeqEnv σ) {s : ApplyPatch} {w : World σ} (h : s.state = .done) :
    processOnce E s w = .ok (ALREADY_DONE, s, w) := by
  simp [processOnce, h]

theorem loop_sim (fr : Bytes) (hfr : fr.length < 2 ^ 31) (p : Nat) (hp : p < 2 ^ 63) (later : Bytes) :
    ∀ (fuel : Nat) (s : ApplyPatch) (w : World Files), GInv s w → HQ p s later → s.state ≠ .failed → s.mu + 2 ≤ fuel →
    (∃ u, processLoop (fileEnv fr) fuel 0 s w = .error u ∧ ∀ res, ¬ Mean fr p s w (s.chunk.rest ++ later) res) ∨
      ∃ out, processLoop (fileEnv fr) fuel 0 s w = .ok out ∧ LOut fr p later s w out := by
  intro fuel
  induction fuel with
  | zero => intro s w _ _ _ h; omega
  | succ fuel ih =>
    intro s w hg hq h2 hf
    obtain ⟨hc, _, _⟩ := hg.inv.live h2
    by_cases ha : s.chunk.available = true
    · have hne : s.chunk.rest ≠ [] := by
        intro h
        rw [s.chunk.available_eq hc, h] at ha
        cases ha
      unfold processLoop
      rw [if_pos ⟨ha, by decide⟩]
      obtain ⟨f', rfl⟩ : ∃ f', fuel = f' + 1 := ⟨fuel - 1, by omega⟩
      by_cases h3 : s.state = .done
      · right
        rw [processOnce_done _ h3]
        refine ⟨_, processLoop_stop _ (.inr adNeg), .ok (.inr (.inr rfl)) hg h2 hq ?_ ?_ fun res => mean_done hg h3⟩
        · intro h; rw [h3] at h; cases h
        · intro h; rw [h3] at h; cases h
      · rcases gout fr hfr p hp later hg hq h2 h3 with ⟨u, e, hno⟩ | ⟨out, e, ho⟩
        · left
          rw [e]
          exact ⟨u, rfl, hno⟩
        · rw [e]
          simp only [Bind.bind, Except.bind]
          cases ho with
          | fail g1 g2 g3 =>
            right
            exact ⟨_, processLoop_stop _ (.inr g1), .fail g1 g2 (g3 (.inl hne))⟩
          | ok g1 g2 g3 g4 g5 g6 =>
            rcases ih _ _ g1 g2 g4 (by omega) with ⟨u, e1, hno⟩ | ⟨out, e1, ho⟩
            · left
              exact ⟨u, e1, fun res => by rw [g6]; exact hno res⟩
            · right
              refine ⟨out, e1, ?_⟩
              cases ho with
              | fail k1 k2 k3 => exact .fail k1 k2 fun res => by rw [g6]; exact k3 res
              | @ok e' s2 w2 k1 k2 k3 k4 k5 k6 k7 =>
                refine .ok k1 k2 k3 k4 k5 (fun hi hx => ?_) fun res => by rw [g6]; exact k7 res
                exfalso
                have hr := k6 hi hx
                -- the loop stopped at once
                have hav : ∀ {c : Chunk}, c.Inv → c.rest = [] → c.available = false := by
                  intro c h1 h2
                  rw [c.available_eq h1, h2]; rfl
                rw [processLoop_stop _ (.inl (hav (g1.inv.live g4).1 hr))] at e1
                cases e1
                exact g5 hi hx
          | more g1 g2 g3 g4 g5 g6 g7 =>
            right
            have hav : ∀ {c : Chunk}, c.Inv → c.rest = [] → c.available = false := by
              intro c h1 h2
              rw [c.available_eq h1, h2]; rfl
            have hs : ∀ q, q = s.state → q ≠ .failed := by intro q hq; rw [hq]; exact h2
            refine ⟨_, processLoop_stop _ (.inl (hav (g1.inv.live (hs _ g4)).1 g3)), .ok (.inr (.inl rfl)) g1 (hs _ g4) g2 (fun _ => g3) (fun hi hx => absurd hx (g5 hi)) g7⟩
    · right
      rw [Bool.not_eq_true] at ha
      have hr : s.chunk.rest = [] := by
        rw [s.chunk.available_eq hc] at ha
        cases h : s.chunk.rest with
        | nil => rfl
        | cons b t => rw [h] at ha; cases ha
      refine ⟨_, processLoop_stop _ (.inl ha), .ok (.inl rfl) hg h2 hq (fun _ => hr) (fun _ _ => hr) fun res => by rw [hr]; rfl⟩

theorem final_sim (fr : Bytes) (hfr : fr.length < 2 ^ 31) (p : Nat) (hp : p < 2 ^ 63) :
    ∀ (fuel : Nat) (s : ApplyPatch) (w : World Files), GInv s w → HQ p s [] → s.state ≠ .failed → s.mu < fuel →
    (∃ u, finalizeLoop (fileEnv fr) fuel s w = .error u ∧ ∀ res, ¬ Mean fr p s w s.chunk.rest res) ∨
      ∃ e s' w', finalizeLoop (fileEnv fr) fuel s w = .ok (e, s', w') ∧
        ((e = 1 ∨ e < 0 ∧ e ≠ ALREADY_DONE) ∧ (∀ res, ¬ Mean fr p s w s.chunk.rest res) ∨
         e = ALREADY_DONE ∧ s'.state = .done ∧ GInv s' w' ∧ ∀ res, Mean fr p s w s.chunk.rest res ↔ Mean fr p s' w' [] res) := by
  intro fuel
  induction fuel with
  | zero => intro s w _ _ _ h; omega
  | succ fuel ih =>
    intro s w hg hq h2 hf
    unfold finalizeLoop
    by_cases h3 : s.state = .done
    · right
      rw [processOnce_done _ h3]
      exact ⟨_, _, _, rfl, .inr ⟨rfl, h3, hg, fun res => mean_done hg h3⟩⟩
    · rcases gout fr hfr p hp [] hg hq h2 h3 with ⟨u, e, hno⟩ | ⟨out, e, ho⟩
      · left
        rw [e]
        simp only [List.append_nil] at hno
        exact ⟨u, rfl, hno⟩
      · rw [e]
        simp only [Bind.bind, Except.bind]
        cases ho with
        | fail g1 g2 g3 =>
          right
          rw [if_neg (by omega)]
          simp only [List.append_nil] at g3
          exact ⟨_, _, _, rfl, .inl ⟨.inr ⟨g1, g2⟩, g3 (.inr trivial)⟩⟩
        | ok g1 g2 g3 g4 g5 g6 =>
          rw [if_pos rfl]
          simp only [List.append_nil] at g6
          rcases ih _ _ g1 g2 g4 (by omega) with ⟨u, e1, hno⟩ | ⟨e', s', w', e1, ho⟩
          · left
            exact ⟨u, e1, fun res => by rw [g6]; exact hno res⟩
          · right
            refine ⟨e', s', w', e1, ?_⟩
            rcases ho with ⟨k1, k2⟩ | ⟨k1, k2, k3, k4⟩
            · exact .inl ⟨k1, fun res => by rw [g6]; exact k2 res⟩
            · exact .inr ⟨k1, k2, k3, fun res => by rw [g6]; exact k4 res⟩
        | more g1 g2 g3 g4 g5 g6 g7 =>
          right
          rw [if_neg one0]
          simp only [List.append_nil] at g7
          exact ⟨_, _, _, rfl, .inl ⟨.inl rfl, fun res => by rw [g7]; exact g6 res⟩⟩

/-! Pieces. -/

/-- A header that selects no compression is wholly inside the first non-empty piece,
and `p` is the size of the patch after the header. -/
def HeaderWhole (P p : Nat) (pieces : List Bytes) : Prop :=
  ∀ b t v a t', pieces.flatten = b :: t → b.toNat &&& 0xf = 0 → hdrRun {} t = .value v a t' →
    (∀ piece, pieces.find? (· ≠ []) = some piece → (b :: t).length - t'.length ≤ piece.length) ∧
    szOfInt ((P : Int) - ((b :: t).length - t'.length : Nat)) = p

/-- The same in terms of a state. -/
def PiecesOk (p : Nat) (s : ApplyPatch) (pieces : List Bytes) : Prop :=
  s.state = .init →
  match s.initState with
  | .fixedHeader => HeaderWhole s.patchSize p pieces
  | .toSize => s.compression = 0 → ∀ v a t', hdrRun s.size pieces.flatten ≠ .value v a t'

omit [NoLzma] in
theorem mean_chunk {fr : Bytes} {p : Nat} {s : ApplyPatch} {w : World Files} {c : Chunk} {po : Nat} {x res} :
    Mean fr p { s with patchOffset := po, chunk := c } w x res ↔ Mean fr p s w x res := by
  have hb : ∀ r, Body { s with patchOffset := po, chunk := c } w r ↔ Body s w r :=
    fun r => ⟨fun h => ⟨h.1, h.2, h.3, h.4, h.5, h.6⟩, fun h => ⟨h.1, h.2, h.3, h.4, h.5, h.6⟩⟩
  simp only [Mean, hb, seqAbs]

omit [NoLzma] in
theorem GInv.setChunk {s : ApplyPatch} {w : World Files} (h : GInv s w) {buf : Bytes} {po : Nat} :
    GInv { s with patchOffset := po, chunk := { buf := buf, offset := 0 } } w :=
  ⟨h.inv.setChunk, h.init, fun h1 h2 => (h.body h1 h2).imp fun r h => ⟨h.1, h.2, h.3, h.4, h.5, h.6⟩⟩

omit [NoLzma] [Build] in
theorem rest_zero (buf : Bytes) : ({ buf := buf, offset := 0 } : Chunk).rest = buf := rfl

omit [NoLzma] [Build] in
theorem hq_start {p : Nat} {s : ApplyPatch} {q : Bytes} {qs : List Bytes} (h : PiecesOk p s (q :: qs)) {po : Nat} :
    HQ p { s with patchOffset := po, chunk := { buf := q, offset := 0 } } qs.flatten := by
  intro hi
  have h := h hi
  simp only at hi
  cases hs : s.initState with
  | fixedHeader =>
    simp only [hs] at h ⊢
    rw [rest_zero]
    rintro b t rfl hb v a t' hh
    obtain ⟨h1, h2⟩ := h b (t ++ qs.flatten) v a t' (by simp) hb hh
    have := h1 (b :: t) (by simp)
    simp only [List.length_cons, List.length_append] at this h2 ⊢
    have hle : qs.flatten.length ≤ t'.length := by omega
    refine ⟨hle, ?_⟩
    rw [← h2]
    congr 2
    omega
  | toSize =>
    simp only [hs] at h ⊢
    intro hc v a t' hh
    rw [rest_zero] at hh
    exact absurd hh (by simpa using h hc v a t')

theorem process_sim (fr : Bytes) (hfr : fr.length < 2 ^ 31) (p : Nat) (hp : p < 2 ^ 63) {s : ApplyPatch} {w : World Files}
    (hg : GInv s w) (h2 : s.state ≠ .failed) (q : Bytes) (qs : List Bytes) (hq : PiecesOk p s (q :: qs)) :
    (∃ u, applyPatchProcess (fileEnv fr) s w q = .error u ∧ ∀ res, ¬ Mean fr p s w (q ++ qs.flatten) res) ∨
      ∃ e s' w', applyPatchProcess (fileEnv fr) s w q = .ok (e, s', w') ∧
        (e < 0 ∧ (∀ res, ¬ Mean fr p s w (q ++ qs.flatten) res) ∨
         e = 0 ∧ GInv s' w' ∧ s'.state ≠ .failed ∧ PiecesOk p s' qs ∧ 
           ∀ res, Mean fr p s w (q ++ qs.flatten) res ↔ Mean fr p s' w' qs.flatten res) := by
  unfold applyPatchProcess
  have hg1 := hg.setChunk (buf := q) (po := sz (s.patchOffset + q.length))
  have hq1 := hq_start hq (po := sz (s.patchOffset + q.length))
  have hm : ∀ x res, Mean fr p { s with patchOffset := sz (s.patchOffset + q.length), chunk := { buf := q, offset := 0 } } w x res ↔ Mean fr p s w x res := fun x res => mean_chunk
  simp only
  have hst : ({ s with patchOffset := sz (s.patchOffset + q.length), chunk := { buf := q, offset := 0 } } : ApplyPatch).state = s.state := rfl
  have hist : ({ s with patchOffset := sz (s.patchOffset + q.length), chunk := { buf := q, offset := 0 } } : ApplyPatch).chunk.rest = q := rfl
  have hpre : ({ s with patchOffset := sz (s.patchOffset + q.length), chunk := { buf := q, offset := 0 } } : ApplyPatch).patchSize = s.patchSize := rfl
  have hii : ({ s with patchOffset := sz (s.patchOffset + q.length), chunk := { buf := q, offset := 0 } } : ApplyPatch).initState = s.initState := rfl
  generalize ({ s with patchOffset := sz (s.patchOffset + q.length), chunk := { buf := q, offset := 0 } } : ApplyPatch) = s1 at *
  have hmu := s1.fuel_mu (hg1.inv.live (by rw [hst]; exact h2)).1
  rcases loop_sim fr hfr p hp qs.flatten s1.fuel s1 w hg1 hq1 (by rw [hst]; exact h2) hmu with ⟨u, e, hno⟩ | ⟨out, e, ho⟩
  · left
    rw [e]
    exact ⟨u, rfl, fun res => by rw [← hm, ← hist]; exact hno res⟩
  · right
    have hpl := processLoop_ok (fileEnv fr) s1.fuel s1 w hg1.inv hmu
    rw [e] at hpl ⊢
    simp only [Bind.bind, Except.bind]
    cases ho with
    | fail g1 g2 g3 =>
      rw [if_neg (by omega)]
      exact ⟨_, _, _, rfl, .inl ⟨g1, fun res => by rw [← hm, ← hist]; exact g3 res⟩⟩
    | @ok e' s' w' g1 g2 g3 g4 g5 g6 g7 =>
      have hps : s'.patchSize = s1.patchSize := by
        rcases hpl with (h | h) | ⟨out, h, _, _, h'⟩
        · cases h
        · cases h
        · cases h
          rcases h' with ⟨_, h'⟩ | h'
          · cases h'; rfl
          · exact h'.counted.psize
      have hfin : GInv s' w' ∧ s'.state ≠ .failed ∧ PiecesOk p s' qs ∧ 
           ∀ res, Mean fr p s w (q ++ qs.flatten) res ↔ Mean fr p s' w' qs.flatten res := by
        refine ⟨g2, g3, ?_, fun res => by rw [← hm, ← hist]; exact g7 res⟩
        intro hi
        have h4 := g4 hi
        have h5 := g5 hi
        cases hx : s'.initState with
        | fixedHeader =>
          simp only
          have hr := g6 hi hx
          rw [hist] at hr
          rw [hps, hpre]
          have hav : s1.chunk.available = false := by
            rw [s1.chunk.available_eq (hg1.inv.live (by rw [hst]; exact h2)).1, hist, hr]; rfl
          obtain ⟨f, hf⟩ : ∃ f, s1.fuel = f + 1 := ⟨s1.fuel - 1, by omega⟩
          rw [hf, processLoop_stop _ (.inl hav)] at e
          cases e
          rw [hst] at hi
          rw [hii] at hx
          have h := hq hi
          simp only [hx] at h
          rw [hr] at h
          intro b t v a t' k1 k2 k3
          exact h b t v a t' k1 k2 k3
        | toSize =>
          simp only [hx] at h4 ⊢
          intro hc v a t' hh
          rw [h5, List.nil_append] at h4
          obtain ⟨k1, _⟩ := h4 hc v a t' hh
          have hlt := hdrRun_inv qs.flatten s'.size g2.inv.size
          rw [hh] at hlt
          omega
      by_cases h01 : e' = 1 ∨ e' = ALREADY_DONE
      · rw [if_pos h01]
        exact ⟨_, _, _, rfl, .inr ⟨rfl, hfin⟩⟩
      · rw [if_neg h01]
        have : e' = 0 := g1.resolve_right h01
        subst this
        exact ⟨_, _, _, rfl, .inr ⟨rfl, hfin⟩⟩

theorem finalize_sim (fr : Bytes) (hfr : fr.length < 2 ^ 31) (p : Nat) (hp : p < 2 ^ 63) {s : ApplyPatch} {w : World Files}
    (hg : GInv s w) (h2 : s.state ≠ .failed) :
    (∃ u, applyPatchFinalize (fileEnv fr) s w = .error u ∧ ∀ res, ¬ Mean fr p s w [] res) ∨
      ∃ n s' w', applyPatchFinalize (fileEnv fr) s w = .ok (n, s', w') ∧
        (n < 0 ∧ (∀ res, ¬ Mean fr p s w [] res) ∨
         ∃ res, Mean fr p s w [] res ∧ n = res.toSize ∧ w'.arg.out = res.out ∧ s'.state = .done) := by
  have hI := hg.setChunk (buf := []) (po := s.patchOffset)
  have hm : ∀ x res, Mean fr p { s with patchOffset := s.patchOffset, chunk := { buf := [], offset := 0 } } w x res ↔ Mean fr p s w x res := fun x res => mean_chunk
  have hq : HQ p { s with patchOffset := s.patchOffset, chunk := { buf := [], offset := 0 } } [] := by
    intro hi
    simp only at hi
    cases hs : s.initState with
    | fixedHeader =>
      simp only [hs]
      intro b t h
      cases h
    | toSize =>
      simp only [hs]
      intro hc v a t' hh
      cases hh
  simp only [applyPatchFinalize]
  have hst : ({ s with patchOffset := s.patchOffset, chunk := { buf := [], offset := 0 } } : ApplyPatch).state = s.state := rfl
  have hrest : ({ s with patchOffset := s.patchOffset, chunk := { buf := [], offset := 0 } } : ApplyPatch).chunk.rest = [] := rfl
  have hs1' : ({ s with chunk := { buf := [], offset := 0 } } : ApplyPatch) = { s with patchOffset := s.patchOffset, chunk := { buf := [], offset := 0 } } := rfl
  rw [hs1']
  generalize ({ s with patchOffset := s.patchOffset, chunk := { buf := [], offset := 0 } } : ApplyPatch) = s1 at *
  have hmu := s1.fuel_mu (hI.inv.live (by rw [hst]; exact h2)).1
  rcases final_sim fr hfr p hp s1.fuel s1 w hI hq (by rw [hst]; exact h2) (by omega) with ⟨u, e, hno⟩ | ⟨e', s', w', e, ho⟩
  · left
    rw [e]
    exact ⟨u, rfl, fun res => by rw [← hm, ← hrest]; exact hno res⟩
  · right
    rw [e]
    simp only [Bind.bind, Except.bind]
    refine ⟨_, s', w', rfl, ?_⟩
    rcases ho with ⟨g1, g2⟩ | ⟨rfl, g2, g3, g4⟩
    · left
      refine ⟨?_, fun res => by rw [← hm, ← hrest]; exact g2 res⟩
      rcases g1 with rfl | ⟨g1, g1'⟩
      · have : commonFinalize 1 s'.reader s'.toSize = NOT_ENOUGH_PATCH_DATA := by
          unfold commonFinalize
          cases s'.reader <;> rfl
        rw [this]; decide
      · have h1 : e' ≠ 1 := by omega
        have h0 : e' ≠ 0 := by omega
        have : commonFinalize e' s'.reader s'.toSize = e' := by
          cases hr : s'.reader <;> simp [commonFinalize, h1, h0, g1']
        rw [this]; exact g1
    · have hsm := wrapInt_small g3.inv.toSz
      obtain ⟨r, hb⟩ := g3.body (by rw [g2]; decide) (by rw [g2]; decide)
      have hr := hb.reader
      rcases destroy_code r with hd | hd
      · right
        refine ⟨seqAbs s' w'.arg, ?_, ?_, ?_, g2⟩
        · rw [← hm, ← hrest, g4, mean_done_iff g3 g2]
          refine ⟨rfl, fun r' hr' => ?_⟩
          rw [hr] at hr'; cases hr'; exact hd
        · have : (seqAbs s' w'.arg).toSize = s'.toSize := by simp [seqAbs, SeqA.norm, g2]
          rw [this]
          simp [commonFinalize, hr, hsm, hd, ALREADY_DONE]
        · simp [seqAbs, SeqA.norm, g2]
      · left
        constructor
        · have : commonFinalize ALREADY_DONE s'.reader s'.toSize = CORRUPT_PATCH := by
            simp [commonFinalize, hr, hd, ALREADY_DONE, CORRUPT_PATCH]
          rw [this]; decide
        · intro res
          rw [← hm, ← hrest, g4, mean_done_iff g3 g2]
          rintro ⟨_, h⟩
          have := h r hr
          rw [hd] at this
          cases this

/-- Run the pieces from any state, then finalize. -/
def runPieces (E : SeqEnv σ) (s : ApplyPatch) (w : World σ) (pieces : List Bytes) : C (SeqRes σ) := do
  let (res, s, w) ← processAll E s w pieces
  if res ≠ 0 then .ok (res, s, w) else applyPatchFinalize E s w

omit [NoLzma] in
theorem runPieces_nil (E : SeqEnv σ) (s : ApplyPatch) (w : World σ) :
    runPieces E s w [] = applyPatchFinalize E s w := by
  generalize hr : applyPatchFinalize E s w = r
  unfold runPieces processAll
  simp only [Bind.bind, Except.bind]
  rw [if_neg (by decide), hr]

omit [NoLzma] in
theorem runPieces_cons (E : SeqEnv σ) (s : ApplyPatch) (w : World σ) (q : Bytes) (qs : List Bytes) :
    runPieces E s w (q :: qs) =
      (match applyPatchProcess E s w q with
       | .error u => .error u
       | .ok (res, s, w) => if res ≠ 0 then .ok (res, s, w) else runPieces E s w qs) := by
  unfold runPieces
  rw [processAll]
  generalize applyPatchProcess E s w q = x
  cases x with
  | error u => simp [Bind.bind, Except.bind]
  | ok v =>
    obtain ⟨res, s, w⟩ := v
    by_cases h : res = 0
    · simp [Bind.bind, Except.bind, h]
    · simp [Bind.bind, Except.bind, h]

theorem pieces_sim (fr : Bytes) (hfr : fr.length < 2 ^ 31) (p : Nat) (hp : p < 2 ^ 63) :
    ∀ (pieces : List Bytes) {s : ApplyPatch} {w : World Files}, GInv s w → s.state ≠ .failed → PiecesOk p s pieces →
    (∃ u, runPieces (fileEnv fr) s w pieces = .error u ∧ ∀ res, ¬ Mean fr p s w pieces.flatten res) ∨
      ∃ n s' w', runPieces (fileEnv fr) s w pieces = .ok (n, s', w') ∧
        (n < 0 ∧ (∀ res, ¬ Mean fr p s w pieces.flatten res) ∨
         ∃ res, Mean fr p s w pieces.flatten res ∧ n = res.toSize ∧ w'.arg.out = res.out ∧ s'.state = .done) := by
  intro pieces
  induction pieces with
  | nil =>
    intro s w hg h2 hq
    rw [runPieces_nil]
    exact finalize_sim fr hfr p hp hg h2
  | cons q qs ih =>
    intro s w hg h2 hq
    rw [runPieces_cons, List.flatten_cons]
    rcases process_sim fr hfr p hp hg h2 q qs hq with ⟨u, e, hno⟩ | ⟨e', s', w', e, ho⟩
    · left
      rw [e]
      exact ⟨u, rfl, hno⟩
    · rw [e]
      dsimp only
      rcases ho with ⟨g1, g2⟩ | ⟨rfl, g2, g3, g4, g5⟩
      · right
        rw [if_pos (by omega)]
        exact ⟨_, _, _, rfl, .inl ⟨g1, g2⟩⟩
      · rw [if_neg (by simp)]
        simp only [g5]
        exact ih g2 g3 g4

omit [NoLzma] in
theorem applyPieces_eq (E : SeqEnv σ) (P : Nat) (w : World σ) (pieces : List Bytes) :
    applyPieces E P w pieces = runPieces E (applyPatchInit P) w pieces := rfl

omit [NoLzma] in
theorem GInv.start (P : Nat) : GInv (applyPatchInit P) { arg := {} } :=
  ⟨SInv.start P, fun _ => ⟨rfl, rfl, rfl, rfl, fun _ => rfl⟩, fun h => absurd rfl h⟩

theorem apply_sim (fr : Bytes) (hfr : fr.length < 2 ^ 31) (P p : Nat) (hp : p < 2 ^ 63) (pieces : List Bytes)
    (hw : HeaderWhole P p pieces) :
    (∃ u, applyPieces (fileEnv fr) P { arg := {} } pieces = .error u ∧ ∀ res, ¬ FixMean fr p pieces.flatten res) ∨
      ∃ n s' w', applyPieces (fileEnv fr) P { arg := {} } pieces = .ok (n, s', w') ∧
        (n < 0 ∧ (∀ res, ¬ FixMean fr p pieces.flatten res) ∨
         ∃ res, FixMean fr p pieces.flatten res ∧ n = res.toSize ∧ w'.arg.out = res.out ∧ s'.state = .done) :=
  pieces_sim fr hfr p hp pieces (GInv.start P) (by intro h; cases h) (fun _ => hw)

omit [NoLzma] in
theorem FixMean.unique {fr : Bytes} {p : Nat} {x : Bytes} {r r' : SeqA} (h : FixMean fr p x r) (h' : FixMean fr p x r') : r = r' := by
  obtain ⟨b, t, rfl, _, v, a, t', rd, h1, h2, h3⟩ := h
  obtain ⟨b', t2, h4, _, v', a', t2', rd', h1', h2', h3'⟩ := h'
  cases h4
  rw [h1] at h1'
  cases h1'
  rw [h2] at h2'
  cases h2'
  exact h3.unique h3'

end Detools
