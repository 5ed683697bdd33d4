import Verif.Proofs.CSeqSim
/-
Whole runs of the sequential C API with files: success depends only on the bytes of
the patch.
-/
namespace Detools

variable [Build] [NoLzma]

/-- The consumer after a header announcing `v` bytes. -/
def startA (v : Nat) : SeqA :=
  { phase := if v > 0 then .dfpatchSize else .done, acc := {}, toOffset := 0, toSize := v, left := 0, pos := 0, out := [] }

/-- `x` is the rest of an acceptable patch, from inside the header size. -/
def HdrMean (fr : Bytes) (p : Nat) (comp : Nat) (acc : SizeAcc) (x : Bytes) (res : SeqA) : Prop :=
  ∃ v a t r, hdrRun acc x = .value v a t ∧ CReader.init p comp = some r ∧ Succ (seqSink fr) r.abs (startA v) t res

/-- `x` is an acceptable patch: `res` is the result. -/
def FixMean (fr : Bytes) (p : Nat) (x : Bytes) (res : SeqA) : Prop :=
  ∃ b t, x = b :: t ∧ (b.toNat >>> 4) &&& 0x7 = 0 ∧ HdrMean fr p (b.toNat &&& 0xf) {} t res

/-- `x` is the rest of an acceptable patch, from state `s`. -/
def Mean (fr : Bytes) (p : Nat) (s : ApplyPatch) (w : World Files) (x : Bytes) (res : SeqA) : Prop :=
  match s.state with
  | .init =>
    match s.initState with
    | .fixedHeader => FixMean fr p x res
    | .toSize => HdrMean fr p s.compression s.size x res
  | .failed => False
  | _ => ∃ r, Body s w r ∧ Succ (seqSink fr) r.abs (seqAbs s w.arg) x res

structure GInv (s : ApplyPatch) (w : World Files) : Prop where
  inv : SInv s
  init : s.state = .init → s.readerSize = {} ∧ s.fromOffset = 0 ∧ w.arg = {} ∧ s.chunkSize = 0 ∧
    (s.initState = .fixedHeader → s.size = {})
  body : s.state ≠ .init → s.state ≠ .failed → ∃ r, Body s w r

/-- A header that selects no compression ends in the current chunk, and `p` is what
is then left of the patch. -/
def HQ (p : Nat) (s : ApplyPatch) (later : Bytes) : Prop :=
  s.state = .init →
  match s.initState with
  | .fixedHeader => ∀ b t, s.chunk.rest = b :: t → b.toNat &&& 0xf = 0 → ∀ v a t', hdrRun {} (t ++ later) = .value v a t' →
      later.length ≤ t'.length ∧ szOfInt (s.patchSize - (s.chunk.buf.length - (t'.length - later.length) : Nat)) = p
  | .toSize => s.compression = 0 → ∀ v a t', hdrRun s.size (s.chunk.rest ++ later) = .value v a t' →
      later.length ≤ t'.length ∧ szOfInt (s.patchSize - (s.chunk.buf.length - (t'.length - later.length) : Nat)) = p

omit [NoLzma] in
theorem mean_body {fr : Bytes} {p : Nat} {s : ApplyPatch} {w : World Files} (h1 : s.state ≠ .init) (h2 : s.state ≠ .failed)
    {r : CReader} (hb : Body s w r) {x res} :
    Mean fr p s w x res ↔ Succ (seqSink fr) r.abs (seqAbs s w.arg) x res := by
  have key : (∃ r, Body s w r ∧ Succ (seqSink fr) r.abs (seqAbs s w.arg) x res) ↔
      Succ (seqSink fr) r.abs (seqAbs s w.arg) x res := by
    constructor
    · rintro ⟨r', hb', h⟩
      have : r' = r := Option.some.inj (hb'.reader.symm.trans hb.reader)
      rw [← this]; exact h
    · exact fun h => ⟨r, hb, h⟩
  unfold Mean
  cases hs : s.state <;> simp only <;> first | exact key | (exfalso; first | exact h1 hs | exact h2 hs)

/-- The outcome of a step, from any state that is neither done nor failed. -/
inductive GOut (fr : Bytes) (p : Nat) (later : Bytes) (s : ApplyPatch) (w : World Files) : SeqRes Files → Prop
  | fail {e s' w'} : e < 0 → e ≠ ALREADY_DONE → (s.chunk.rest ≠ [] ∨ later = [] → ∀ res, ¬ Mean fr p s w (s.chunk.rest ++ later) res) →
      GOut fr p later s w (e, s', w')
  | ok {s' w'} : GInv s' w' → HQ p s' later → s'.mu < s.mu → s'.state ≠ .failed →
      (s'.state = .init → s'.initState ≠ .fixedHeader) →
      (∀ res, Mean fr p s w (s.chunk.rest ++ later) res ↔ Mean fr p s' w' (s'.chunk.rest ++ later) res) →
      GOut fr p later s w (0, s', w')
  | more {s'} : GInv s' w → HQ p s' later → s'.chunk.rest = [] → s'.state = s.state →
      (s'.state = .init → s'.initState ≠ .fixedHeader) → (∀ res, ¬ Mean fr p s' w [] res) →
      (∀ res, Mean fr p s w (s.chunk.rest ++ later) res ↔ Mean fr p s' w later res) →
      GOut fr p later s w (1, s', w)

omit [NoLzma] [Build] in
theorem seqAbs_done {s : ApplyPatch} {f : Files} (h : (seqAbs s f).phase = .done) : s.state = .done := by
  unfold seqAbs SeqA.norm at h
  cases hs : s.state <;> simp only [hs] at h <;> first | rfl | (exfalso; revert h; first | (split <;> simp) | simp)

omit [NoLzma] in
theorem body_gout (fr : Bytes) (hfr : fr.length < 2 ^ 31) (p : Nat) (later : Bytes) {s : ApplyPatch} {w : World Files}
    (hg : GInv s w) (h1 : s.state ≠ .init) (h2 : s.state ≠ .failed) (h3 : s.state ≠ .done) :
    (∃ u, processOnce (fileEnv fr) s w = .error u ∧ ∀ res, ¬ Mean fr p s w (s.chunk.rest ++ later) res) ∨
      ∃ out, processOnce (fileEnv fr) s w = .ok out ∧ GOut fr p later s w out := by
  obtain ⟨r, hb⟩ := hg.body h1 h2
  have hhq : ∀ s' : ApplyPatch, s'.state ≠ .init → HQ p s' later := fun s' h h' => absurd h' h
  rcases once_sim fr hfr hg.inv hb h1 h2 h3 with ⟨u, e, hno⟩ | ⟨out, e, ho⟩
  · left
    refine ⟨u, e, fun res => ?_⟩
    rw [mean_body h1 h2 hb]
    exact hno later res
  · right
    refine ⟨out, e, ?_⟩
    rcases once_ok (fileEnv fr) hg.inv w with (e' | e') | ⟨out', e', ho'⟩
    · rw [e] at e'; cases e'
    · rw [e] at e'; cases e'
    · rw [e] at e'
      have : out' = out := (Except.ok.inj e').symm
      subst this
      cases ho with
      | @fail e0 s' w' g1 g2 =>
        refine .fail g1 ?_ fun _ res => ?_
        · cases ho' with
          | done hd => exact absurd hd h3
          | already hd => exact absurd hd h2
          | fail _ _ _ _ k => exact k
          | io => decide
          | ok => omega
          | more => omega
        · rw [mean_body h1 h2 hb]
          exact g2 later res
      | @ok s' w' r' g1 g2 g3 g4 =>
        cases ho' with
        | ok evs k1 k2 k3 k4 k5 k6 =>
          refine .ok ⟨k3.inv, fun h => absurd h g2, fun _ _ => ⟨r', g1⟩⟩ (hhq s' g2) k5 g3 (fun h => absurd h g2) fun res => ?_
          rw [mean_body h1 h2 hb, mean_body g2 g3 g1]
          exact g4 later res
        | fail _ _ _ k => omega
      | @more s' r' g1 g2 g3 g4 g5 =>
        cases ho' with
        | more k1 k2 k3 k4 k5 =>
          have hn1 : s'.state ≠ .init := by rw [g2]; exact h1
          have hn2 : s'.state ≠ .failed := by rw [g2]; exact h2
          refine .more ⟨k3.inv, fun h => absurd h hn1, fun _ _ => ⟨r', g1⟩⟩ (hhq s' hn1) g3 g2 (fun h => absurd h hn1) (fun res => ?_) fun res => ?_
          · rw [mean_body hn1 hn2 g1]
            refine succ_nil ?_ g4
            intro hd
            apply h3
            rw [← g2]
            exact seqAbs_done hd
          · rw [mean_body h1 h2 hb, mean_body hn1 hn2 g1]
            exact g5 later res
        | fail _ _ _ k => omega

theorem hdr_gout (fr : Bytes) (p : Nat) (hp : p < 2 ^ 63) (later : Bytes) {s : ApplyPatch} {w : World Files}
    (hg : GInv s w) (h1 : s.state = .init) (hq : HQ p s later) :
    ∃ out, processOnce (fileEnv fr) s w = .ok out ∧ GOut fr p later s w out := by
  obtain ⟨hrs, hfo, harg, hcs, hsz⟩ := hg.init h1
  obtain ⟨hc, _, _⟩ := hg.inv.live (by rw [h1]; decide)
  have hto := hg.inv.init h1
  rcases once_ok (fileEnv fr) hg.inv w with he | ⟨out', e', ho'⟩
  · exfalso
    have : ∃ out, processOnce (fileEnv fr) s w = .ok out := by
      obtain ⟨out, h, _⟩ := init_switch hg.inv h1 w
      unfold processOnce
      rw [if_neg (by rw [h1]; decide)]
      simp only [processSwitch, h1, h, Bind.bind, Except.bind]
      split <;> exact ⟨_, rfl⟩
    obtain ⟨out, h⟩ := this
    rcases he with he | he <;> (rw [h] at he; cases he)
  · refine ⟨out', e', ?_⟩
    unfold processOnce at e'
    rw [if_neg (by rw [h1]; decide)] at e'
    simp only [processSwitch, h1, processInit] at e'
    simp only [HQ, h1, true_implies] at hq
    cases hi : s.initState with
    | fixedHeader =>
      simp only [hi] at e' hq
      have hMs : ∀ x res, Mean fr p s w x res ↔ FixMean fr p x res := by
        intro x res; simp only [Mean, h1, hi]
      cases hr : s.chunk.rest with
      | nil =>
        simp only [processInitFixedHeader, s.chunk.get_nil hc hr, Bind.bind, Except.bind] at e'
        rw [if_pos (by decide)] at e'
        cases e'
        refine .fail (by decide) (by decide) fun hl res => ?_
        rw [hr] at hl ⊢
        have : later = [] := hl.resolve_left (fun h => h rfl)
        rw [this, hMs]
        rintro ⟨b, t, h, _⟩
        cases h
      | cons b t =>
        obtain ⟨f1, f2, f3⟩ := s.chunk.get_cons hc hr
        simp only [processInitFixedHeader, f1, Bind.bind, Except.bind] at e'
        by_cases ht : (b.toNat >>> 4) &&& 0x7 = 0
        · simp only [ht, ne_eq, not_true, if_false] at e'
          rw [if_neg (by decide)] at e'
          cases e'
          cases ho' with
          | ok evs k1 k2 k3 k4 k5 k6 =>
            refine .ok ⟨k3.inv, fun _ => ⟨hrs, hfo, harg, hcs, fun h => by cases h⟩, fun h => absurd h1 h⟩ ?_ k5 k6 (fun _ h => by cases h) fun res => ?_
            · intro _
              simp only
              intro hcomp v a t' hh
              have hh' : hdrRun {} (t ++ later) = .value v a t' := by
                have : ({ s.size with state := .first } : SizeAcc) = {} := by rw [hsz hi]
                rw [this] at hh
                rw [← hh]
                show _ = hdrRun {} (({ s.chunk with offset := s.chunk.offset + 1 } : Chunk).rest ++ later)
                rw [f2]
              exact hq b t hr hcomp v a t' hh'
            · rw [hMs, hr]
              have hM' : ∀ (q : ApplyPatch) x, q.state = .init → q.initState = .toSize → (Mean fr p q w x res ↔ HdrMean fr p q.compression q.size x res) := by
                intro q x g1 g2; simp only [Mean, g1, g2]
              rw [hM' _ _ (by exact h1) (by rfl)]
              have : ({ s.size with state := .first } : SizeAcc) = {} := by rw [hsz hi]
              simp only [this, f2]
              constructor
              · rintro ⟨b', t', h, h', h''⟩
                cases h
                exact h''
              · intro h
                exact ⟨b, t ++ later, rfl, ht, h⟩
          | fail _ _ _ k => omega
        · simp only [ht, ne_eq, not_false_iff, if_true] at e'
          rw [if_pos (by decide)] at e'
          cases e'
          refine .fail (by decide) (by decide) fun _ res => ?_
          rw [hMs, hr]
          rintro ⟨b', t', h, h', _⟩
          cases h
          exact ht h'
    | toSize =>
      simp only [hi] at e' hq
      have hMs : ∀ x res, Mean fr p s w x res ↔ HdrMean fr p s.compression s.size x res := by
        intro x res; simp only [Mean, h1, hi]
      obtain ⟨out, q1, q2⟩ := headerSize_run (s.chunk.left + 1) s.chunk s.size hc hg.inv.size
        (by rw [s.chunk.left_eq hc]; omega)
      simp only [processInitToSize, q1, Bind.bind, Except.bind] at e'
      cases hrun : hdrRun s.size s.chunk.rest with
      | more a =>
        rw [hrun] at q2
        obtain ⟨c', rfl, g1, g2⟩ := q2
        simp only at e'
        rw [if_neg (by decide)] at e'
        cases e'
        cases ho' with
        | more k1 k2 k3 k4 k5 =>
          have hM' : ∀ (q : ApplyPatch) x res, q.state = .init → q.initState = .toSize → (Mean fr p q w x res ↔ HdrMean fr p q.compression q.size x res) := by
            intro q x res g1 g2; simp only [Mean, g1, g2]
          refine .more ⟨k3.inv, fun _ => ⟨hrs, hfo, harg, hcs, fun h => by rw [show _ = _ from hi] at h; cases h⟩, fun h => absurd h1 h⟩ ?_ g2 rfl (fun _ h => by rw [show _ = _ from hi] at h; cases h) (fun res => ?_) fun res => ?_
          · intro _
            simp only [hi]
            intro hcomp v a' t' hh
            rw [g2, List.nil_append] at hh
            obtain ⟨k1, k2⟩ := hq hcomp v a' t' (by rw [hdrRun_append, hrun]; exact hh)
            have hlt := hdrRun_inv later a k3.inv.size
            rw [hh] at hlt
            omega
          · rw [hM' _ _ _ (by exact h1) (by exact hi)]
            rintro ⟨v, a', t, r, h, _⟩
            cases h
          · rw [hMs, hM' _ _ _ (by exact h1) (by exact hi)]
            simp only [HdrMean, hdrRun_append, hrun]
        | fail _ _ _ k => omega
      | fail =>
        rw [hrun] at q2
        obtain ⟨c', a, rfl⟩ := q2
        simp only at e'
        rw [if_pos (by decide)] at e'
        cases e'
        refine .fail (by decide) (by decide) fun _ res => ?_
        rw [hMs]
        rintro ⟨v, a', t, r, h, _⟩
        rw [hdrRun_append, hrun] at h
        cases h
      | value v a t =>
        rw [hrun] at q2
        obtain ⟨c', rfl, g1, g2, g3⟩ := q2
        have hvlt := hdrRun_inv s.chunk.rest s.size hg.inv.size
        rw [hrun] at hvlt
        simp only at e'
        have hinit : ∀ r, CReader.init (szOfInt ((s.patchSize : Int) - c'.offset)) s.compression = some r ↔ CReader.init p s.compression = some r := by
          intro r
          by_cases hcomp : s.compression = 0
          · have := hq hcomp v a (t ++ later) (by rw [hdrRun_append, hrun])
            have h2 := this.2
            have e1 : (t ++ later).length - later.length = t.length := by simp
            have e2 : s.chunk.buf.length - t.length = c'.offset := by omega
            rw [e1, e2] at h2
            rw [h2]
          · simp [CReader.init, hcomp]
        cases hin : CReader.init (szOfInt ((s.patchSize : Int) - c'.offset)) s.compression with
        | none =>
          rw [hin] at e'
          simp only at e'
          rw [if_pos (by decide)] at e'
          cases e'
          refine .fail (by decide) (by decide) fun _ res => ?_
          rw [hMs]
          rintro ⟨v', a', t', r, h, h', _⟩
          rw [(hinit r).2 h'] at hin
          cases hin
        | some r =>
          rw [hin] at e'
          simp only at e'
          have hr : r.Inv := by
            have hin' := (hinit r).1 hin
            unfold CReader.init at hin'
            split at hin'
            · cases hin'; exact ⟨Nat.zero_le _, hp⟩
            · split at hin'
              · cases hin'; trivial
              · split at hin'
                · cases hin'; trivial
                · split at hin'
                  · rw [NoLzma.off] at hin'; cases hin'
                  · cases hin'
          rw [if_neg (by omega)] at e'
          have hv : szOfInt (v : Int) = v := by unfold szOfInt; omega
          have hacc : ({ s.readerSize with state := .first } : SizeAcc) = {} := by rw [hrs]
          rw [hacc, hv] at e'
          have hiff : ∀ res, Mean fr p s w (s.chunk.rest ++ later) res ↔ Succ (seqSink fr) r.abs (startA v) (t ++ later) res := by
            intro res
            rw [hMs]
            constructor
            · rintro ⟨v', a', t', r', h, h', h''⟩
              rw [hdrRun_append, hrun] at h
              cases h
              rw [← hinit, hin] at h'
              cases h'
              exact h''
            · intro h
              exact ⟨v, a, t ++ later, r, by rw [hdrRun_append, hrun], (hinit r).1 hin, h⟩
          have harg1 : w.arg.pos = 0 := by rw [harg]
          have harg2 : w.arg.out = [] := by rw [harg]
          by_cases hvpos : (v : Int) > 0
          · rw [if_pos hvpos] at e'
            simp only at e'
            rw [if_neg (by decide)] at e'
            cases e'
            cases ho' with
            | ok evs k1 k2 k3 k4 k5 k6 =>
              have hb : Body { s with chunk := c', size := a, readerSize := {}, reader := some r, toSize := v, state := .dfpatchSize } w r := ⟨rfl, hr, by rw [harg1]; exact hfo, by rw [harg1]; decide, by rw [harg1]; decide, by show s.chunkSize < _; rw [hcs]; decide⟩
              refine .ok ⟨k3.inv, fun h => by simp at h, fun _ _ => ⟨r, hb⟩⟩ (fun h => by simp at h) k5 k6 (fun h => by simp at h) fun res => ?_
              rw [hiff, mean_body (by simp) (by simp) hb]
              simp only [g2]
              have : startA v = seqAbs { s with chunk := c', size := a, readerSize := {}, reader := some r, toSize := v, state := .dfpatchSize } w.arg := by
                have hv' : v > 0 := by omega
                simp [startA, seqAbs, SeqA.norm, hto, hv', harg1, harg2]
              rw [this]
            | fail _ _ _ k => omega
          · rw [if_neg hvpos] at e'
            simp only at e'
            rw [if_neg (by decide)] at e'
            cases e'
            cases ho' with
            | ok evs k1 k2 k3 k4 k5 k6 =>
              have hb : Body { s with chunk := c', size := a, readerSize := {}, reader := some r, toSize := v, state := .done } w r := ⟨rfl, hr, by rw [harg1]; exact hfo, by rw [harg1]; decide, by rw [harg1]; decide, by show s.chunkSize < _; rw [hcs]; decide⟩
              refine .ok ⟨k3.inv, fun h => by simp at h, fun _ _ => ⟨r, hb⟩⟩ (fun h => by simp at h) k5 k6 (fun h => by simp at h) fun res => ?_
              rw [hiff, mean_body (by simp) (by simp) hb]
              simp only [g2]
              have : startA v = seqAbs { s with chunk := c', size := a, readerSize := {}, reader := some r, toSize := v, state := .done } w.arg := by
                have hv' : ¬ v > 0 := by omega
                simp [startA, seqAbs, SeqA.norm, hto, hv', harg1, harg2]
              rw [this]
            | fail _ _ _ k => omega

end Detools
