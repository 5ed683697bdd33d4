import Verif.Proofs.CInPlaceHeader
/-
Whole runs of the C in-place update on a memory that may lose power.
-/
namespace Detools

variable [Build]

/-- The contents of a patch for an update. -/
def Geo.hv (G : Geo) (comp : Nat) (body : Bytes) (total : Nat) : HV := ⟨G.M, G.S, G.H, G.F, G.to.length, comp, body, total⟩

variable {G : Geo} {P : Power} {steps : Bool} {k0 : Nat} {V : HV}

/-- The device before the first callback. -/
def IPStart (G : Geo) (P : Power) (steps : Bool) (k0 : Nat) (w : MWorld Flash) : Prop :=
  if G.to.length = 0 then Finished G steps k0 w else Live G P steps k0 0 w

/-- A patch for an update. -/
structure IPPatch (G : Geo) (V : HV) (opss : List (List Op)) : Prop where
  ok : V.Ok
  m : V.M = G.M
  s : V.S = G.S
  h : V.H = G.H
  f : V.F = G.F
  t : V.T = G.to.length
  geo : 0 < G.to.length → G.Ok
  tail : 0 < G.to.length → Tail G 0 opss
  none : G.to.length = 0 → opss = []
  reads : BodyReads V (encodeSegments opss)

/-- In the loops of process and finalize; `later` follows the current piece. -/
inductive IPLoop (G : Geo) (P : Power) (steps : Bool) (k0 : Nat) (V : HV) (s : InPlace) (w : MWorld Flash) (later : Bytes) : Prop
  | hd : Hd V s (s.chunk.rest ++ later) → Whole V s later → IPStart G P steps k0 w → IPLoop G P steps k0 V s w later
  | bd : Bd G P steps k0 s w (s.chunk.rest ++ later) → IPLoop G P steps k0 V s w later

/-- Between pieces; `later` is the rest of the patch. -/
inductive IPRest (G : Geo) (P : Power) (steps : Bool) (k0 : Nat) (V : HV) (s : InPlace) (w : MWorld Flash) (later : Bytes) : Prop
  | hd : Hd V s later → (V.comp = 0 → s.initState = .fixedHeader) → IPStart G P steps k0 w → IPRest G P steps k0 V s w later
  | bd : Bd G P steps k0 s w later → IPRest G P steps k0 V s w later

inductive IPStep (G : Geo) (P : Power) (steps : Bool) (k0 : Nat) (V : HV) (s : InPlace) (later : Bytes) : IPRes Flash → Prop
  | ok {s' w'} : IPLoop G P steps k0 V s' w' later → s'.mu < s.mu → IPStep G P steps k0 V s later (0, s', w')
  | more {s' w'} : IPRest G P steps k0 V s' w' later → (V.comp = 0 → s'.state ≠ .init) → s'.chunk.Inv → s'.chunk.rest = [] → later ≠ [] → IPStep G P steps k0 V s later (1, s', w')
  | dead {e s' w'} : e < 0 → e ≠ ALREADY_DONE → Dead G P steps k0 w' → IPStep G P steps k0 V s later (e, s', w')

omit [Build] in
theorem Hd.nonempty {s : InPlace} {x : Bytes} (h : Hd V s x) : V.body.length < x.length := by
  by_cases hf : s.initState = .fixedHeader
  · obtain ⟨b, rfl, _⟩ := h.first hf
    simp only [HV.tail, List.length_cons, List.length_append]
    omega
  · obtain ⟨_, a, ha⟩ := h.next hf
    have := hdrRun_inv x s.size h.size
    rw [ha] at this
    have hle : V.body.length ≤ (V.tail s.initState).length := by
      cases s.initState <;> simp only [HV.tail, List.length_append] <;> omega
    omega

theorem Bd.chunkInv {s : InPlace} {w : MWorld Flash} {x : Bytes} (h : Bd G P steps k0 s w x) : s.chunk.Inv := by
  cases h with
  | top r E a i ops opss h1 h2 h3 h4 h5 => exact h5.chunk
  | seg r E i t pos opss h1 h2 h3 h4 => exact h4.k.chunk
  | done r h1 h2 h3 h4 h5 => exact h5

theorem Bd.notInit {s : InPlace} {w : MWorld Flash} {x : Bytes} (h : Bd G P steps k0 s w x) : s.state ≠ .init ∧ s.state ≠ .failed := by
  cases h with
  | top r E a i ops opss h1 => rw [h1]; decide
  | seg r E i t pos opss h1 h2 h3 h4 h5 h6 =>
    generalize s.state = st at *
    cases h6 <;> decide
  | done r h1 => rw [h1]; decide

theorem Bd.pos {s : InPlace} {w : MWorld Flash} {x : Bytes} (h : Bd G P steps k0 s w x) (hnd : s.state ≠ .done) : 0 < G.to.length := by
  cases h with
  | top r E a i ops opss h1 h2 h3 h4 h5 h6 h7 => have := h7.ops.1; omega
  | seg r E i t pos opss h1 h2 h3 h4 => have := h4.lt; omega
  | done r h => exact absurd h hnd

theorem decodes_nil_any {r : CReader} {x : Bytes} (h : Decodes r x []) (y : Bytes) : Decodes r y [] := by
  rcases r.good_cases with ⟨s, rfl⟩ | ⟨_, hd⟩
  · obtain ⟨L, hL, h⟩ := h
    exact ⟨L, hL, h.nil_any y⟩
  rw [hd] at h ⊢
  have := (succ_done (S := expectSink) (a := some []) rfl).1 h
  exact .done rfl this.2

theorem Bd.setChunk {s : InPlace} {w : MWorld Flash} {x : Bytes} (h : Bd G P steps k0 s w x) (buf : Bytes) :
    Bd G P steps k0 { s with chunk := { buf := buf, offset := 0 } } w x := by
  have hc : ({ buf := buf, offset := 0 } : Chunk).Inv := Nat.zero_le _
  cases h with
  | top r E a i ops opss h1 h2 h3 h4 h5 h6 h7 h8 h9 h10 h11 =>
    exact .top r E a i ops opss h1 h2 h3 h4 ⟨h5.seg, h5.shift, h5.toSz, hc, h5.acc⟩ h6 h7 h8 h9 h10 h11
  | seg r E i t pos opss h1 h2 h3 h4 h5 h6 =>
    exact .seg r E i t pos opss h1 h2 h3 ⟨⟨h4.k.seg, h4.k.shift, h4.k.toSz, hc, h4.k.acc⟩, h4.lt, h4.step, h4.seg, h4.tpos, h4.le, h4.p0, h4.p1, h4.live, h4.data⟩ h5 h6
  | done r h1 h2 h3 h4 h5 h6 => exact .done r h1 h2 h3 h4 hc h6

theorem Bd.doneAny {s : InPlace} {w : MWorld Flash} {x : Bytes} (h : Bd G P steps k0 s w x) (hd : s.state = .done) (y : Bytes) :
    Bd G P steps k0 s w y := by
  cases h with
  | top r E a i ops opss h1 => rw [hd] at h1; cases h1
  | seg r E i t pos opss h1 h2 h3 h4 h5 h6 => rw [hd] at h6; cases h6
  | done r h1 h2 h3 h4 h5 h6 => exact .done r h1 h2 (decodes_nil_any h3 y) h4 h5 h6

omit [Build] in
theorem Hd.setChunk {s : InPlace} {x : Bytes} (h : Hd V s x) (buf : Bytes) : Hd V { s with chunk := { buf := buf, offset := 0 } } x :=
  ⟨h.state, h.reader, h.size, h.acc, Nat.zero_le _, h.index, h.step, h.psize, h.first, h.next, h.mem, h.seg, h.shift, h.frm⟩

/-- One step. -/
theorem loop_step {opss : List (List Op)} (hP : IPPatch G V opss) {s : InPlace} {w : MWorld Flash} {x : Bytes}
    (h : IPLoop G P steps k0 V s w x) (hnd : s.state ≠ .done) (hx : s.chunk.rest = [] → x = []) :
    ∃ out, ipOnce (flashEnv P steps) s w = .ok out ∧ IPStep G P steps k0 V s x out := by
  cases h with
  | bd h =>
    have hpos := h.pos hnd
    obtain ⟨out, e1, e2⟩ := body_step (hP.geo hpos) h hnd
    refine ⟨out, e1, ?_⟩
    cases e2 with
    | ok a1 a2 => exact .ok (.bd a1) a2
    | more a1 a2 a3 a4 => exact .more (.bd a1) (fun _ => a1.notInit.1) a2 a3 a4
    | dead a1 a2 a3 => exact .dead a1 a2 a3
  | hd h hw hst =>
    have fin : ∀ out, ipInit (flashEnv P steps) s w = .ok out → IPStep G P steps k0 V s x out →
        ∃ out, ipOnce (flashEnv P steps) s w = .ok out ∧ IPStep G P steps k0 V s x out := by
      rintro ⟨e, s', w'⟩ e1 e2
      unfold ipOnce ipSwitch
      rw [if_neg hnd, h.state]
      simp only [e1, Bind.bind, Except.bind]
      cases e2 with
      | ok a1 a2 => exact ⟨_, rfl, .ok a1 a2⟩
      | more a1 a0 a2 a3 a4 => exact ⟨_, rfl, .more a1 a0 a2 a3 a4⟩
      | dead a1 a2 a3 =>
        rw [if_pos a1]
        exact ⟨_, rfl, .dead a1 a2 a3⟩
    have fin2 : ∀ out, ipInit (flashEnv P steps) s w = .ok out → HOut V s w x out →
        ∃ out, ipOnce (flashEnv P steps) s w = .ok out ∧ IPStep G P steps k0 V s x out := by
      intro out e1 e2
      refine fin out e1 ?_
      cases e2 with
      | ok a1 a2 a3 a4 => exact .ok (.hd a1 a2 hst) a3
      | more a1 a2 a3 a4 a5 => exact .more (.hd a1 (fun h => absurd h a4) hst) (fun h => absurd h a4) a1.chunk a2 a3
    by_cases hi : s.initState = .toSize
    · rcases toSize_step (flashEnv P steps) hP.ok hP.reads w h hw hi with ⟨out, e1, e2⟩ | ⟨r, c', a', acc', g1, g2, g3, g4, g5, g6, g7, g8⟩
      · exact fin2 out e1 e2
      · have hmu : ∀ s' : InPlace, s'.chunk = c' → s'.reader = some r → (s'.state = .done ∨ s'.state = .dfpatchSize) → s'.mu < s.mu := by
          intro s' q1 q2 q3
          unfold InPlace.mu
          rw [q1, q2, h.reader, h.state]
          rcases q3 with q3 | q3 <;> rw [q3] <;> simp only [g2] <;> omega
        by_cases hT : V.T = 0
        · rw [if_pos hT] at g8
          have h0 : G.to.length = 0 := by rw [← hP.t]; exact hT
          unfold IPStart at hst
          rw [if_pos h0] at hst
          refine fin _ g8 (.ok (.bd (.done r rfl rfl ?_ ?_ g4 hst)) (hmu _ rfl rfl (.inl rfl)))
          · rw [hP.none h0] at g3
            exact g3
          · exact h0.symm
        · rw [if_neg hT] at g8
          have h0 : ¬ G.to.length = 0 := by rw [← hP.t]; exact hT
          have hpos : 0 < G.to.length := by omega
          unfold IPStart at hst
          rw [if_neg h0] at hst
          have hG := hP.geo hpos
          have htl := hP.tail hpos
          have hnT : 0 < G.nT := (segments_count G.to.length G.S hG.seg hG.toPos).1
          have q1 : s.segmentSize = G.S := by rw [h.seg (by rw [hi]; decide), hP.s]
          have q2 : s.shiftSize = G.H := by rw [h.shift (by rw [hi]; decide), hP.h]
          rw [hP.m, hP.f] at g8
          obtain ⟨w', hw'⟩ := shift_ok hG hnT (s := { s with
              chunk := c', size := a', readerSize := acc', reader := some r, toPos := 0, toSize := V.T, segment := { s.segment with index := 0 } })
            hst h.step q1 q2
          rcases hw' with ⟨e1, hL⟩ | ⟨e, s', he, e1, hd⟩
          · rw [e1] at g8
            simp only [Bind.bind, Except.bind, ne_eq, not_true, if_false] at g8
            obtain ⟨ops, opss', rfl⟩ : ∃ o os, opss = o :: os := by
              cases opss with
              | nil => have := htl.count; simp only [List.length_nil] at this; omega
              | cons o os => exact ⟨o, os, rfl⟩
            rw [encodeSegments_cons] at g3
            obtain ⟨a2, ha2⟩ := sizeRun_pack (v := 0) (by decide) (encodeOps ops ++ encodeSegments opss') acc' g7
            refine fin _ g8 (.ok (.bd (.top r _ a2 0 ops opss' rfl rfl g1 g3 ⟨q1, q2, hP.t, g4, g6⟩ ha2 htl rfl ?_ ?_ hL)) (hmu _ rfl rfl (.inr rfl)))
            · simp
            · rfl
          · rw [e1] at g8
            simp only [Bind.bind, Except.bind] at g8
            rw [if_pos (by omega)] at g8
            exact fin _ g8 (.dead he.1 he.2 hd)
    · obtain ⟨out, e1, e2⟩ := header_step (flashEnv P steps) hP.ok w h hw hi hx
      exact fin2 out e1 e2

theorem ipLoop_stop (E : MemEnv σ) {fuel : Nat} {res : Int} {s : InPlace} {w : MWorld σ} (h : s.chunk.available = false ∨ res < 0) :
    ipProcessLoop E (fuel + 1) res s w = .ok (res, s, w) := by
  unfold ipProcessLoop
  rw [if_neg]
  rintro ⟨h1, h2⟩
  rcases h with h | h
  · rw [h] at h1; cases h1
  · omega

theorem ipOnce_done (E : MemEnv σ) {s : InPlace} {w : MWorld σ} (h : s.state = .done) : ipOnce E s w = .ok (ALREADY_DONE, s, w) := by
  simp [ipOnce, h]

theorem IPLoop.chunkInv {s : InPlace} {w : MWorld Flash} {x : Bytes} (h : IPLoop G P steps k0 V s w x) : s.chunk.Inv := by
  cases h with
  | hd h => exact h.chunk
  | bd h => exact h.chunkInv

omit [Build] in
theorem chunk_none {c : Chunk} (h1 : c.Inv) (h2 : c.rest = []) : c.available = false := by
  rw [c.available_eq h1, h2]; rfl

omit [Build] in
theorem chunk_none' {c : Chunk} (h1 : c.Inv) (h2 : c.available = false) : c.rest = [] := by
  rw [c.available_eq h1] at h2
  cases h : c.rest with
  | nil => rfl
  | cons b t => rw [h] at h2; cases h2

/-- The loop of process. -/
theorem loop_ip {opss : List (List Op)} (hP : IPPatch G V opss) (later : Bytes) :
    ∀ (fuel : Nat) (s : InPlace) (w : MWorld Flash), IPLoop G P steps k0 V s w later → s.mu + 2 ≤ fuel →
    ∃ e s' w', ipProcessLoop (flashEnv P steps) fuel 0 s w = .ok (e, s', w') ∧
      ((e < 0 ∧ e ≠ ALREADY_DONE ∧ Dead G P steps k0 w') ∨
       ((e = 0 ∨ e = 1 ∨ e = ALREADY_DONE) ∧ IPRest G P steps k0 V s' w' later ∧ (V.comp = 0 → s'.state ≠ .init))) := by
  intro fuel
  induction fuel with
  | zero => intro s w _ h; omega
  | succ fuel ih =>
    intro s w h hf
    by_cases ha : s.chunk.available = true
    · have hne : s.chunk.rest ≠ [] := by
        intro h1
        rw [chunk_none h.chunkInv h1] at ha
        cases ha
      unfold ipProcessLoop
      rw [if_pos ⟨ha, by decide⟩]
      obtain ⟨f', rfl⟩ : ∃ f', fuel = f' + 1 := ⟨fuel - 1, by omega⟩
      by_cases h3 : s.state = .done
      · rw [ipOnce_done _ h3]
        refine ⟨_, _, _, ipLoop_stop _ (.inr adNeg), .inr ⟨.inr (.inr rfl), .bd ?_, fun _ => by rw [h3]; decide⟩⟩
        cases h with
        | hd h => rw [h.state] at h3; cases h3
        | bd h => exact h.doneAny h3 _
      · obtain ⟨out, e1, e2⟩ := loop_step hP h h3 (fun h => absurd h hne)
        rw [e1]
        simp only [Bind.bind, Except.bind]
        cases e2 with
        | ok a1 a2 => exact ih _ _ a1 (by simp only; omega)
        | more a1 a0 a2 a3 a4 => exact ⟨_, _, _, ipLoop_stop _ (.inl (chunk_none a2 a3)), .inr ⟨.inr (.inl rfl), a1, a0⟩⟩
        | dead a1 a2 a3 => exact ⟨_, _, _, ipLoop_stop _ (.inr a1), .inl ⟨a1, a2, a3⟩⟩
    · rw [Bool.not_eq_true] at ha
      have hr := chunk_none' h.chunkInv ha
      refine ⟨_, _, _, ipLoop_stop _ (.inl ha), .inr ⟨.inl rfl, ?_⟩⟩
      cases h with
      | hd h1 h2 h3 =>
        rw [hr, List.nil_append] at h1
        have hc : V.comp ≠ 0 := by
          intro hc
          have := (h2 hc).1
          have := h1.nonempty
          omega
        exact ⟨.hd h1 (fun h => absurd h hc) h3, fun h => absurd h hc⟩
      | bd h1 =>
        rw [hr, List.nil_append] at h1
        exact ⟨.bd h1, fun _ => h1.notInit.1⟩

/-- The loop of finalize. -/
theorem final_ip {opss : List (List Op)} (hP : IPPatch G V opss) :
    ∀ (fuel : Nat) (s : InPlace) (w : MWorld Flash), Bd G P steps k0 s w s.chunk.rest → s.mu < fuel →
    ∃ e s' w', ipFinalizeLoop (flashEnv P steps) fuel s w = .ok (e, s', w') ∧
      ((e < 0 ∧ e ≠ ALREADY_DONE ∧ Dead G P steps k0 w') ∨
       (e = ALREADY_DONE ∧ s'.state = .done ∧ Bd G P steps k0 s' w' [])) := by
  intro fuel
  induction fuel with
  | zero => intro s w _ h; omega
  | succ fuel ih =>
    intro s w h hf
    unfold ipFinalizeLoop
    by_cases h3 : s.state = .done
    · rw [ipOnce_done _ h3]
      simp only [Bind.bind, Except.bind]
      rw [if_neg ad0]
      exact ⟨_, _, _, rfl, .inr ⟨rfl, h3, h.doneAny h3 _⟩⟩
    · obtain ⟨out, e1, e2⟩ := body_step (x := []) (hP.geo (h.pos h3)) (by rw [List.append_nil]; exact h) h3
      rw [e1]
      simp only [Bind.bind, Except.bind]
      cases e2 with
      | ok a1 a2 =>
        rw [if_pos rfl]
        rw [List.append_nil] at a1
        exact ih _ _ a1 (by simp only; omega)
      | more a1 a2 a3 a4 => exact absurd rfl a4
      | dead a1 a2 a3 =>
        rw [if_neg (by omega)]
        exact ⟨_, _, _, rfl, .inl ⟨a1, a2, a3⟩⟩

theorem mu_fuel {s : InPlace} (hc : s.chunk.Inv) : s.mu + 2 ≤ s.fuel := by
  have := s.chunk.left_eq hc
  unfold InPlace.mu InPlace.fuel
  cases s.reader <;> cases s.state <;> simp only <;> omega

theorem fuel_succ (s : InPlace) : ∃ f, s.fuel = f + 1 := by
  unfold InPlace.fuel
  exact ⟨_, (by omega : ∀ x : Nat, 16 + x = (15 + x) + 1) _⟩

/-- One call of process with a piece. -/
theorem process_ip {opss : List (List Op)} (hP : IPPatch G V opss) {s : InPlace} {w : MWorld Flash} (q later : Bytes)
    (h : IPRest G P steps k0 V s w (q ++ later))
    (hq : V.comp = 0 → s.state = .init → q ≠ [] → later.length ≤ V.body.length ∧ q.length + later.length = V.total) :
    ∃ e s' w', inPlaceProcess (flashEnv P steps) s w q = .ok (e, s', w') ∧
      ((e < 0 ∧ Dead G P steps k0 w') ∨ (e = 0 ∧ IPRest G P steps k0 V s' w' later ∧ (q ≠ [] → V.comp = 0 → s'.state ≠ .init) ∧ (q = [] → s'.state = s.state))) := by
  unfold inPlaceProcess
  by_cases hn : q = [] 
  · subst hn
    simp only []
    obtain ⟨f, hf⟩ := fuel_succ { s with chunk := { buf := [], offset := 0 } }
    rw [hf, ipLoop_stop _ (.inl rfl)]
    simp only [Bind.bind, Except.bind]
    rw [if_neg (by decide)]
    refine ⟨_, _, _, rfl, .inr ⟨rfl, ?_, fun h => absurd rfl h, fun _ => rfl⟩⟩
    cases h with
    | hd h1 h2 h3 => exact .hd (h1.setChunk _) h2 h3
    | bd h1 => exact .bd (h1.setChunk _)
  · have hl : IPLoop G P steps k0 V { s with chunk := { buf := q, offset := 0 } } w later := by
      cases h with
      | hd h1 h2 h3 => exact .hd (h1.setChunk _) (fun hc => hq hc h1.state hn) h3
      | bd h1 => exact .bd (h1.setChunk _)
    have hx := hl.chunkInv
    obtain ⟨e, s', w', e1, e2⟩ := loop_ip hP later _ _ w hl (mu_fuel hx)
    simp only [e1, Bind.bind, Except.bind]
    rcases e2 with ⟨a1, a2, a3⟩ | ⟨a1, a2, a3⟩
    · rw [if_neg (by omega)]
      exact ⟨_, _, _, rfl, .inl ⟨a1, a3⟩⟩
    · rcases a1 with rfl | rfl | rfl
      · rw [if_neg (by decide)]
        exact ⟨_, _, _, rfl, .inr ⟨rfl, a2, fun _ => a3, fun h => absurd h hn⟩⟩
      · rw [if_pos (.inl rfl)]
        exact ⟨_, _, _, rfl, .inr ⟨rfl, a2, fun _ => a3, fun h => absurd h hn⟩⟩
      · rw [if_pos (.inr rfl)]
        exact ⟨_, _, _, rfl, .inr ⟨rfl, a2, fun _ => a3, fun h => absurd h hn⟩⟩

/-- If the patch is not compressed, the first non-empty piece has the whole header, and
`total` is the size of the patch. -/
def FirstHas (V : HV) (pieces : List Bytes) (later : Bytes) : Prop :=
  V.comp = 0 → ∀ pre q post, pieces = pre ++ q :: post → (∀ p ∈ pre, p = []) → q ≠ [] →
    (post.flatten ++ later).length ≤ V.body.length ∧ q.length + (post.flatten ++ later).length = V.total

omit [Build] in
theorem FirstHas.tail {pieces : List Bytes} {later : Bytes} (h : FirstHas V ([] :: pieces) later) : FirstHas V pieces later := by
  intro hc pre q post e1 e2 e3
  refine h hc ([] :: pre) q post (by rw [e1]; rfl) ?_ e3
  intro p hp
  rcases List.mem_cons.1 hp with rfl | hp
  · rfl
  · exact e2 p hp

/-- All pieces. -/
theorem pieces_ip {opss : List (List Op)} (hP : IPPatch G V opss) (later : Bytes) :
    ∀ (pieces : List Bytes) (s : InPlace) (w : MWorld Flash), IPRest G P steps k0 V s w (pieces.flatten ++ later) →
    (s.state = .init → FirstHas V pieces later) →
    ∃ e s' w', inPlaceProcessAll (flashEnv P steps) s w pieces = .ok (e, s', w') ∧
      ((e < 0 ∧ Dead G P steps k0 w') ∨ (e = 0 ∧ IPRest G P steps k0 V s' w' later)) := by
  intro pieces
  induction pieces with
  | nil => intro s w h _; exact ⟨_, _, _, rfl, .inr ⟨rfl, h⟩⟩
  | cons q qs ih =>
    intro s w h hf
    simp only [List.flatten_cons, List.append_assoc] at h
    obtain ⟨e, s', w', e1, e2⟩ := process_ip hP q (qs.flatten ++ later) h
      (fun hc hs hq => hf hs hc [] q qs rfl (fun p hp => by cases hp) hq)
    unfold inPlaceProcessAll
    simp only [e1, Bind.bind, Except.bind]
    rcases e2 with ⟨a1, a2⟩ | ⟨rfl, a2, a3, a4⟩
    · rw [if_pos (by omega)]
      exact ⟨_, _, _, rfl, .inl ⟨a1, a2⟩⟩
    · rw [if_neg (by decide)]
      refine ih s' w' a2 (fun hs => ?_)
      by_cases hq : q = []
      · subst hq
        exact (hf (by rw [← a4 rfl]; exact hs)).tail
      · intro hc
        exact absurd hs (a3 hq hc)

omit [Build] in
theorem cf_err {e : Int} (h1 : e < 0) (h2 : e ≠ ALREADY_DONE) (r : Option CReader) (t : Nat) : commonFinalize e r t = e := by
  have h3 : ¬ e = 1 := by omega
  have h4 : ¬ e = 0 := by omega
  cases r <;> simp [commonFinalize, h2, h3, h4]

omit [Build] in
theorem cf_done {r : CReader} (h : r.destroy = 0) (t : Nat) : commonFinalize ALREADY_DONE (some r) t = wrapInt t := by
  simp [commonFinalize, h, show ¬ ALREADY_DONE = 1 by decide]

/-- Finalize after the whole patch. -/
theorem finalize_ip {opss : List (List Op)} (hP : IPPatch G V opss) {s : InPlace} {w : MWorld Flash} (h : IPRest G P steps k0 V s w []) :
    ∃ e s' w', inPlaceFinalize (flashEnv P steps) s w = .ok (e, s', w') ∧
      ((e < 0 ∧ Dead G P steps k0 w') ∨ (e = G.to.length ∧ Finished G steps k0 w')) := by
  cases h with
  | hd h => have := h.nonempty; simp at this
  | bd h =>
    have h1 := h.setChunk []
    unfold inPlaceFinalize
    obtain ⟨e, s', w', e1, e2⟩ := final_ip hP _ _ _ h1 (Nat.lt_of_lt_of_le (Nat.lt_add_of_pos_right (by decide)) (mu_fuel h1.chunkInv))
    simp only [e1, Bind.bind, Except.bind]
    rcases e2 with ⟨a1, a2, a3⟩ | ⟨rfl, a2, a3⟩
    · refine ⟨_, _, _, rfl, .inl ⟨?_, a3⟩⟩
      rw [cf_err a1 a2]
      exact a1
    · cases a3 with
      | top r E a i ops opss h1 => rw [a2] at h1; cases h1
      | seg r E i t pos opss h1 h2 h3 h4 h5 h6 => rw [a2] at h6; cases h6
      | done r h1 h2 h3 h4 h5 h6 =>
        refine ⟨_, _, _, rfl, .inr ⟨?_, h6⟩⟩
        have hd : r.destroy = 0 := decodes_nil h3
        rw [h2, h4, cf_done hd]
        exact wrapInt_small (by have := hP.ok.t; rw [hP.t] at this; exact this)

/-- The start of an update. -/
theorem rest_init (hV : V.Ok) {w : MWorld Flash} {patch : Bytes} (hst : IPStart G P steps k0 w)
    (hp : ∃ b : UInt8, patch = b :: V.tail .fixedHeader ∧ b.toNat &&& 0xf = V.comp ∧ (b.toNat >>> 4) &&& 0x7 = 1) :
    IPRest G P steps k0 V (inPlaceInit V.total) w patch := by
  refine .hd ⟨rfl, rfl, ?_, ?_, Nat.zero_le _, rfl, rfl, rfl, fun _ => hp, fun h => absurd rfl h, ?_, ?_, ?_, ?_⟩ (fun _ => rfl) hst
  · intro h; cases h
  · intro h; cases h
  · exact fun h => absurd h (by show ¬ 2 ≤ 0; decide)
  · exact fun h => absurd h (by show ¬ 3 ≤ 0; decide)
  · exact fun h => absurd h (by show ¬ 4 ≤ 0; decide)
  · exact fun h => absurd h (by show ¬ 5 ≤ 0; decide)

/-- A run. -/
theorem run_ip {opss : List (List Op)} (hP : IPPatch G V opss) {w : MWorld Flash} {pieces : List Bytes}
    (h : IPRest G P steps k0 V (inPlaceInit V.total) w pieces.flatten) (hf : FirstHas V pieces []) :
    ∃ e s' w', inPlacePieces (flashEnv P steps) V.total w pieces = .ok (e, s', w') ∧
      ((e < 0 ∧ Dead G P steps k0 w') ∨ (e = G.to.length ∧ Finished G steps k0 w')) := by
  obtain ⟨e, s', w', e1, e2⟩ := pieces_ip hP [] pieces _ w (by rw [List.append_nil]; exact h) (fun _ => hf)
  unfold inPlacePieces
  simp only [e1, Bind.bind, Except.bind]
  rcases e2 with ⟨a1, a2⟩ | ⟨rfl, a2⟩
  · rw [if_pos (by omega)]
    exact ⟨_, _, _, rfl, .inl ⟨a1, a2⟩⟩
  · rw [if_neg (by decide)]
    exact finalize_ip hP a2

end Detools
