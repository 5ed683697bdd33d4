import Verif.Proofs.CRecords
import Verif.Proofs.PyAccept
/-
The none and CRLE readers of the C library in front of the consumer of Proofs/CRecords.
-/
namespace Detools

variable [Build] [NoLzma]

omit [NoLzma] [Build] in
theorem runTo_rest_le {fr : Bytes} {x : Bytes} {a : SeqA} {r rest} (h : runTo fr a x = some (r, rest)) : rest.length ≤ x.length := by
  obtain ⟨_, p, h⟩ := runTo_suffix x a h
  rw [h]; simp

omit [NoLzma] [Build] in
theorem succ_raw (fr : Bytes) (p : Nat) : ∀ (x : Bytes) (o : Nat) (a res : SeqA),
    Succ (seqSink fr) (.raw p o, none) a x res ↔ ∃ rest, runTo fr a x = some (res, rest) ∧ o + (x.length - rest.length) = p := by
  have hn : ∀ o, rNext (.raw p o, none) = none := fun o => rfl
  have hdone : ∀ (x : Bytes) (o : Nat) (a res : SeqA), a.phase = .done → (Succ (seqSink fr) (.raw p o, none) a x res ↔ ∃ rest, runTo fr a x = some (res, rest) ∧ o + (x.length - rest.length) = p) := by
    intro x o a res hd
    rw [succ_done hd, runTo_done hd]
    constructor
    · rintro ⟨rfl, h⟩
      refine ⟨x, rfl, ?_⟩
      simp only [CReader.destroy] at h
      split at h
      · omega
      · cases h
    · rintro ⟨rest, h, hp⟩
      cases h
      refine ⟨rfl, ?_⟩
      simp only [CReader.destroy]
      rw [if_pos (by omega)]
  intro x
  induction x with
  | nil =>
    intro o a res
    by_cases hd : a.phase = .done
    · exact hdone _ _ _ _ hd
    · constructor
      · intro h; exact absurd h (succ_nil hd (hn o))
      · rintro ⟨rest, h, _⟩; rw [runTo_nil hd] at h; cases h
  | cons b t ih =>
    intro o a res
    by_cases hd : a.phase = .done
    · exact hdone _ _ _ _ hd
    · rw [succ_cons hd (hn o), runTo_cons hd]
      constructor
      · rintro ⟨r', h1, h2⟩
        simp only [rFeed] at h1
        split at h1
        · cases h1
          rw [succ_next hd rfl, ih] at h2
          obtain ⟨rest, h3, h4⟩ := h2
          have := runTo_rest_le h3
          exact ⟨rest, h3, by simp only [List.length_cons]; omega⟩
        · cases h1
      · rintro ⟨rest, h3, h4⟩
        have := runTo_rest_le h3
        simp only [List.length_cons] at h4
        refine ⟨(.raw p (o + 1), some (.byte b)), ?_, ?_⟩
        · simp only [rFeed]
          rw [if_pos (by omega)]
        · rw [succ_next hd rfl, ih]
          exact ⟨rest, h3, by omega⟩

/-! ### CRLE -/

/-- What the C decoder delivers of a stream that may end anywhere or be malformed, but
has no empty segments before that point. -/
inductive CrleOut : Nat → Bytes → Bytes → Prop
  | stop {k} : CrleOut k [] []
  | lit {k b inp out} : CrleOut k inp out → CrleOut (k + 1) (b :: inp) (b :: out)
  | scattered {n inp rest out} : usizeRun ({} : USize).start inp = .value n rest → 0 < n →
      CrleOut n rest out → CrleOut 0 (0 :: inp) out
  | repeated {n b inp rest out} : usizeRun ({} : USize).start inp = .value n (b :: rest) → 0 < n →
      CrleOut 0 rest out → CrleOut 0 (1 :: inp) (List.replicate n b ++ out)
  | cutSize {b inp} : (∀ n rest, usizeRun ({} : USize).start inp ≠ .value n rest) → CrleOut 0 (b :: inp) []
  | cutByte {n inp} : usizeRun ({} : USize).start inp = .value n [] → CrleOut 0 (1 :: inp) []
  | badKind {b inp} : b ≠ 0 → b ≠ 1 → CrleOut 0 (b :: inp) []

def crleSt (k : Nat) : CCrle := if k = 0 then .idle else .scatteredData k

omit [NoLzma] [Build] in
theorem succ_usize (fr : Bytes) (mk : USize → CCrle) (fin : Nat → CCrle)
    (hmk : mk = .scatteredSize ∧ fin = .scatteredData ∨ mk = .repeatedRepetitions ∧ fin = .repeatedData) :
    ∀ (x : Bytes) (u : USize) (a res : SeqA), a.phase ≠ .done →
    (Succ (seqSink fr) (.crle (mk u), none) a x res ↔ ∃ v t, usizeRun u x = .value v t ∧ Succ (seqSink fr) (.crle (fin v), none) a t res) := by
  intro x
  induction x with
  | nil =>
    intro u a res hd
    have hn : rNext (.crle (mk u), none) = none := by rcases hmk with ⟨rfl, _⟩ | ⟨rfl, _⟩ <;> rfl
    constructor
    · intro h; exact absurd h (succ_nil hd hn)
    · rintro ⟨v, t, h, _⟩; cases h
  | cons b t ih =>
    intro u a res hd
    have hn : rNext (.crle (mk u), none) = none := by rcases hmk with ⟨rfl, _⟩ | ⟨rfl, _⟩ <;> rfl
    have hf : rFeed (.crle (mk u), none) b = match usizeByte u b with
        | none => none
        | some (u, none) => some (.crle (mk u), none)
        | some (_, some v) => some (.crle (fin v), none) := by rcases hmk with ⟨rfl, rfl⟩ | ⟨rfl, rfl⟩ <;> rfl
    rw [succ_cons hd hn, hf, usizeRun]
    cases usizeByte u b with
    | none =>
      simp only
      constructor
      · rintro ⟨_, h, _⟩; cases h
      · rintro ⟨_, _, h, _⟩; cases h
    | some q =>
      obtain ⟨u', o⟩ := q
      cases o with
      | none =>
        simp only
        rw [← ih u' a res hd]
        constructor
        · rintro ⟨_, h, h'⟩; cases h; exact h'
        · intro h; exact ⟨_, rfl, h⟩
      | some v =>
        simp only
        constructor
        · rintro ⟨_, h, h'⟩; cases h; exact ⟨v, t, rfl, h'⟩
        · rintro ⟨_, _, h, h'⟩; cases h; exact ⟨_, rfl, h'⟩

omit [NoLzma] [Build] in
theorem succ_crle_done {fr : Bytes} {s : CCrle} {a res : SeqA} {x : Bytes} (hd : a.phase = .done) :
    Succ (seqSink fr) (.crle s, none) a x res ↔ res = a := by
  rw [succ_done hd]
  simp [CReader.destroy]

omit [NoLzma] [Build] in
theorem succ_repeat (fr : Bytes) (b : UInt8) (x : Bytes) (res : SeqA) : ∀ (n : Nat) (a : SeqA), 0 < n →
    (Succ (seqSink fr) (.crle (.repeatedDataRead b n), none) a x res ↔
      (∃ rest, runTo fr a (List.replicate n b) = some (res, rest)) ∨
      (runTo fr a (List.replicate n b) = none ∧
        Succ (seqSink fr) (.crle .idle, none) ((seqSink fr).steps a ((List.replicate n b).map .byte)) x res)) := by
  intro n
  induction n with
  | zero => intro a h; omega
  | succ n ih =>
    intro a _
    by_cases hd : a.phase = .done
    · rw [succ_crle_done hd, runTo_done hd]
      constructor
      · rintro rfl; exact .inl ⟨_, rfl⟩
      · rintro (⟨rest, h⟩ | ⟨h, _⟩)
        · cases h; rfl
        · cases h
    · have hx : rNext (.crle (.repeatedDataRead b (n + 1)), none) =
          some (.byte b, (.crle (if n = 0 then .idle else .repeatedDataRead b n), none)) := by
        simp [rNext]
      rw [succ_next hd hx, List.replicate_succ, runTo_cons hd]
      by_cases hz : n = 0
      · subst hz
        rw [if_pos rfl]
        simp only [List.replicate_zero, List.map_cons, List.map_nil, Sink.steps_cons, Sink.steps_nil]
        by_cases hd' : (SeqA.step fr a (.byte b)).phase = .done
        · rw [succ_crle_done hd', runTo_done hd']
          constructor
          · rintro rfl; exact .inl ⟨_, rfl⟩
          · rintro (⟨rest, h⟩ | ⟨h, _⟩)
            · cases h; rfl
            · cases h
        · rw [runTo_nil hd']
          constructor
          · intro h; exact .inr ⟨rfl, h⟩
          · rintro (⟨rest, h⟩ | ⟨_, h⟩)
            · cases h
            · exact h
      · rw [if_neg hz, ih _ (by omega)]
        simp only [List.map_cons, Sink.steps_cons]

omit [NoLzma] [Build] in
theorem succ_append {fr : Bytes} {a : SeqA} {x y : Bytes} {P : SeqA → Prop} {res : SeqA}
    (h : ∀ a', P a' ↔ ∃ rest, runTo fr a' y = some (res, rest)) :
    ((∃ rest, runTo fr a x = some (res, rest)) ∨ (runTo fr a x = none ∧ P ((seqSink fr).steps a (x.map .byte)))) ↔
      ∃ rest, runTo fr a (x ++ y) = some (res, rest) := by
  cases hx : runTo fr a x with
  | none =>
    rw [runTo_append_none x y a hx, ← h]
    constructor
    · rintro (⟨_, h⟩ | ⟨_, h⟩)
      · cases h
      · exact h
    · intro h; exact .inr ⟨rfl, h⟩
  | some p =>
    obtain ⟨r, rest⟩ := p
    rw [runTo_append_some x y a hx]
    constructor
    · rintro (⟨_, h⟩ | ⟨h, _⟩)
      · cases h; exact ⟨_, rfl⟩
      · cases h
    · rintro ⟨_, h⟩; cases h; exact .inl ⟨_, rfl⟩

omit [NoLzma] [Build] in
theorem succ_crle (fr : Bytes) {k : Nat} {inp out : Bytes} (h : CrleOut k inp out) : ∀ (a res : SeqA),
    Succ (seqSink fr) (.crle (crleSt k), none) a inp res ↔ ∃ rest, runTo fr a out = some (res, rest) := by
  have hnx : ∀ k, rNext (.crle (crleSt k), none) = none := by
    intro k; unfold crleSt; split <;> rfl
  have hdn : ∀ {k : Nat} {inp out : Bytes} {a res : SeqA}, a.phase = .done →
      (Succ (seqSink fr) (.crle (crleSt k), none) a inp res ↔ ∃ rest, runTo fr a out = some (res, rest)) := by
    intro k inp out a res hd
    rw [succ_crle_done hd, runTo_done hd]
    constructor
    · rintro rfl; exact ⟨_, rfl⟩
    · rintro ⟨_, h⟩; cases h; rfl
  induction h with
  | @stop k =>
    intro a res
    by_cases hd : a.phase = .done
    · exact hdn hd
    · rw [runTo_nil hd]
      constructor
      · intro h; exact absurd h (succ_nil hd (hnx k))
      · rintro ⟨_, h⟩; cases h
  | @lit k b inp out h ih =>
    intro a res
    by_cases hd : a.phase = .done
    · exact hdn hd
    · have hf : rFeed (.crle (crleSt (k + 1)), none) b = some (.crle (crleSt k), some (.byte b)) := by
        have : crleSt (k + 1) = .scatteredData (k + 1) := by simp [crleSt]
        rw [this]
        simp [rFeed, crleSt]
      rw [succ_feed hd (hnx _) hf, succ_next hd rfl, runTo_cons hd]
      exact ih _ _
  | @scattered n inp rest out h1 h2 h3 ih =>
    intro a res
    by_cases hd : a.phase = .done
    · exact hdn hd
    · have hf : rFeed (.crle (crleSt 0), none) 0 = some (.crle (.scatteredSize ({} : USize).start), none) := rfl
      rw [succ_feed hd (hnx _) hf, succ_usize fr _ _ (.inl ⟨rfl, rfl⟩) _ _ _ _ hd, ← ih a res]
      have : crleSt n = .scatteredData n := by unfold crleSt; rw [if_neg (by omega)]
      rw [this]
      constructor
      · rintro ⟨v, t, g1, g2⟩
        rw [h1] at g1
        cases g1
        exact g2
      · intro g; exact ⟨n, rest, h1, g⟩
  | @repeated n b inp rest out h1 h2 h3 ih =>
    intro a res
    by_cases hd : a.phase = .done
    · exact hdn hd
    · have hf : rFeed (.crle (crleSt 0), none) 1 = some (.crle (.repeatedRepetitions ({} : USize).start), none) := rfl
      rw [succ_feed hd (hnx _) hf, succ_usize fr _ _ (.inr ⟨rfl, rfl⟩) _ _ _ _ hd]
      have hstep : (∃ v t, usizeRun ({} : USize).start inp = .value v t ∧ Succ (seqSink fr) (.crle (.repeatedData v), none) a t res) ↔
          Succ (seqSink fr) (.crle (.repeatedDataRead b n), none) a rest res := by
        constructor
        · rintro ⟨v, t, g1, g2⟩
          rw [h1] at g1
          cases g1
          rw [succ_feed hd rfl (r' := (.crle (.repeatedDataRead b n), none)) rfl] at g2
          exact g2
        · intro g
          refine ⟨n, b :: rest, h1, ?_⟩
          rw [succ_feed hd rfl (r' := (.crle (.repeatedDataRead b n), none)) rfl]
          exact g
      rw [hstep, succ_repeat fr b rest res n a h2]
      exact succ_append (P := fun a' => Succ (seqSink fr) (.crle .idle, none) a' rest res) (fun a' => ih a' res)
  | @cutSize b inp h1 =>
    intro a res
    by_cases hd : a.phase = .done
    · exact hdn hd
    · rw [runTo_nil hd]
      constructor
      · intro h
        exfalso
        rw [succ_cons hd (hnx _)] at h
        obtain ⟨r', g1, g2⟩ := h
        simp only [crleSt, if_pos, rFeed, crleIdleFeed] at g1
        split at g1
        · cases g1
          rw [succ_usize fr _ _ (.inl ⟨rfl, rfl⟩) _ _ _ _ hd] at g2
          obtain ⟨v, t, g3, _⟩ := g2
          exact h1 _ _ g3
        · split at g1
          · cases g1
            rw [succ_usize fr _ _ (.inr ⟨rfl, rfl⟩) _ _ _ _ hd] at g2
            obtain ⟨v, t, g3, _⟩ := g2
            exact h1 _ _ g3
          · cases g1
      · rintro ⟨_, h⟩; cases h
  | @cutByte n inp h1 =>
    intro a res
    by_cases hd : a.phase = .done
    · exact hdn hd
    · rw [runTo_nil hd]
      constructor
      · intro h
        exfalso
        have hf : rFeed (.crle (crleSt 0), none) 1 = some (.crle (.repeatedRepetitions ({} : USize).start), none) := rfl
        rw [succ_feed hd (hnx _) hf, succ_usize fr _ _ (.inr ⟨rfl, rfl⟩) _ _ _ _ hd] at h
        obtain ⟨v, t, g1, g2⟩ := h
        rw [h1] at g1
        cases g1
        exact succ_nil hd rfl g2
      · rintro ⟨_, h⟩; cases h
  | @badKind b inp h1 h2 =>
    intro a res
    by_cases hd : a.phase = .done
    · exact hdn hd
    · rw [runTo_nil hd]
      constructor
      · intro h
        exfalso
        refine succ_feed_none hd (hnx _) ?_ h
        simp [crleSt, rFeed, crleIdleFeed, h1, h2]
      · rintro ⟨_, h⟩; cases h

/-! The stream format and what the C decoder delivers. -/

omit [NoLzma] [Build] in
theorem usizeRun_of_unpack {inp : Bytes} {n : Nat} {rest : Bytes} (h : crleUnpackSize 0 0 inp = some (n, rest)) (hl : inp.length - rest.length ≤ 4) :
    usizeRun ({} : USize).start inp = .value n rest := by
  have := usizeRun_val inp ({} : USize).start rfl (by show 0 ≤ 28; omega)
  have e : crleUnpackSize ({} : USize).start.value ({} : USize).start.offset inp = some (n, rest) := h
  rw [e] at this
  simp only at this
  rwa [if_pos (by show 0 + _ ≤ 28; omega)] at this

omit [NoLzma] [Build] in
theorem usizeRun_none {inp : Bytes} (h : crleUnpackSize 0 0 inp = none) : ∀ n rest, usizeRun ({} : USize).start inp ≠ .value n rest := by
  intro n rest hv
  have := usizeRun_val inp ({} : USize).start rfl (by show 0 ≤ 28; omega)
  have e : crleUnpackSize ({} : USize).start.value ({} : USize).start.offset inp = none := h
  rw [e] at this
  simp only at this
  split at this
  · obtain ⟨a, ha⟩ := this; rw [ha] at hv; cases hv
  · rw [this] at hv; cases hv

omit [NoLzma] [Build] in
theorem CrleDec.out {k inp out} (h : CrleDec k inp out) (hs : CrleSmall k inp) : CrleOut k inp out := by
  induction h with
  | done => exact .stop
  | lit _ ih =>
    cases hs with
    | lit hs => exact .lit (ih hs)
  | @scattered n inp rest out h1 h2 h3 ih =>
    cases hs with
    | scattered g1 g2 g3 =>
      rw [h1] at g1
      cases g1
      exact .scattered (usizeRun_of_unpack h1 g2) h2 (ih g3)
  | @repeated n b inp rest out h1 h2 h3 ih =>
    cases hs with
    | repeated g1 g2 g3 =>
      rw [h1] at g1
      cases g1
      exact .repeated (usizeRun_of_unpack h1 g2) h2 (ih g3)

omit [NoLzma] [Build] in
/-- A stream cut short, or followed by anything. -/
theorem CrleDec.out_append {k inp out} (h : CrleDec k inp out) (hs : CrleSmall k inp) {z o : Bytes} (hz : CrleOut 0 z o) : CrleOut k (inp ++ z) (out ++ o) := by
  induction h with
  | done => exact hz
  | lit _ ih =>
    cases hs with
    | lit hs => exact .lit (ih hs)
  | @scattered n inp rest out h1 h2 h3 ih =>
    cases hs with
    | scattered g1 g2 g3 =>
      rw [h1] at g1
      cases g1
      refine .scattered ?_ h2 (ih g3)
      show usizeRun _ (inp ++ z) = _
      rw [usizeRun_append, usizeRun_of_unpack h1 g2]
  | @repeated n b inp rest out h1 h2 h3 ih =>
    cases hs with
    | repeated g1 g2 g3 =>
      rw [h1] at g1
      cases g1
      rw [List.append_assoc]
      refine .repeated ?_ h2 (ih g3)
      show usizeRun _ (inp ++ z) = _
      rw [usizeRun_append, usizeRun_of_unpack h1 g2]
      rfl

omit [NoLzma] [Build] in
theorem CrleDec.out_cut {k full out} (h : CrleDec k full out) (hs : CrleSmall k full) : ∀ (inp ext : Bytes), full = inp ++ ext → ext ≠ [] →
    ∃ o lost, out = o ++ lost ∧ lost ≠ [] ∧ CrleOut k inp o := by
  induction h with
  | done => intro inp ext h hne; simp at h; exact absurd h.2 hne
  | @lit k b full out h ih =>
    intro inp ext he hne
    cases hs with
    | lit hs =>
    cases inp with
    | nil => exact ⟨[], b :: out, rfl, by simp, .stop⟩
    | cons x inp =>
      simp only [List.cons_append, List.cons.injEq] at he
      obtain ⟨rfl, he⟩ := he
      obtain ⟨o, lost, h1, h2, h3⟩ := ih hs inp ext he hne
      exact ⟨b :: o, lost, by rw [h1]; rfl, h2, .lit h3⟩
  | @scattered n full rest out h1 h2 h3 ih =>
    intro inp ext he hne
    cases hs with
    | scattered g1 g2 g3 =>
    rw [h1] at g1
    cases g1
    have hout : out ≠ [] := by
      cases h3 with
      | done => omega
      | lit => simp
      | scattered => omega
      | repeated => omega
    cases inp with
    | nil => exact ⟨[], out, rfl, hout, .stop⟩
    | cons x inp =>
      simp only [List.cons_append, List.cons.injEq] at he
      obtain ⟨rfl, rfl⟩ := he
      rcases crleUnpackSize_cut h1 with hu | ⟨r, hu, hr⟩
      · exact ⟨[], out, rfl, hout, .cutSize (usizeRun_none hu)⟩
      · obtain ⟨o, lost, k1, k2, k3⟩ := ih g3 r ext hr hne
        refine ⟨o, lost, k1, k2, .scattered (usizeRun_of_unpack hu ?_) h2 k3⟩
        rw [hr] at g2
        simp only [List.length_append] at g2
        omega
  | @repeated n b full rest out h1 h2 h3 ih =>
    intro inp ext he hne
    cases hs with
    | repeated g1 g2 g3 =>
    rw [h1] at g1
    cases g1
    have hout : List.replicate n b ++ out ≠ [] := by
      have : (List.replicate n b).length = n := by simp
      intro h
      have := congrArg List.length h
      simp at this
      omega
    cases inp with
    | nil => exact ⟨[], _, rfl, hout, .stop⟩
    | cons x inp =>
      simp only [List.cons_append, List.cons.injEq] at he
      obtain ⟨rfl, rfl⟩ := he
      rcases crleUnpackSize_cut h1 with hu | ⟨r, hu, hr⟩
      · exact ⟨[], _, rfl, hout, .cutSize (usizeRun_none hu)⟩
      · have hl : inp.length - r.length ≤ 4 := by
          have := congrArg List.length hr
          simp only [List.length_append] at this g2
          omega
        cases r with
        | nil => exact ⟨[], _, rfl, hout, .cutByte (usizeRun_of_unpack hu hl)⟩
        | cons y r =>
          simp only [List.cons_append, List.cons.injEq] at hr
          obtain ⟨rfl, hr⟩ := hr
          obtain ⟨o, lost, k1, k2, k3⟩ := ih g3 r ext hr hne
          exact ⟨List.replicate n b ++ o, lost, by rw [k1, List.append_assoc], k2, .repeated (usizeRun_of_unpack hu hl) h2 k3⟩

end Detools
