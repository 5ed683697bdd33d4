import Verif.Proofs.CSeqReject
import Verif.Proofs.CAccept
import Verif.Proofs.CSizeVal
import Verif.Spec.CFormat
/-
A build with LZMA treats a patch that is not compressed with LZMA as a build without it.
-/
namespace Detools

section

variable [Build]

/-- Not an LZMA reader. -/
def CReader.NotLzma : CReader → Prop
  | .lzma _ => False
  | _ => True

/-- No LZMA reader. -/
def NotLzmaO : Option CReader → Prop
  | none => True
  | some r => r.NotLzma

theorem dec_notLzma {r : CReader} (hr : r.NotLzma) {c : Chunk} {cap size : Nat} {d r' c'}
    (h : r.decompress c cap size = .ok (d, r', c')) : r'.NotLzma := by
  unfold CReader.decompress at h
  cases r with
  | raw a b =>
    simp only [noneDecompress, Bind.bind, Except.bind] at h
    split at h
    · cases h; trivial
    · split at h
      · cases h
      · split at h
        · cases h; trivial
        · cases h; trivial
  | lzma t => exact hr.elim
  | crle t =>
    simp only [Bind.bind, Except.bind] at h
    split at h
    · cases h
    · cases h; trivial
  | heatshrink t =>
    simp only [Bind.bind, Except.bind] at h
    split at h
    · cases h
    · cases h; trivial

theorem unpackSizeC_notLzma : ∀ (fuel : Nat) {r : CReader} (_ : r.NotLzma) {c : Chunk} {a : SizeAcc} {v r' c' a'},
    unpackSizeC fuel r c a = .ok (v, r', c', a') → r'.NotLzma
  | 0, _, _, _, _, _, _, _, _, h => by cases h
  | fuel + 1, r, hr, c, a, v, r', c', a', h => by
    unfold unpackSizeC at h
    cases hd : r.decompress c 1 1 with
    | error u => rw [hd] at h; cases h
    | ok o =>
      obtain ⟨d, r1, c1⟩ := o
      have h1 := dec_notLzma hr hd
      rw [hd] at h
      simp only [Bind.bind, Except.bind] at h
      match d, h with
      | .more, h => cases h; exact h1
      | .fail e, h => cases h; exact h1
      | .ok [], h => cases h
      | .ok (b :: _), h =>
        simp only at h
        cases hb : sizeByte a b with
        | error u => rw [hb] at h; cases h
        | ok o =>
          obtain ⟨a1, o⟩ := o
          rw [hb] at h
          cases o with
          | none => exact unpackSizeC_notLzma fuel h1 h
          | some v => cases h; exact h1

theorem unpack_notLzma {s : ApplyPatch} (hr : NotLzmaO s.reader) {v s'} (h : s.unpackSize = .ok (v, s')) :
    NotLzmaO s'.reader := by
  unfold ApplyPatch.unpackSize at h
  cases he : s.reader with
  | none => rw [he] at h; cases h
  | some r =>
    rw [he] at h hr
    simp only [Bind.bind, Except.bind] at h
    cases hu : patchReaderUnpackSize r s.chunk s.readerSize with
    | error u => rw [hu] at h; cases h
    | ok o =>
      obtain ⟨v1, r1, c1, a1⟩ := o
      rw [hu] at h
      cases h
      exact unpackSizeC_notLzma 6 hr hu

theorem once_notLzma (E : SeqEnv σ) {s : ApplyPatch} {w : World σ} (hs : s.state ≠ .init) (hr : NotLzmaO s.reader) {res s' w'}
    (he : processOnce E s w = .ok (res, s', w')) : NotLzmaO s'.reader := by
  unfold processOnce at he
  split at he
  · cases he; exact hr
  · cases hsw : processSwitch E s w with
    | error u => rw [hsw] at he; cases he
    | ok v =>
      obtain ⟨r1, s1, w1⟩ := v
      have key : NotLzmaO s1.reader := by
        have hsize : ∀ next, processSize s w next = .ok (r1, s1, w1) → NotLzmaO s1.reader := by
          intro next hp
          simp only [processSize, Bind.bind, Except.bind] at hp
          split at hp
          · cases hp
          · rename_i e
            split at hp
            · have := unpack_notLzma hr e; cases hp; exact this
            · have := unpack_notLzma hr e; cases hp; exact this
            · split at hp
              · have := unpack_notLzma hr e; cases hp; exact this
              · have := unpack_notLzma hr e; cases hp; exact this
        have hdata : ∀ next diff, processData E s w next diff = .ok (r1, s1, w1) → NotLzmaO s1.reader := by
          intro next diff hp
          unfold processData at hp
          by_cases hz : min dataCap s.chunkSize = 0
          · simp only [hz, if_true] at hp
            cases hp; exact hr
          · simp only [hz, if_false] at hp
            cases hr1 : s.reader with
            | none => rw [hr1] at hp; cases hp
            | some r =>
              rw [hr1] at hp hr
              simp only [Bind.bind, Except.bind] at hp
              cases hdd : r.decompress s.chunk dataCap (min dataCap s.chunkSize) with
              | error u => rw [hdd] at hp; cases hp
              | ok v =>
                obtain ⟨d, r', c'⟩ := v
                have h1 : NotLzmaO (some r') := dec_notLzma hr hdd
                have hwr : ∀ {s0 : ApplyPatch} {w0 : World σ} {to}, s0.reader = some r' → processWrite E s0 w0 to = .ok (r1, s1, w1) →
                    NotLzmaO s1.reader := by
                  intro s0 w0 to h0 hw
                  unfold processWrite at hw
                  simp only at hw
                  split at hw
                  · cases hw; simp only [h0]; exact h1
                  · cases hw; simp only [h0]; exact h1
                rw [hdd] at hp
                match d, hp with
                | .more, hp => cases hp; exact h1
                | .fail e, hp => cases hp; exact h1
                | .ok to, hp =>
                  cases diff with
                  | false => exact hwr (s0 := { s with reader := some r', chunk := c' }) rfl hp
                  | true =>
                    simp only [if_true] at hp
                    split at hp
                    · cases hp; exact h1
                    · split at hp
                      · cases hp
                      · exact hwr (s0 := { s with reader := some r', chunk := c', fromOffset := _ }) rfl hp
        unfold processSwitch at hsw
        cases h : s.state with
        | init => exact absurd h hs
        | dfpatchSize =>
          rw [h] at hsw
          simp only [processDfpatchSize, Bind.bind, Except.bind] at hsw
          split at hsw
          · cases hsw
          · rename_i e
            split at hsw
            · have := unpack_notLzma hr e; cases hsw; exact this
            · have := unpack_notLzma hr e; cases hsw; exact this
            · split at hsw
              · have := unpack_notLzma hr e; cases hsw; exact this
              · have := unpack_notLzma hr e; cases hsw; exact this
        | diffSize => rw [h] at hsw; exact hsize _ hsw
        | extraSize => rw [h] at hsw; exact hsize _ hsw
        | diffData => rw [h] at hsw; exact hdata _ _ hsw
        | extraData => rw [h] at hsw; exact hdata _ _ hsw
        | adjustment =>
          rw [h] at hsw
          simp only [processAdjustment, Bind.bind, Except.bind] at hsw
          split at hsw
          · cases hsw
          · rename_i e
            split at hsw
            · have := unpack_notLzma hr e; cases hsw; exact this
            · have := unpack_notLzma hr e; cases hsw; exact this
            · split at hsw
              · have := unpack_notLzma hr e; cases hsw; exact this
              · split at hsw
                · cases hsw
                · split at hsw
                  · have := unpack_notLzma hr e; cases hsw; exact this
                  · have := unpack_notLzma hr e; cases hsw; exact this
        | done => rw [h] at hsw; cases hsw; exact hr
        | failed => rw [h] at hsw; cases hsw; exact hr
      rw [hsw] at he
      simp only [Bind.bind, Except.bind] at he
      split at he
      · cases he; exact key
      · cases he; exact key

end

variable {B1 B2 : Build}

theorem dec_any {r : CReader} (hr : r.NotLzma) (c : Chunk) (cap size : Nat) :
    @CReader.decompress B1 r c cap size = @CReader.decompress B2 r c cap size := by
  cases r with
  | lzma => exact hr.elim
  | _ => rfl

theorem init_any2 {n c : Nat} (h : c ≠ 1) : @CReader.init B1 n c = @CReader.init B2 n c := by
  unfold CReader.init
  rw [if_neg h, if_neg h]

theorem init_notLzma {n c : Nat} (h : c ≠ 1) {r : CReader} (hr : @CReader.init B1 n c = some r) : r.NotLzma := by
  unfold CReader.init at hr
  split at hr
  · cases hr; trivial
  · split at hr
    · cases hr; trivial
    · split at hr
      · cases hr; trivial
      · first | cases hr | (rw [if_neg h] at hr; cases hr)

theorem unpackSizeC_any : ∀ (fuel : Nat) {r : CReader} (_ : r.NotLzma) (c : Chunk) (a : SizeAcc),
    @unpackSizeC B1 fuel r c a = @unpackSizeC B2 fuel r c a
  | 0, _, _, _, _ => rfl
  | fuel + 1, r, hr, c, a => by
    unfold unpackSizeC
    rw [dec_any (B1 := B1) (B2 := B2) hr]
    cases hd : @CReader.decompress B2 r c 1 1 with
    | error u => rfl
    | ok o =>
      obtain ⟨d, r1, c1⟩ := o
      have h1 := @dec_notLzma B2 _ hr _ _ _ _ _ _ hd
      simp only [Bind.bind, Except.bind]
      match d with
      | .more => rfl
      | .fail e => rfl
      | .ok [] => rfl
      | .ok (b :: _) =>
        simp only
        cases sizeByte a b with
        | error u => rfl
        | ok o =>
          obtain ⟨a1, o⟩ := o
          cases o with
          | none => exact unpackSizeC_any fuel h1 c1 a1
          | some v => rfl

theorem unpack_any {s : ApplyPatch} (hr : NotLzmaO s.reader) : @ApplyPatch.unpackSize B1 s = @ApplyPatch.unpackSize B2 s := by
  unfold ApplyPatch.unpackSize patchReaderUnpackSize
  cases h : s.reader with
  | none => rfl
  | some r =>
    rw [h] at hr
    simp only
    rw [unpackSizeC_any (B1 := B1) (B2 := B2) 6 hr]

theorem data_any (E : SeqEnv σ) {s : ApplyPatch} (w : World σ) (hr : NotLzmaO s.reader) (next : SeqPhase) (diff : Bool) :
    @processData B1 σ E s w next diff = @processData B2 σ E s w next diff := by
  unfold processData
  cases h : s.reader with
  | none => rfl
  | some r =>
    rw [h] at hr
    simp only
    rw [dec_any (B1 := B1) (B2 := B2) hr]

theorem switch_any (E : SeqEnv σ) {s : ApplyPatch} (w : World σ) (hr : NotLzmaO s.reader)
    (hc : s.state = .init → s.initState = .toSize → s.compression ≠ 1) :
    @processSwitch B1 σ E s w = @processSwitch B2 σ E s w := by
  unfold processSwitch
  cases h : s.state with
  | init =>
    simp only [processInit]
    cases hi : s.initState with
    | fixedHeader => rfl
    | toSize =>
      simp only [processInitToSize]
      cases chunkUnpackHeaderSize (s.chunk.left + 1) s.chunk s.size with
      | error u => rfl
      | ok v =>
        obtain ⟨v, c, a⟩ := v
        cases v with
        | value v =>
          simp only [Bind.bind, Except.bind]
          rw [init_any2 (B1 := B1) (B2 := B2) (hc h hi)]
        | _ => rfl
  | dfpatchSize => simp only [processDfpatchSize]; rw [unpack_any (B1 := B1) (B2 := B2) hr]
  | diffSize => simp only [processSize]; rw [unpack_any (B1 := B1) (B2 := B2) hr]
  | extraSize => simp only [processSize]; rw [unpack_any (B1 := B1) (B2 := B2) hr]
  | diffData => exact data_any E w hr _ _
  | extraData => exact data_any E w hr _ _
  | adjustment => simp only [processAdjustment]; rw [unpack_any (B1 := B1) (B2 := B2) hr]
  | done => rfl
  | failed => rfl

theorem once_any (E : SeqEnv σ) {s : ApplyPatch} (w : World σ) (hr : NotLzmaO s.reader)
    (hc : s.state = .init → s.initState = .toSize → s.compression ≠ 1) :
    @processOnce B1 σ E s w = @processOnce B2 σ E s w := by
  unfold processOnce
  rw [switch_any (B1 := B1) (B2 := B2) E w hr hc]

theorem fuel_any {s : ApplyPatch} (hr : NotLzmaO s.reader) : @ApplyPatch.fuel B1 s = @ApplyPatch.fuel B2 s := by
  unfold ApplyPatch.fuel
  cases h : s.reader with
  | none => rfl
  | some r =>
    rw [h] at hr
    cases r with
    | lzma => exact hr.elim
    | raw => rfl
    | crle t => cases t <;> rfl
    | heatshrink t => cases t <;> rfl

/-- The patch fed so far is not compressed with LZMA. -/
def NotLzmaFed (fed : Bytes) : Prop := ∀ b t, fed = b :: t → b.toNat &&& 0xf ≠ 1

theorem HT.notLzma {s : ApplyPatch} {fed : Bytes} (ht : HT s fed) (hf : NotLzmaFed fed) (h1 : s.state = .init) (h2 : s.initState = .toSize) :
    s.compression ≠ 1 := by
  simp only [HT, h1, h2] at ht
  obtain ⟨b, t, hc, he, _⟩ := ht
  rw [hc]
  exact hf _ _ he

variable [B : Build]

/-- One step keeps the reader of another kind. -/
theorem once_kind (E : SeqEnv σ) {s : ApplyPatch} {w : World σ} {fed : Bytes} (ht : HT s fed) (hf : NotLzmaFed fed) (hr : NotLzmaO s.reader) {res s' w'}
    (he : processOnce E s w = .ok (res, s', w')) : NotLzmaO s'.reader := by
  by_cases h1 : s.state = .init
  · unfold processOnce at he
    rw [if_neg (by rw [h1]; decide)] at he
    cases hsw : processSwitch E s w with
    | error u => rw [hsw] at he; cases he
    | ok v =>
      obtain ⟨r1, s1, w1⟩ := v
      rw [hsw] at he
      have key : NotLzmaO s1.reader := by
        simp only [processSwitch, h1, processInit] at hsw
        cases hi : s.initState with
        | fixedHeader =>
          simp only [hi, processInitFixedHeader, Bind.bind, Except.bind] at hsw
          split at hsw
          · cases hsw
          · split at hsw
            · cases hsw; exact hr
            · split at hsw <;> (cases hsw; exact hr)
        | toSize =>
          have hc := ht.notLzma hf h1 hi
          simp only [hi, processInitToSize, Bind.bind, Except.bind] at hsw
          split at hsw
          · cases hsw
          · split at hsw
            · cases hsw; exact hr
            · cases hsw; exact hr
            · split at hsw
              · cases hsw; exact hr
              · rename_i hin
                have := init_notLzma hc hin
                split at hsw
                · cases hsw; exact this
                · split at hsw <;> (cases hsw; exact this)
      simp only [Bind.bind, Except.bind] at he
      split at he <;> (cases he; exact key)
  · exact once_notLzma E h1 hr he

/-- What both builds keep. -/
structure NL (s : ApplyPatch) (fed : Bytes) : Prop where
  inv : SInv s
  ht : HT s fed
  reader : NotLzmaO s.reader

theorem NL.once (E : SeqEnv σ) {s : ApplyPatch} {w : World σ} {fed : Bytes} (h : NL s fed) (hf : NotLzmaFed fed) {res s' w'}
    (he : processOnce E s w = .ok (res, s', w')) : NL s' fed := by
  refine ⟨?_, (once_ht E h.inv h.ht he).1, once_kind E h.ht hf h.reader he⟩
  rcases once_ok E h.inv w with (e | e) | ⟨out', e, ho'⟩
  · rw [e] at he; cases he
  · rw [e] at he; cases he
  · rw [e] at he
    cases he
    cases ho' with
    | ok _ _ _ g => exact g.inv
    | more _ _ g => exact g.inv
    | done => exact h.inv
    | already => exact h.inv
    | fail _ _ g => exact g.inv
    | io _ _ _ _ g => exact g.inv

theorem loop_any (E : SeqEnv σ) {fed : Bytes} (hf : NotLzmaFed fed) : ∀ (fuel : Nat) (res : Int) (s : ApplyPatch) (w : World σ), NL s fed →
    @processLoop B σ E fuel res s w = @processLoop B2 σ E fuel res s w ∧
    ∀ out, processLoop E fuel res s w = .ok out → NL out.2.1 fed
  | 0, _, _, _, _ => ⟨rfl, fun _ h => by cases h⟩
  | fuel + 1, res, s, w, h => by
    unfold processLoop
    rw [← once_any (B1 := B) (B2 := B2) E w h.reader (h.ht.notLzma hf)]
    by_cases hc : s.chunk.available = true ∧ res ≥ 0
    · rw [if_pos hc, if_pos hc]
      cases ho : processOnce E s w with
      | error u => exact ⟨rfl, fun _ h => by cases h⟩
      | ok o =>
        obtain ⟨r1, s1, w1⟩ := o
        exact loop_any E hf fuel r1 s1 w1 (h.once E hf ho)
    · rw [if_neg hc, if_neg hc]
      exact ⟨rfl, fun _ h' => by cases h'; exact h⟩

theorem floop_any (E : SeqEnv σ) {fed : Bytes} (hf : NotLzmaFed fed) : ∀ (fuel : Nat) (s : ApplyPatch) (w : World σ), NL s fed →
    @finalizeLoop B σ E fuel s w = @finalizeLoop B2 σ E fuel s w ∧
    ∀ out, finalizeLoop E fuel s w = .ok out → NL out.2.1 fed
  | 0, _, _, _ => ⟨rfl, fun _ h => by cases h⟩
  | fuel + 1, s, w, h => by
    unfold finalizeLoop
    rw [← once_any (B1 := B) (B2 := B2) E w h.reader (h.ht.notLzma hf)]
    cases ho : processOnce E s w with
    | error u => exact ⟨rfl, fun _ h => by cases h⟩
    | ok o =>
      obtain ⟨r1, s1, w1⟩ := o
      simp only [Bind.bind, Except.bind]
      split
      · exact floop_any E hf fuel s1 w1 (h.once E hf ho)
      · exact ⟨rfl, fun _ h' => by cases h'; exact h.once E hf ho⟩

theorem process_any (E : SeqEnv σ) {s : ApplyPatch} {w : World σ} {fed p : Bytes} (h : HS s fed) (hr : NotLzmaO s.reader) (hf : NotLzmaFed (fed ++ p)) :
    @applyPatchProcess B σ E s w p = @applyPatchProcess B2 σ E s w p ∧
    ∀ res s' w', applyPatchProcess E s w p = .ok (res, s', w') → HS s' (fed ++ p) ∧ NotLzmaO s'.reader := by
  have hn : NL { s with patchOffset := sz (s.patchOffset + p.length), chunk := { buf := p, offset := 0 } } (fed ++ p) :=
    ⟨h.inv.setChunk, HT.setChunk h, hr⟩
  obtain ⟨e, g⟩ := loop_any (B2 := B2) E hf (ApplyPatch.fuel { s with patchOffset := sz (s.patchOffset + p.length), chunk := { buf := p, offset := 0 } }) 0 _ w hn
  constructor
  · unfold applyPatchProcess
    simp only
    rw [← fuel_any (B1 := B) (B2 := B2) hn.reader, e]
  · intro res s' w' he
    refine ⟨process_hs E h he, ?_⟩
    unfold applyPatchProcess at he
    simp only at he
    cases hl : processLoop E (ApplyPatch.fuel { s with patchOffset := sz (s.patchOffset + p.length), chunk := { buf := p, offset := 0 } }) 0
        { s with patchOffset := sz (s.patchOffset + p.length), chunk := { buf := p, offset := 0 } } w with
    | error u => rw [hl] at he; cases he
    | ok o =>
      obtain ⟨r1, s1, w1⟩ := o
      have := (g _ hl).reader
      rw [hl] at he
      simp only [Bind.bind, Except.bind] at he
      split at he <;> (cases he; exact this)

theorem finalize_any (E : SeqEnv σ) {s : ApplyPatch} {w : World σ} {fed : Bytes} (h : HS s fed) (hr : NotLzmaO s.reader) (hf : NotLzmaFed fed) :
    @applyPatchFinalize B σ E s w = @applyPatchFinalize B2 σ E s w ∧
    ∀ res s' w', applyPatchFinalize E s w = .ok (res, s', w') → HS s' fed ∧ NotLzmaO s'.reader := by
  have ht := HT.setChunk (p := []) h (po := s.patchOffset)
  rw [List.append_nil] at ht
  have hn : NL { s with chunk := { buf := [], offset := 0 } } fed := ⟨h.inv.setChunk (po := s.patchOffset), ht, hr⟩
  obtain ⟨e, g⟩ := floop_any (B2 := B2) E hf (ApplyPatch.fuel { s with chunk := { buf := [], offset := 0 } }) _ w hn
  constructor
  · unfold applyPatchFinalize
    simp only
    rw [← fuel_any (B1 := B) (B2 := B2) hn.reader, e]
  · intro res s' w' he
    refine ⟨finalize_hs E h he, ?_⟩
    unfold applyPatchFinalize at he
    simp only at he
    cases hl : finalizeLoop E (ApplyPatch.fuel { s with chunk := { buf := [], offset := 0 } }) { s with chunk := { buf := [], offset := 0 } } w with
    | error u => rw [hl] at he; cases he
    | ok o =>
      obtain ⟨r1, s1, w1⟩ := o
      have := (g _ hl).reader
      rw [hl] at he
      cases he
      exact this

theorem NotLzmaFed.left {a b : Bytes} (h : NotLzmaFed (a ++ b)) : NotLzmaFed a := by
  intro x t e
  exact h x (t ++ b) (by rw [e]; rfl)

theorem runCalls_any (E : SeqEnv σ) : ∀ (calls : List Call) {s : ApplyPatch} {w : World σ} {fed : Bytes}, HS s fed → NotLzmaO s.reader →
    NotLzmaFed (fed ++ fedBytes calls) → @runCalls B σ E s w calls = @runCalls B2 σ E s w calls
  | [], _, _, _, _, _, _ => rfl
  | .process p :: cs, s, w, fed, h, hr, hf => by
    simp only [fedBytes] at hf
    rw [← List.append_assoc] at hf
    obtain ⟨e, g⟩ := process_any (B2 := B2) E (w := w) (p := p) h hr hf.left
    unfold runCalls
    rw [← e]
    cases hp : applyPatchProcess E s w p with
    | error u => rfl
    | ok o =>
      obtain ⟨r1, s1, w1⟩ := o
      obtain ⟨g1, g2⟩ := g _ _ _ hp
      simp only [Bind.bind, Except.bind]
      rw [runCalls_any E cs g1 g2 hf]
  | .finalize :: cs, s, w, fed, h, hr, hf => by
    simp only [fedBytes] at hf
    obtain ⟨e, g⟩ := finalize_any (B2 := B2) E (w := w) h hr hf.left
    unfold runCalls
    rw [← e]
    cases hp : applyPatchFinalize E s w with
    | error u => rfl
    | ok o =>
      obtain ⟨r1, s1, w1⟩ := o
      obtain ⟨g1, g2⟩ := g _ _ _ hp
      simp only [Bind.bind, Except.bind]
      rw [runCalls_any E cs g1 g2 hf]

theorem processAll_any (E : SeqEnv σ) : ∀ (pieces : List Bytes) {s : ApplyPatch} {w : World σ} {fed : Bytes}, HS s fed → NotLzmaO s.reader →
    NotLzmaFed (fed ++ pieces.flatten) → @processAll B σ E s w pieces = @processAll B2 σ E s w pieces ∧
    ∀ s' w', processAll E s w pieces = .ok (0, s', w') → HS s' (fed ++ pieces.flatten) ∧ NotLzmaO s'.reader
  | [], s, w, fed, h, hr, _ => ⟨rfl, fun _ _ h' => by cases h'; simpa using ⟨h, hr⟩⟩
  | p :: ps, s, w, fed, h, hr, hf => by
    rw [List.flatten_cons, ← List.append_assoc] at hf ⊢
    obtain ⟨e, g⟩ := process_any (B2 := B2) E (w := w) (p := p) h hr hf.left
    unfold processAll
    rw [← e]
    cases hp : applyPatchProcess E s w p with
    | error u => exact ⟨rfl, fun _ _ h => by cases h⟩
    | ok o =>
      obtain ⟨r1, s1, w1⟩ := o
      obtain ⟨g1, g2⟩ := g _ _ _ hp
      simp only [Bind.bind, Except.bind]
      split
      · rename_i hne
        exact ⟨rfl, fun _ _ h => by cases h; exact absurd rfl hne⟩
      · exact processAll_any E ps g1 g2 hf

theorem applyPieces_any (E : SeqEnv σ) (patchSize : Nat) (arg : σ) (pieces : List Bytes) (hf : NotLzmaFed pieces.flatten) :
    @applyPieces B σ E patchSize { arg := arg } pieces = @applyPieces B2 σ E patchSize { arg := arg } pieces := by
  obtain ⟨e, g⟩ := processAll_any (B2 := B2) E pieces (w := { arg := arg }) (HS.start patchSize) trivial (by simpa using hf)
  unfold applyPieces
  rw [← e]
  cases hp : processAll E (applyPatchInit patchSize) { arg := arg } pieces with
  | error u => rfl
  | ok o =>
    obtain ⟨r1, s1, w1⟩ := o
    simp only [Bind.bind, Except.bind]
    split
    · rfl
    · rename_i hne
      obtain rfl : r1 = 0 := Decidable.not_not.1 hne
      obtain ⟨g1, g2⟩ := g _ _ hp
      exact (finalize_any (B2 := B2) E g1 g2 (by simpa using hf)).1

/-- What the low level API accepts, accepted piece by piece, as a history of calls. -/
theorem pieces_history (E : SeqEnv σ) : ∀ (pieces : List Bytes) {s : ApplyPatch} {w : World σ} {fed : Bytes}, HS s fed → ∀ {n s' w'},
    (do let (res, s, w) ← processAll E s w pieces
        if res ≠ 0 then .ok (res, s, w) else applyPatchFinalize E s w : C (SeqRes σ)) = .ok (n, s', w') → 0 ≤ n →
    HS s' (fed ++ pieces.flatten) ∧ s'.state = .done ∧ n = s'.toSize ∧
      ∃ rs, runCalls E s w (pieces.map .process ++ [.finalize]) = .ok (rs ++ [n], s', w')
  | [], s, w, fed, h, n, s', w', he, hn => by
    have he : applyPatchFinalize E s w = .ok (n, s', w') := he
    rw [List.flatten_nil, List.append_nil]
    have hs := finalize_hs E h he
    rcases finalize_ok E h.inv w with (e | e) | ⟨res, s2, w2, e, g1, g2, g3⟩
    · rw [e] at he; cases he
    · rw [e] at he; cases he
    · rw [e] at he
      cases he
      cases g1 with
      | ok evs k1 k2 k3 k4 =>
        refine ⟨hs, k3, rfl, [], ?_⟩
        simp only [List.map_nil, List.nil_append, runCalls, e, Bind.bind, Except.bind]
      | fail _ _ _ k => omega
      | io => exact absurd hn (by decide)
  | p :: ps, s, w, fed, h, n, s', w', he, hn => by
    rw [List.flatten_cons, ← List.append_assoc]
    unfold processAll at he
    cases hp : applyPatchProcess E s w p with
    | error u => rw [hp] at he; cases he
    | ok o =>
      obtain ⟨r1, s1, w1⟩ := o
      rw [hp] at he
      have h1 := process_hs E h hp
      simp only [Bind.bind, Except.bind] at he
      by_cases hr : r1 ≠ 0
      · rw [if_pos hr] at he
        simp only [hr] at he
        rw [if_pos hr] at he
        cases he
        rcases process_ok E h.inv w p with (e | e) | ⟨res, s2, w2, e, g1, g2, g3⟩
        · rw [e] at hp; cases hp
        · rw [e] at hp; cases hp
        · rw [e] at hp
          cases hp
          cases g1 with
          | ok => exact absurd rfl hr
          | fail => omega
          | io => exact absurd hn (by decide)
      · rw [if_neg hr] at he
        obtain ⟨q1, q2, q3, rs, q4⟩ := pieces_history E ps h1 he hn
        refine ⟨q1, q2, q3, r1 :: rs, ?_⟩
        simp only [List.map_cons, List.cons_append, runCalls, hp, Bind.bind, Except.bind, q4]

theorem rejecting_last : ∀ (ps : List Bytes) (rs : List Int) (n : Int), Rejecting (ps.map .process ++ [.finalize]) (rs ++ [n]) → n < 0
  | [], [], n, h => h.1
  | [], r :: rs, n, h => by cases rs <;> exact h.2.elim
  | p :: ps, [], n, h => by cases ps <;> exact h.2.elim
  | p :: ps, r :: rs, n, h => rejecting_last ps rs n h.2

/-- What is accepted has a header, of a compression of the build. -/
theorem caccepts_header {fr : Bytes} {P : Nat} {pieces : List Bytes} {n : Int} {out : Bytes} (h : CAccepts fr P pieces n out) :
    ∃ c v rest, CHeader pieces.flatten c v rest ∧ BuiltIn c ∧ n = v := by
  obtain ⟨s, w, he, hn, _⟩ := h
  obtain ⟨g1, g2, g3, rs, g4⟩ := pieces_history (fileEnv fr) pieces (HS.start P) he hn
  obtain ⟨b, t, a, t', hc, q1, q2⟩ := (HT.body (by rw [g2]; decide) (by rw [g2]; decide)).1 g1.ht
  rw [List.nil_append] at q1
  obtain ⟨v, k, q3, q4, q5⟩ := hdrRun_value q2
  have hfed : fedBytes (pieces.map Call.process ++ [.finalize]) = b :: t := by
    rw [← q1]
    clear he g1 g4 q1
    induction pieces with
    | nil => rfl
    | cons p ps ih => simp only [List.map_cons, List.cons_append, fedBytes, List.flatten_cons, ih]
  have hgood : ¬ SeqBadFirst b := by
    intro hb
    have := (sbad_runs (E := fileEnv fr) hb _ _ (.inr ⟨⟨rfl, rfl⟩, .inr ⟨t, hfed⟩⟩) g4).2
    have := rejecting_last _ _ _ this
    omega
  simp only [SeqBadFirst, not_or, Decidable.not_not] at hgood
  obtain ⟨p1, p2⟩ := hgood
  have e1 : b.toNat / 16 % 8 = 0 := by
    rw [← p1, Nat.shiftRight_eq_div_pow, show (0x7 : Nat) = 2 ^ 3 - 1 from rfl, Nat.and_two_pow_sub_one_eq_mod]
  have e2 : b.toNat &&& 0xf = b.toNat % 16 := Nat.and_two_pow_sub_one_eq_mod b.toNat 4
  rw [e2] at p2
  exact ⟨b.toNat % 16, s.toSize, t', ⟨b, t, v, k, q1, e1, rfl, q3, q4, q5⟩, Classical.not_not.1 p2, g3⟩

theorem caccepts_noLzma {fr : Bytes} {P : Nat} {pieces : List Bytes} {n : Int} {out : Bytes} (h : NotLzmaPatch pieces.flatten) :
    CAccepts fr P pieces n out ↔ @CAccepts noLzma fr P pieces n out := by
  rcases h with h | h
  · obtain ⟨L⟩ := B
    cases h
    exact Iff.rfl
  · unfold CAccepts
    rw [applyPieces_any (B2 := noLzma)]
    intro b t e
    rw [show b.toNat &&& 0xf = b.toNat % 16 from Nat.and_two_pow_sub_one_eq_mod b.toNat 4]
    exact h b t e

omit B in
theorem CHeader.notLzma [Build] {patch : Bytes} {c v : Nat} {rest : Bytes} (h : CHeader patch c v rest) (hc : c ≠ 1) : NotLzmaPatch patch := by
  refine .inr fun b t e => ?_
  obtain ⟨b', t', _, _, e', _, h2, _⟩ := h
  rw [e] at e'
  cases e'
  rw [h2]
  exact hc

omit B in
theorem CHeader.notLzma_prefix [Build] {p z : Bytes} {c v : Nat} {rest : Bytes} (h : CHeader (p ++ z) c v rest) (hc : c ≠ 1) : NotLzmaPatch p := by
  refine .inr fun b t e => ?_
  obtain ⟨b', t', _, _, e', _, h2, _⟩ := h
  rw [e] at e'
  cases e'
  rw [h2]
  exact hc

omit B in
theorem caccepts_iff0 (fr : Bytes) (hfr : fr.length < 2 ^ 31) (P : Nat) (hP : P < 2 ^ 63) (pieces : List Bytes)
    (hw : HeaderInFirst P pieces) (n : Int) (out : Bytes) :
    @CAccepts noLzma fr P pieces n out ↔ ∃ c v rest r res, CHeader pieces.flatten c v rest ∧
      @CReader.init noLzma (P - (pieces.flatten.length - rest.length)) c = some r ∧
      Succ (seqSink fr) r.abs (startA v) rest res ∧ n = res.toSize ∧ out = res.out :=
  @caccepts_iff noLzma inferInstance fr hfr P hP pieces hw n out

end Detools
