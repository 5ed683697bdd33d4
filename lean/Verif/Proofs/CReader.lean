import Verif.Proofs.CStream
/-
The C patch readers deliver what the byte-at-a-time meaning says, for the none and
CRLE compressions.
-/
namespace Detools

variable [Build]

/-- Sizes in the CRLE stream: the accumulator after some bytes. -/
def USize.Inv (u : USize) : Prop :=
  u.state = .consecutive → u.offset % 7 = 0 ∧ u.offset ≤ 28 ∧ u.value < 2 ^ u.offset

def CCrle.Inv : CCrle → Prop
  | .scatteredSize u => u.Inv
  | .repeatedRepetitions u => u.Inv
  | .repeatedData left => left < 2 ^ 31
  | .repeatedDataRead _ left => left < 2 ^ 31
  | .scatteredData left => left < 2 ^ 31
  | .idle => True

/-- Measure of the work left in a chunk and a reader. -/
def work (r : CReader) (c : Chunk) : Nat := 2 ^ 32 * c.rest.length + r.backlog

/-- The tokens of one successful decompress call. -/
def toks : Bytes → List Tok
  | [] => [.zero]
  | data => data.map .byte

/-- What a decompress call must guarantee. `RInv` is the invariant of the reader. -/
def DecSpec (RInv : CReader → Prop) (r : CReader) (c : Chunk) (size : Nat) : DRes × CReader × Chunk → Prop
  | (.fail e, _, c') => e < 0 ∧ c'.Inv ∧ ∀ S a x res, Hungry S size a → ¬ Succ S r.abs a (c.rest ++ x) res
  | (.ok data, r', c') => RInv r' ∧ c'.Inv ∧ data.length ≤ size ∧ work r' c' < work r c ∧
      ∀ S a x res, Hungry S size a →
        (Succ S r.abs a (c.rest ++ x) res ↔ Succ S r'.abs (S.steps a (toks data)) (c'.rest ++ x) res)
  | (.more, r', c') => RInv r' ∧ c'.Inv ∧ c'.rest = [] ∧ rNext r'.abs = none ∧
      (c.rest = [] → work r' c' ≤ work r c) ∧ work r' c' ≤ work r c ∧
      ∀ (S : Sink) (a : S.A) x res, ¬ S.done a → (Succ S r.abs a (c.rest ++ x) res ↔ Succ S r'.abs a x res)

omit [Build] in
theorem toks_of_ne {d : Bytes} (h : d ≠ []) : toks d = d.map .byte := by
  cases d with
  | nil => exact absurd rfl h
  | cons => rfl

/-! None. -/

def rawInv (p o : Nat) : Prop := o ≤ p ∧ p < 2 ^ 63

omit [Build] in
theorem raw_succ_bytes (S : Sink) (p : Nat) (x : Bytes) (res : S.A) :
    ∀ (d : Bytes) (o : Nat) (a : S.A), o + d.length ≤ p → Hungry S d.length a →
      (Succ S (.raw p o, none) a (d ++ x) res ↔ Succ S (.raw p (o + d.length), none) (S.steps a (d.map .byte)) x res) := by
  intro d
  induction d with
  | nil => intro o a _ _; simp
  | cons b d ih =>
    intro o a ho hh
    simp only [List.length_cons] at ho hh
    have hnd := hh.notDone (by omega)
    rw [List.cons_append, succ_feed (r' := (.raw p (o + 1), some (.byte b))) hnd rfl (by simp [rFeed]; omega),
      succ_next hnd rfl, ih (o + 1) _ (by omega) (hh.byte b)]
    simp only [List.map_cons, List.length_cons, Sink.steps_cons]
    rw [show o + 1 + d.length = o + (d.length + 1) by omega]

omit [Build] in
theorem raw_starved (S : Sink) (p : Nat) (res : S.A) :
    ∀ (x : Bytes) (o n : Nat) (a : S.A), p < o + n → Hungry S n a → o ≤ p →
      ¬ Succ S (.raw p o, none) a x res := by
  intro x
  induction x with
  | nil => intro o n a hp hh ho; exact succ_nil (hh.notDone (by omega)) rfl
  | cons b x ih =>
    intro o n a hp hh ho
    have hnd := hh.notDone (by omega)
    by_cases h : o + 1 ≤ p
    · rw [succ_feed (r' := (.raw p (o + 1), some (.byte b))) hnd rfl (by simp [rFeed]; omega), succ_next hnd rfl]
      obtain ⟨m, rfl⟩ : ∃ m, n = m + 1 := ⟨n - 1, by omega⟩
      exact ih (o + 1) m _ (by omega) (hh.byte b) h
    · exact succ_feed_none hnd rfl (by simp [rFeed]; omega)

theorem raw_dec {p o : Nat} (hi : rawInv p o) {c : Chunk} (hc : c.Inv) {cap size : Nat} (h1 : 1 ≤ size)
    (h2 : size ≤ cap) (hcap : cap ≤ 128) {RInv : CReader → Prop} (hR : ∀ p o, rawInv p o → RInv (.raw p o)) :
    ∃ out, (CReader.raw p o).decompress c cap size = .ok out ∧ DecSpec RInv (.raw p o) c size out := by
  obtain ⟨ho, hp⟩ := hi
  have hsz : sz (o + size) = o + size := Nat.mod_eq_of_lt (by omega)
  simp only [CReader.decompress, noneDecompress, hsz]
  by_cases h : o + size > p
  · simp only [h, if_true]
    refine ⟨_, rfl, by decide, hc, ?_⟩
    intro S a x res hh
    exact raw_starved S p res _ o size a (by omega) hh ho
  · simp only [h, if_false]
    by_cases hr : c.rest = []
    · rw [c.read_nil hc hr]
      refine ⟨_, rfl, hR _ _ ⟨ho, hp⟩, hc, hr, rfl, fun _ => Nat.le_refl _, Nat.le_refl _, ?_⟩
      intro S a x res _
      rw [hr]; rfl
    · obtain ⟨c', hc1, hc2, hc3⟩ := c.read_cons hc hr h2
      rw [hc1]
      have hlen : (c.rest.take size).length ≤ size := List.length_take_le ..
      have hlen1 : (c.rest.take size).length = min size c.rest.length := by simp
      have hsz2 : sz (o + (c.rest.take size).length) = o + (c.rest.take size).length :=
        Nat.mod_eq_of_lt (by omega)
      have hne : c.rest.length ≠ 0 := by simpa using hr
      refine ⟨_, rfl, ?_, hc3, hlen, ?_, ?_⟩
      · rw [hsz2]; exact hR _ _ ⟨by omega, hp⟩
      · simp only [work, CReader.backlog, hc2, List.length_drop]
        omega
      · intro S a x res hh
        rw [hsz2, hc2, toks_of_ne (by intro h; rw [h] at hlen1; simp at hlen1; omega)]
        have := raw_succ_bytes S p (c.rest.drop size ++ x) res (c.rest.take size) o a (by omega) (hh.mono hlen)
        rw [← List.append_assoc, List.take_append_drop] at this
        exact this

/-! CRLE. -/

omit [Build] in
theorem orShift_ok {v : Nat} {b : UInt8} {o : Nat} (ho : o ≤ 21) (hv : v < 2 ^ o) :
    ∃ v', orShift v b o = .ok v' ∧ v' < 2 ^ (o + 7) := by
  have hb : b.toNat &&& 0x7f < 2 ^ 7 := by
    have : b.toNat &&& 127 ≤ 127 := Nat.and_le_right
    omega
  have hs : (b.toNat &&& 0x7f) <<< o < 2 ^ (o + 7) := by
    rw [Nat.shiftLeft_eq, Nat.pow_add, Nat.mul_comm]
    exact Nat.mul_lt_mul_of_pos_left hb (Nat.two_pow_pos o)
  have h28 : 2 ^ (o + 7) ≤ 2 ^ 28 := Nat.pow_le_pow_right (by omega) (by omega)
  refine ⟨v ||| ((b.toNat &&& 0x7f) <<< o), ?_, ?_⟩
  · unfold orShift
    rw [if_pos (by omega)]
  · apply Nat.or_lt_two_pow _ hs
    exact Nat.lt_of_lt_of_le hv (Nat.pow_le_pow_right (by omega) (by omega))

omit [Build] in
theorem USize.start_inv {u : USize} (h : u.Inv) :
    u.start.state = .consecutive ∧ u.start.Inv ∧ u.start.start = u.start := by
  unfold USize.start
  cases hs : u.state with
  | first => simp [USize.Inv]
  | consecutive => simp [hs, h]

omit [Build] in
theorem usizeByte_cases {u : USize} (hs : u.state = .consecutive) (h : u.Inv) (b : UInt8) :
    usizeByte u b = none ∧ isOverflow u.offset = true ∨
    isOverflow u.offset = false ∧ ∃ v, orShift u.value b u.offset = .ok v ∧
      (({ u with value := v, offset := u.offset + 7 } : USize).Inv) ∧ v < 2 ^ 28 ∧
      usizeByte u b = if b &&& 0x80 ≠ 0 then some ({ u with value := v, offset := u.offset + 7 }, none)
        else some ({ u with value := v, offset := u.offset + 7 }, some v) := by
  obtain ⟨h1, h2, h3⟩ := h hs
  by_cases ho : isOverflow u.offset = true
  · left; simp [usizeByte, ho]
  · right
    have hof : u.offset ≤ 25 := by
      simp [isOverflow] at ho; omega
    obtain ⟨v, hv1, hv2⟩ := orShift_ok (v := u.value) (b := b) (o := u.offset) (by omega) h3
    refine ⟨by simpa using ho, v, hv1, ?_, ?_, ?_⟩
    · intro _
      exact ⟨by show (u.offset + 7) % 7 = 0; omega, by show u.offset + 7 ≤ 28; omega, hv2⟩
    · exact Nat.lt_of_lt_of_le hv2 (Nat.pow_le_pow_right (by omega) (by omega))
    · simp [usizeByte, ho, hv1]

omit [Build] in
/-- `unpack_usize` against the byte-at-a-time meaning. `mk` is the state reading the
size, `k` the state after it. -/
theorem unpackUsize_spec (mk : USize → CCrle) (k : Nat → CCrle) (hk : ∀ u p b, rFeed (.crle (mk u), p) b =
      match usizeByte u b with
      | none => none
      | some (u, none) => some (.crle (mk u), none)
      | some (_, some v) => some (.crle (k v), none))
    (hn : ∀ u, rNext (.crle (mk u), none) = none) :
    ∀ (fuel : Nat) (c : Chunk) (u : USize), c.Inv → u.state = .consecutive → u.Inv → c.rest.length < fuel →
    ∃ out, unpackUsizeLoop fuel c u = .ok out ∧
      match out with
      | (.value v, c', _) => 0 ≤ v ∧ v.toNat < 2 ^ 28 ∧ c'.Inv ∧ c'.rest.length < c.rest.length ∧
          ∀ (S : Sink) (a : S.A) x res, ¬ S.done a →
            (Succ S (.crle (mk u), none) a (c.rest ++ x) res ↔ Succ S (.crle (k v.toNat), none) a (c'.rest ++ x) res)
      | (.more, c', u') => c'.Inv ∧ c'.rest = [] ∧ u'.Inv ∧ u'.state = .consecutive ∧
          ∀ (S : Sink) (a : S.A) x res, ¬ S.done a →
            (Succ S (.crle (mk u), none) a (c.rest ++ x) res ↔ Succ S (.crle (mk u'), none) a x res)
      | (.fail e, c', _) => e < 0 ∧ c'.Inv ∧
          ∀ (S : Sink) (a : S.A) x res, ¬ S.done a → ¬ Succ S (.crle (mk u), none) a (c.rest ++ x) res := by
  intro fuel
  induction fuel with
  | zero => intro c u _ _ _ h; omega
  | succ fuel ih =>
    intro c u hc hs hu hf
    unfold unpackUsizeLoop
    cases hr : c.rest with
    | nil =>
      rw [c.get_nil hc hr]
      exact ⟨_, rfl, hc, hr, hu, hs, fun S a x res _ => by simp⟩
    | cons b t =>
      obtain ⟨hg, ht, hc'⟩ := c.get_cons hc hr
      rw [hg]
      rw [hr] at hf
      simp only [List.length_cons] at hf
      simp only [Bind.bind, Except.bind]
      rcases usizeByte_cases hs hu b with ⟨h1, h2⟩ | ⟨h2, v, hv, hi, hv28, h1⟩
      · simp only [h2, if_true]
        refine ⟨_, rfl, by decide, hc', fun S a x res hd => ?_⟩
        exact succ_feed_none hd (hn u) (by rw [hk, h1])
      · simp only [h2, Bool.false_eq_true, if_false, hv]
        by_cases hb : b &&& 0x80 = 0
        · simp only [hb, ne_eq, not_true, if_false]
          refine ⟨_, rfl, ?_⟩
          refine ⟨by omega, by simpa using hv28, hc', by rw [ht]; simp, fun S a x res hd => ?_⟩
          rw [List.cons_append, succ_feed (r' := (.crle (k v), none)) hd (hn u) (by rw [hk, h1]; simp [hb]), ht]
          simp
        · simp only [hb, ne_eq, not_false_iff, if_true]
          obtain ⟨out, ho, hspec⟩ := ih { c with offset := c.offset + 1 } { u with value := v, offset := u.offset + 7 }
            hc' hs hi (by rw [ht]; omega)
          refine ⟨out, ho, ?_⟩
          have key : ∀ (S : Sink) (a : S.A) x res, ¬ S.done a →
              (Succ S (.crle (mk u), none) a (b :: t ++ x) res ↔
                Succ S (.crle (mk { u with value := v, offset := u.offset + 7 }), none) a (t ++ x) res) := by
            intro S a x res hd
            rw [List.cons_append, succ_feed (r' := (.crle (mk { u with value := v, offset := u.offset + 7 }), none)) hd
              (hn u) (by rw [hk, h1]; simp [hb])]
          rw [ht] at hspec
          match out, hspec with
          | (.value _, c', _), ⟨g1, g2, g3, g4, g5⟩ =>
            exact ⟨g1, g2, g3, by simp; omega, fun S a x res hd => (key S a x res hd).trans (g5 S a x res hd)⟩
          | (.more, c', u'), ⟨g1, g2, g3, g4, g5⟩ =>
            exact ⟨g1, g2, g3, g4, fun S a x res hd => (key S a x res hd).trans (g5 S a x res hd)⟩
          | (.fail _, _, _), ⟨g0, g1, g2⟩ =>
            exact ⟨g0, g1, fun S a x res hd => by rw [key S a x res hd]; exact g2 S a x res hd⟩

omit [Build] in
theorem unpackUsizeC_eq (c : Chunk) (u : USize) :
    unpackUsizeC c u = unpackUsizeLoop (c.left + 1) c u.start := by
  unfold unpackUsizeC USize.start
  cases u.state <;> rfl

def crleRank : CCrle → Nat
  | .idle => 4
  | .scatteredSize _ => 3
  | .repeatedRepetitions _ => 3
  | .repeatedData _ => 2
  | .scatteredData _ => 1
  | .repeatedDataRead _ _ => 1

omit [Build] in
theorem crle_abs (s : CCrle) : (CReader.crle s).abs = (.crle s.norm, none) := rfl

omit [Build] in
theorem crle_bytes (S : Sink) (x : Bytes) (res : S.A) :
    ∀ (d : Bytes) (left : Nat) (a : S.A), d.length ≤ left → 0 < left → Hungry S d.length a →
      (Succ S (.crle (.scatteredData left), none) a (d ++ x) res ↔
        Succ S (.crle (if left - d.length = 0 then .idle else .scatteredData (left - d.length)), none)
          (S.steps a (d.map .byte)) x res) := by
  intro d
  induction d with
  | nil =>
    intro left a _ h _
    have : ¬ left = 0 := by omega
    simp [this]
  | cons b d ih =>
    intro left a hl hp hh
    simp only [List.length_cons] at hl hh ⊢
    have hnd := hh.notDone (by omega)
    have hne : ¬ left = 0 := by omega
    rw [List.cons_append,
      succ_feed (r' := (.crle (if left - 1 = 0 then .idle else .scatteredData (left - 1)), some (.byte b))) hnd rfl
        (by simp only [rFeed, hne, if_false]),
      succ_next hnd rfl]
    by_cases h1 : left - 1 = 0
    · have : d = [] := by
        cases d with
        | nil => rfl
        | cons => simp at hl; omega
      subst this
      simp [h1]
    · rw [if_neg h1, ih (left - 1) _ (by omega) (by omega) (hh.byte b)]
      rw [show left - 1 - d.length = left - (d.length + 1) by omega]
      rfl

omit [Build] in
theorem crle_repeat (S : Sink) (x : Bytes) (res : S.A) (v : UInt8) :
    ∀ (n left : Nat) (a : S.A), n ≤ left → 0 < left → Hungry S n a →
      (Succ S (.crle (.repeatedDataRead v left), none) a x res ↔
        Succ S (.crle (if left - n = 0 then .idle else .repeatedDataRead v (left - n)), none)
          (S.steps a ((List.replicate n v).map .byte)) x res) := by
  intro n
  induction n with
  | zero =>
    intro left a _ h _
    have : ¬ left = 0 := by omega
    simp [this]
  | succ n ih =>
    intro left a hl hp hh
    have hnd := hh.notDone (by omega)
    have hne : ¬ left = 0 := by omega
    rw [succ_next (t := .byte v) (r' := (.crle (if left - 1 = 0 then .idle else .repeatedDataRead v (left - 1)), none)) hnd
        (by simp only [rNext, hne, if_false])]
    by_cases h1 : left - 1 = 0
    · have : n = 0 := by omega
      subst this
      simp [h1]
    · rw [if_neg h1, ih (left - 1) _ (by omega) (by omega) (hh.byte v)]
      rw [show left - 1 - n = left - (n + 1) by omega]
      rfl

/-- The specification of one decompress call, for the CRLE loop. -/
theorem crle_loop {RInv : CReader → Prop} (hR : ∀ s : CCrle, s.Inv → RInv (.crle s)) {cap size : Nat}
    (h1 : 1 ≤ size) (h2 : size ≤ cap) :
    ∀ (fuel : Nat) (s : CCrle) (c : Chunk), s.Inv → c.Inv → crleRank s ≤ fuel →
      ∃ out, crleDecompressLoop fuel s c cap size = .ok out ∧
        DecSpec RInv (.crle s) c size (out.1, .crle out.2.1, out.2.2) := by
  intro fuel
  induction fuel with
  | zero => intro s c _ _ h; cases s <;> simp [crleRank] at h
  | succ fuel ih =>
    intro s c hs hc hf
    -- a step to another state that consumed input
    have chain : ∀ (s' : CCrle) (c' : Chunk), s'.Inv → c'.Inv → crleRank s' ≤ fuel →
        c'.rest.length < c.rest.length → (CReader.crle s').backlog < 2 ^ 32 →
        crleStep s c cap size = .ok (none, s', c') →
        (∀ (S : Sink) (a : S.A) x res, ¬ S.done a →
          (Succ S (.crle s.norm, none) a (c.rest ++ x) res ↔ Succ S (.crle s'.norm, none) a (c'.rest ++ x) res)) →
        ∃ out, crleDecompressLoop (fuel + 1) s c cap size = .ok out ∧
          DecSpec RInv (.crle s) c size (out.1, .crle out.2.1, out.2.2) := by
      intro s' c' hs' hc' hf' hlt hbk hstep hsucc
      obtain ⟨⟨d, s2, c2⟩, ho, hspec⟩ := ih s' c' hs' hc' hf'
      refine ⟨(d, s2, c2), ?_, ?_⟩
      · unfold crleDecompressLoop
        rw [hstep]
        exact ho
      · have hw : work (.crle s') c' < work (.crle s) c := by
          unfold work
          have : 2 ^ 32 * c'.rest.length + 2 ^ 32 ≤ 2 ^ 32 * c.rest.length := by omega
          omega
        match d, hspec with
        | .ok data, ⟨g1, g2, g3, g4, g5⟩ =>
          exact ⟨g1, g2, g3, by omega, fun S a x res hh => (hsucc S a x res (hh.notDone (by omega))).trans (g5 S a x res hh)⟩
        | .more, ⟨g1, g2, g3, g4, g5, g6, g7⟩ =>
          exact ⟨g1, g2, g3, g4, fun _ => by omega, by omega, fun S a x res hd => (hsucc S a x res hd).trans (g7 S a x res hd)⟩
        | .fail e, ⟨g0, g1, g2⟩ =>
          exact ⟨g0, g1, fun S a x res hh => by rw [crle_abs, hsucc S a x res (hh.notDone (by omega))]; exact g2 S a x res hh⟩
    have stop : ∀ (d : DRes) (s' : CCrle) (c' : Chunk), crleStep s c cap size = .ok (some d, s', c') →
        DecSpec RInv (.crle s) c size (d, .crle s', c') →
        ∃ out, crleDecompressLoop (fuel + 1) s c cap size = .ok out ∧
          DecSpec RInv (.crle s) c size (out.1, .crle out.2.1, out.2.2) := by
      intro d s' c' hstep hspec
      refine ⟨(d, s', c'), ?_, hspec⟩
      unfold crleDecompressLoop
      rw [hstep]
      rfl
    -- a step that reads a size
    have hsize : ∀ (mk : USize → CCrle) (k : Nat → CCrle) (u : USize), s = mk u → (∀ u, (mk u).norm = mk u.start) →
        (∀ u, u.Inv → (mk u).Inv) → (∀ u, (CReader.crle (mk u)).backlog = 0) → u.Inv →
        (∀ v, v < 2 ^ 31 → (k v).Inv) → (∀ v, (k v).norm = k v) → (∀ v, crleRank (k v) ≤ fuel) →
        (∀ v, v < 2 ^ 28 → (CReader.crle (k v)).backlog < 2 ^ 32) →
        (∀ u p b, rFeed (.crle (mk u), p) b =
          match usizeByte u b with
          | none => none
          | some (u, none) => some (.crle (mk u), none)
          | some (_, some v) => some (.crle (k v), none)) →
        (∀ u, rNext (.crle (mk u), none) = none) →
        crleStep s c cap size = (do
          match ← unpackUsizeC c u with
          | (.value v, c, _) => .ok (none, k (szOfInt v), c)
          | (.more, c, u) => .ok (some .more, mk u, c)
          | (.fail e, c, u) => .ok (some (.fail e), mk u, c)) →
        ∃ out, crleDecompressLoop (fuel + 1) s c cap size = .ok out ∧
          DecSpec RInv (.crle s) c size (out.1, .crle out.2.1, out.2.2) := by
      intro mk k u hsu hmk hmki hbk0 hu hki hkn hkr hkb hfd hnx hstep
      subst hsu
      obtain ⟨g1, g2, g3⟩ := USize.start_inv hu
      obtain ⟨⟨v, c', u'⟩, ho, hspec⟩ := unpackUsize_spec mk k hfd hnx (c.left + 1) c u.start hc g1 g2
        (by rw [c.left_eq hc]; omega)
      rw [unpackUsizeC_eq, ho] at hstep
      match v, hspec with
      | .value v, ⟨f1, f2, f3, f4, f5⟩ =>
        have hv : szOfInt v = v.toNat := by
          unfold szOfInt
          rw [Int.emod_eq_of_lt f1 (by omega)]
        apply chain (k (szOfInt v)) c' (hki _ (by omega)) f3 (hkr _) f4 (hkb _ (by omega)) hstep
        intro S a x res hd
        rw [hmk, hkn, hv]
        exact f5 S a x res hd
      | .more, ⟨f1, f2, f3, f4, f5⟩ =>
        have hst : u'.start = u' := by unfold USize.start; rw [f4]
        apply stop .more (mk u') c' hstep
        refine ⟨hR _ (hmki _ f3), f1, f2, ?_, ?_, ?_, ?_⟩
        · rw [crle_abs, hmk]; exact hnx _
        · intro _; unfold work; rw [f2, hbk0, hbk0]; simp
        · unfold work; rw [f2, hbk0, hbk0]; simp
        · intro S a x res hd
          rw [crle_abs, crle_abs, hmk, hmk, hst]
          exact f5 S a x res hd
      | .fail e, ⟨f0, f1, f2⟩ =>
        apply stop (.fail e) (mk u') c' hstep
        refine ⟨f0, f1, fun S a x res hh => ?_⟩
        rw [crle_abs, hmk]
        exact f2 S a x res (hh.notDone (by omega))
    cases s with
    | idle =>
      cases hr : c.rest with
      | nil =>
        apply stop .more .idle c
        · simp only [crleStep, c.get_nil hc hr]; rfl
        · exact ⟨hR _ trivial, hc, hr, rfl, fun _ => Nat.le_refl _, Nat.le_refl _, fun S a x res hd => by rw [hr]; rfl⟩
      | cons b t =>
        obtain ⟨hg, ht, hc'⟩ := c.get_cons hc hr
        by_cases hb0 : b = 0
        · apply chain (.scatteredSize {}) _ (by intro h; cases h) hc'
            (by simp only [crleRank] at hf ⊢; omega) (by rw [ht, hr]; simp) (by simp [CReader.backlog])
          · simp only [crleStep, hg]
            simp [Bind.bind, Except.bind, hb0]
          · intro S a x res hd
            rw [hr, ht, List.cons_append]
            exact succ_feed hd rfl (by simp [rFeed, crleIdleFeed, hb0, CCrle.norm])
        · by_cases hb1 : b = 1
          · apply chain (.repeatedRepetitions {}) _ (by intro h; cases h) hc'
              (by simp only [crleRank] at hf ⊢; omega) (by rw [ht, hr]; simp) (by simp [CReader.backlog])
            · simp only [crleStep, hg]
              simp [Bind.bind, Except.bind, hb1]
            · intro S a x res hd
              rw [hr, ht, List.cons_append]
              exact succ_feed hd rfl (by simp [rFeed, crleIdleFeed, hb1, CCrle.norm])
          · apply stop (.fail CORRUPT_PATCH_CRLE_KIND) .idle { c with offset := c.offset + 1 }
            · simp only [crleStep, hg]
              simp [Bind.bind, Except.bind, hb0, hb1]
            · refine ⟨by decide, hc', fun S a x res hh => ?_⟩
              rw [hr, List.cons_append]
              exact succ_feed_none (hh.notDone (by omega)) rfl
                (by simp [rFeed, crleIdleFeed, hb0, hb1, crle_abs, CCrle.norm])
    | scatteredSize u =>
      exact hsize .scatteredSize .scatteredData u rfl (fun _ => rfl) (fun _ h => h) (fun _ => rfl) hs (fun _ h => h)
        (fun _ => rfl) (by intro v; simp only [crleRank] at hf ⊢; omega) (by intro v _; simp [CReader.backlog])
        (fun _ _ _ => rfl) (fun _ => rfl) rfl
    | repeatedRepetitions u =>
      exact hsize .repeatedRepetitions .repeatedData u rfl (fun _ => rfl) (fun _ h => h) (fun _ => rfl) hs (fun _ h => h)
        (fun _ => rfl) (by intro v; simp only [crleRank] at hf ⊢; omega)
        (by intro v h; simp only [CReader.backlog]; omega)
        (fun _ _ _ => rfl) (fun _ => rfl) rfl
    | scatteredData left =>
      by_cases hr : c.rest = []
      · apply stop .more (.scatteredData left) c
        · simp only [crleStep, c.read_nil hc hr]; rfl
        · exact ⟨hR _ hs, hc, hr, rfl, fun _ => Nat.le_refl _, Nat.le_refl _, fun S a x res hd => by rw [hr]; rfl⟩
      · obtain ⟨c', e1, e2, e3⟩ := c.read_cons hc hr (cap := cap) (n := min size left) (by omega)
        have hlen1 : (c.rest.take (min size left)).length = min (min size left) c.rest.length := by simp
        have hne : c.rest.length ≠ 0 := by simpa using hr
        by_cases hl : left = 0
        · apply stop (.ok []) .idle c'
          · simp only [crleStep, e1]
            simp [Bind.bind, Except.bind, hl]
          · have hrest : c'.rest = c.rest := by rw [e2, hl]; simp
            refine ⟨hR _ trivial, e3, by simp, ?_, ?_⟩
            · simp only [work, CReader.backlog, hrest]; omega
            · intro S a x res hh
              have hd := hh.notDone (by omega)
              have hd' := hh.zero.notDone (by omega)
              rw [hrest]
              cases hcr : c.rest with
              | nil => exact absurd hcr hr
              | cons b t =>
                rw [List.cons_append]
                show Succ S (.crle (.scatteredData left), none) a (b :: (t ++ x)) res ↔
                  Succ S (.crle .idle, none) (S.step a .zero) (b :: (t ++ x)) res
                cases hfd : crleIdleFeed b with
                | none =>
                  constructor
                  · intro h
                    exact absurd h (succ_feed_none hd rfl (by simp [rFeed, hl, hfd]))
                  · intro h
                    exact absurd h (succ_feed_none hd' rfl (by simp [rFeed, hfd]))
                | some s' =>
                  rw [succ_feed (r' := (.crle s', some .zero)) hd rfl (by simp [rFeed, hl, hfd]), succ_next hd rfl,
                    succ_feed (r' := (.crle s', none)) hd' rfl (by simp [rFeed, hfd])]
        · apply stop (.ok (c.rest.take (min size left)))
            (if left - (c.rest.take (min size left)).length = 0 then .idle
              else .scatteredData (left - (c.rest.take (min size left)).length)) c'
          · simp only [crleStep, e1]
            simp [Bind.bind, Except.bind]
          · refine ⟨hR _ ?_, e3, by omega, ?_, ?_⟩
            · split
              · trivial
              · show _ < 2 ^ 31
                have : left < 2 ^ 31 := hs
                omega
            · simp only [work, e2, List.length_drop]
              have : (CReader.crle (if left - (c.rest.take (min size left)).length = 0 then .idle
                else .scatteredData (left - (c.rest.take (min size left)).length))).backlog ≤ 1 := by
                split <;> simp [CReader.backlog]
              simp only [CReader.backlog] at this ⊢
              omega
            · intro S a x res hh
              rw [e2, toks_of_ne (by intro h; rw [h] at hlen1; simp at hlen1; omega)]
              have := crle_bytes S (c.rest.drop (min size left) ++ x) res (c.rest.take (min size left)) left a
                (by omega) (by omega) (hh.mono (by omega))
              rw [← List.append_assoc, List.take_append_drop] at this
              rw [crle_abs, crle_abs]
              have hnorm : ∀ p : Prop, [Decidable p] → ∀ n, CCrle.norm (if p then .idle else .scatteredData n) =
                  if p then .idle else .scatteredData n := by
                intro p _ n
                split <;> rfl
              rw [hnorm]
              exact this
    | repeatedData left =>
      cases hr : c.rest with
      | nil =>
        apply stop .more (.repeatedData left) c
        · simp only [crleStep, c.get_nil hc hr]; rfl
        · exact ⟨hR _ hs, hc, hr, rfl, fun _ => Nat.le_refl _, Nat.le_refl _, fun S a x res hd => by rw [hr]; rfl⟩
      | cons b t =>
        obtain ⟨hg, ht, hc'⟩ := c.get_cons hc hr
        have hs' : left < 2 ^ 31 := hs
        apply chain (.repeatedDataRead b left) _ hs hc'
          (by simp only [crleRank] at hf ⊢; omega) (by rw [ht, hr]; simp) (by simp only [CReader.backlog]; omega)
        · simp only [crleStep, hg]
          simp [Bind.bind, Except.bind]
        · intro S a x res hd
          rw [hr, ht, List.cons_append]
          exact succ_feed hd rfl (by simp [rFeed, CCrle.norm])
    | repeatedDataRead v left =>
      have hs' : left < 2 ^ 31 := hs
      by_cases hl : left = 0
      · apply stop (.ok []) .idle c
        · simp [crleStep, hl]
        · refine ⟨hR _ trivial, hc, by simp, ?_, ?_⟩
          · simp only [work, CReader.backlog]; omega
          · intro S a x res hh
            have hd := hh.notDone (by omega)
            exact succ_next hd (by simp [rNext, hl, crle_abs, CCrle.norm])
      · apply stop (.ok (List.replicate (min size left) v))
          (if left - min size left = 0 then .idle else .repeatedDataRead v (left - min size left)) c
        · have : ¬ cap < min size left := by omega
          simp only [crleStep, this, if_false]
        · refine ⟨hR _ ?_, hc, by simp; omega, ?_, ?_⟩
          · split
            · trivial
            · show _ < 2 ^ 31
              omega
          · simp only [work]
            have : (CReader.crle (if left - min size left = 0 then .idle
              else .repeatedDataRead v (left - min size left))).backlog ≤ left - min size left + 1 := by
              split <;> simp [CReader.backlog]
            simp only [CReader.backlog] at this ⊢
            omega
          · intro S a x res hh
            rw [toks_of_ne (by intro h; have := congrArg List.length h; simp at this; omega)]
            have := crle_repeat S (c.rest ++ x) res v (min size left) left a (by omega) (by omega) (hh.mono (by omega))
            rw [crle_abs, crle_abs]
            have hnorm : ∀ p : Prop, [Decidable p] → ∀ n, CCrle.norm (if p then .idle else .repeatedDataRead v n) =
                if p then .idle else .repeatedDataRead v n := by
              intro p _ n
              split <;> rfl
            rw [hnorm]
            exact this

theorem crle_dec {s : CCrle} (hs : s.Inv) {c : Chunk} (hc : c.Inv) {cap size : Nat} (h1 : 1 ≤ size)
    (h2 : size ≤ cap) {RInv : CReader → Prop} (hR : ∀ s : CCrle, s.Inv → RInv (.crle s)) :
    ∃ out, (CReader.crle s).decompress c cap size = .ok out ∧ DecSpec RInv (.crle s) c size out := by
  obtain ⟨⟨d, s', c'⟩, ho, hspec⟩ := crle_loop (RInv := RInv) hR h1 h2 5 s c hs hc (by cases s <;> simp [crleRank])
  refine ⟨(d, .crle s', c'), ?_, hspec⟩
  simp only [CReader.decompress, ho]
  rfl

end Detools
