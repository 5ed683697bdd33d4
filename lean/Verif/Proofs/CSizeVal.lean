import Verif.Proofs.CHeader
import Verif.Spec.CSizes
import Verif.Proofs.Varint
import Verif.Model.PyStream
/-
The C size decoders against the Python ones.
-/
namespace Detools

variable [Build]

/-- The outcome of a decoder on a byte string. -/
inductive SizeOut where
  | more (acc : SizeAcc)
  | value (v : Int) (acc : SizeAcc) (rest : Bytes)
  | fail
deriving DecidableEq

abbrev ByteFn := SizeAcc → UInt8 → C (SizeAcc × Option SizeRes)

def sizeRun (f : ByteFn) (acc : SizeAcc) : Bytes → SizeOut
  | [] => .more acc
  | b :: t =>
    match f acc b with
    | .ok (acc', none) => sizeRun f acc' t
    | .ok (acc', some (.value v)) => .value v acc' t
    | _ => .fail

omit [Build] in
theorem sizeRun_append (f : ByteFn) (x y : Bytes) : ∀ acc, sizeRun f acc (x ++ y) =
    match sizeRun f acc x with
    | .more a => sizeRun f a y
    | .value v a t => .value v a (t ++ y)
    | .fail => .fail := by
  induction x with
  | nil => intro acc; rfl
  | cons b t ih =>
    intro acc
    simp only [List.cons_append, sizeRun]
    cases f acc b with
    | error e => rfl
    | ok p =>
      obtain ⟨acc', o⟩ := p
      cases o with
      | none => exact ih acc'
      | some o =>
        cases o with
        | value v => rfl
        | more => rfl
        | fail e => rfl

/-- The byte functions: `sg` applies the sign. -/
structure ByteFn.Sizes (f : ByteFn) (sg : Bool → Nat → Int) : Prop where
  first : ∀ (s : SizeAcc) b, s.state = .first → ∃ sn, sg sn = sg (b &&& 0x40 = 0x40) ∧
    f s b = if b &&& 0x80 ≠ 0 then .ok ({ state := .consecutive, value := b.toNat &&& 0x3f, offset := 6, isSigned := sn }, none)
      else .ok ({ state := .first, value := b.toNat &&& 0x3f, offset := 6, isSigned := sn }, some (.value (sg sn (b.toNat &&& 0x3f))))
  next : ∀ (s : SizeAcc) b, s.state = .consecutive → f s b =
    if isOverflow s.offset then .ok (s, some (.fail CORRUPT_PATCH_OVERFLOW))
    else do
      let v ← orShift s.value b s.offset
      if b &&& 0x80 ≠ 0 then .ok ({ s with value := v, offset := s.offset + 7 }, none)
      else .ok ({ s with value := v, offset := s.offset + 7, state := .first }, some (.value (sg s.isSigned v)))

def signBody (sn : Bool) (v : Nat) : Int := if sn then -(v : Int) else v
def signHeader (_ : Bool) (v : Nat) : Int := v

omit [Build] in
theorem sizeByte_sizes : ByteFn.Sizes sizeByte signBody where
  first s b h := by
    refine ⟨decide (b &&& 0x40 = 0x40), rfl, ?_⟩
    simp only [sizeByte, h, signBody]
  next s b h := by
    simp only [sizeByte, h, signBody]

omit [Build] in
theorem headerSizeByte_sizes : ByteFn.Sizes headerSizeByte signHeader where
  first s b h := by
    refine ⟨s.isSigned, rfl, ?_⟩
    simp only [headerSizeByte, h, signHeader]
  next s b h := by
    simp only [headerSizeByte, h, signHeader]

omit [Build] in
theorem orShift_val {v : Nat} {b : UInt8} {o : Nat} (ho : o ≤ 21) :
    orShift v b o = .ok (v ||| ((b.toNat &&& 0x7f) <<< o)) := by
  have hb : b.toNat &&& 0x7f < 2 ^ 7 := by
    have : b.toNat &&& 127 ≤ 127 := Nat.and_le_right
    omega
  have hs : (b.toNat &&& 0x7f) <<< o < 2 ^ (o + 7) := by
    rw [Nat.shiftLeft_eq, Nat.pow_add, Nat.mul_comm]
    exact Nat.mul_lt_mul_of_pos_left hb (Nat.two_pow_pos o)
  have h28 : 2 ^ (o + 7) ≤ 2 ^ 28 := Nat.pow_le_pow_right (by omega) (by omega)
  unfold orShift
  rw [if_pos (by omega)]

omit [Build] in
theorem unpackLoop_offset {v o : Nat} {x : Bytes} {v' o' : Nat} {t : Bytes} (h : unpackLoop v o x = .ok (v', o', t)) :
    o + 7 ≤ o' := by
  obtain ⟨c, _, h2, h3, _⟩ := unpackLoop_consumes _ _ _ _ _ _ h
  omega

omit [Build] in
theorem run_next {f : ByteFn} {sg : Bool → Nat → Int} (hf : f.Sizes sg) : ∀ (x : Bytes) (s : SizeAcc),
    s.state = .consecutive → s.offset % 7 = 6 → s.offset ≤ 27 →
    match unpackLoop s.value s.offset x with
    | .ok (v, o, t) => if o ≤ 27 then ∃ a, sizeRun f s x = .value (sg s.isSigned v) a t else sizeRun f s x = .fail
    | .error _ => if s.offset + 7 * x.length ≤ 27 then ∃ a, sizeRun f s x = .more a else sizeRun f s x = .fail := by
  intro x
  induction x with
  | nil =>
    intro s h1 h2 h3
    simp only [unpackLoop, List.length_nil]
    rw [if_pos (by omega)]
    exact ⟨s, rfl⟩
  | cons b t ih =>
    intro s h1 h2 h3
    simp only [unpackLoop]
    by_cases ho : isOverflow s.offset = true
    · have hfail : sizeRun f s (b :: t) = .fail := by
        simp [sizeRun, hf.next s b h1, ho]
      have h27 : s.offset = 27 := by
        simp [isOverflow] at ho; omega
      have hb : ∀ o t', (if b &&& 0x80 ≠ 0 then unpackLoop (s.value ||| ((b.toNat &&& 0x7f) <<< s.offset)) (s.offset + 7) t
          else .ok (s.value ||| ((b.toNat &&& 0x7f) <<< s.offset), s.offset + 7, t)) = .ok (o, t') → 27 < t'.1 := by
        intro o t' h
        split at h
        · have := unpackLoop_offset (t := t'.2) (o' := t'.1) h
          omega
        · cases h
          show 27 < s.offset + 7
          omega
      split
      · rename_i v o t' heq
        rw [if_neg (by have := hb v (o, t') heq; simp only at this; omega)]
        exact hfail
      · rw [if_neg (by simp only [List.length_cons]; omega)]
        exact hfail
    · have hof : s.offset ≤ 20 := by
        simp [isOverflow] at ho; omega
      have hv := orShift_val (v := s.value) (b := b) (o := s.offset) (by omega)
      by_cases hb : b &&& 0x80 ≠ 0
      · rw [if_pos hb]
        have hr : sizeRun f s (b :: t) = sizeRun f { s with value := s.value ||| ((b.toNat &&& 0x7f) <<< s.offset), offset := s.offset + 7 } t := by
          conv => lhs; rw [sizeRun]
          rw [hf.next s b h1, if_neg ho, hv]
          simp [Bind.bind, Except.bind, hb]
        rw [hr]
        have := ih { s with value := s.value ||| ((b.toNat &&& 0x7f) <<< s.offset), offset := s.offset + 7 } h1 (by show (s.offset + 7) % 7 = 6; omega) (by show s.offset + 7 ≤ 27; omega)
        simp only at this
        have hl : s.offset + 7 * (b :: t).length = s.offset + 7 + 7 * t.length := by
          simp only [List.length_cons]; omega
        rw [hl]
        exact this
      · rw [if_neg hb]
        simp only
        rw [if_pos (by omega)]
        refine ⟨{ s with value := s.value ||| ((b.toNat &&& 0x7f) <<< s.offset), offset := s.offset + 7, state := .first }, ?_⟩
        rw [sizeRun, hf.next s b h1, if_neg ho, hv]
        simp [Bind.bind, Except.bind, hb]

omit [Build] in
theorem byte_bit6 (b : UInt8) : (b &&& 0x40 = 0x40) ↔ (b &&& 0x40 ≠ 0) := by
  exact forall_byte (fun b => (b &&& 0x40 = 0x40) ↔ (b &&& 0x40 ≠ 0)) (by decide +kernel) b

omit [Build] in
/-- A decoder on a whole byte string. -/
theorem run_first {f : ByteFn} {sg : Bool → Nat → Int} (hf : f.Sizes sg) (hsg : ∀ v, sg false v = v) (x : Bytes) (s : SizeAcc) (h : s.state = .first) :
    match unpackSizeWithLength x with
    | .ok (v, k, t) =>
      if k ≤ 4 then ∃ a sn, (v = signBody sn v.natAbs) ∧ sizeRun f s x = .value (sg sn v.natAbs) a t
      else sizeRun f s x = .fail
    | .error _ => if x.length ≤ 4 then ∃ a, sizeRun f s x = .more a else sizeRun f s x = .fail := by
  cases x with
  | nil => exact ⟨s, rfl⟩
  | cons b t =>
    obtain ⟨sn, hsn, hfb⟩ := hf.first s b h
    have hsgn : ∀ n : Nat, (if b &&& 0x40 ≠ 0 then -(n : Int) else n) = signBody (decide (b &&& 0x40 = 0x40)) n := by
      intro n
      unfold signBody
      by_cases hc : b &&& 0x40 ≠ 0
      · rw [if_pos hc, if_pos (by simpa using (byte_bit6 b).2 hc)]
      · rw [if_neg hc, if_neg (by simpa using fun h => hc ((byte_bit6 b).1 h))]
    have habs : ∀ sn n, (signBody sn n).natAbs = n := by
      intro sn n; cases sn <;> simp [signBody]
    simp only [unpackSizeWithLength, Bind.bind, Except.bind, pure, Except.pure]
    by_cases hb : b &&& 0x80 ≠ 0
    · rw [if_pos hb] at hfb ⊢
      have hr : sizeRun f s (b :: t) = sizeRun f { state := .consecutive, value := b.toNat &&& 0x3f, offset := 6, isSigned := sn } t := by
        rw [sizeRun, hfb]
      have := run_next hf t { state := .consecutive, value := b.toNat &&& 0x3f, offset := 6, isSigned := sn } rfl rfl (by show 6 ≤ 27; omega)
      simp only at this
      rw [hr]
      cases hu : unpackLoop (b.toNat &&& 0x3f) 6 t with
      | error e =>
        rw [hu] at this
        simp only at this ⊢
        simp only [List.length_cons]
        by_cases hl : 6 + 7 * t.length ≤ 27
        · rw [if_pos hl] at this
          rw [if_pos (by omega)]; exact this
        · rw [if_neg hl] at this
          rw [if_neg (by omega)]; exact this
      | ok p =>
        obtain ⟨v, o, t'⟩ := p
        have ho := unpackLoop_consumes _ _ _ _ _ _ hu
        obtain ⟨c, _, ho, _⟩ := ho
        rw [hu] at this
        simp only at this ⊢
        by_cases hl : o ≤ 27
        · rw [if_pos hl] at this
          rw [if_pos (by omega)]
          obtain ⟨a, ha⟩ := this
          refine ⟨a, decide (b &&& 0x40 = 0x40), ?_, ?_⟩
          · rw [hsgn, habs]
          · rw [hsgn, habs, ha, hsn]
        · rw [if_neg hl] at this
          rw [if_neg (by omega)]; exact this
    · rw [if_neg hb] at hfb ⊢
      simp only
      rw [if_pos (by decide)]
      refine ⟨{ state := .first, value := b.toNat &&& 0x3f, offset := 6, isSigned := sn }, decide (b &&& 0x40 = 0x40), ?_, ?_⟩
      · rw [hsgn, habs]
      · rw [sizeRun, hfb, hsgn, habs, hsn]

/-! The chunk decoders. -/

def SizeMatches (c : Chunk) (out : SizeRes × Chunk × SizeAcc) : SizeOut → Prop
  | .more a => ∃ c', out = (.more, c', a)
  | .value v a t => ∃ c' : Chunk, out = (.value v, c', a) ∧ c'.buf = c.buf ∧ c'.rest = t
  | .fail => ∃ c' a, out = (.fail CORRUPT_PATCH_OVERFLOW, c', a)

omit [Build] in
theorem headerSize_size : ∀ (fuel : Nat) (c : Chunk) (acc : SizeAcc), c.Inv → acc.Inv → c.rest.length < fuel →
    ∃ out, chunkUnpackHeaderSize fuel c acc = .ok out ∧ SizeMatches c out (sizeRun headerSizeByte acc c.rest) ∧ out.2.2.Inv := by
  intro fuel
  induction fuel with
  | zero => intro c acc _ _ h; omega
  | succ fuel ih =>
    intro c acc hc ha hf
    unfold chunkUnpackHeaderSize
    cases hr : c.rest with
    | nil =>
      rw [c.get_nil hc hr]
      exact ⟨_, rfl, ⟨c, rfl⟩, ha⟩
    | cons b t =>
      obtain ⟨e1, e2, e3⟩ := c.get_cons hc hr
      rw [e1]
      simp only [Bind.bind, Except.bind]
      have hl : c.rest.length = t.length + 1 := by rw [hr]; rfl
      rcases headerSizeByte_cases ha b with ⟨acc', f1, f2⟩ | ⟨acc', v, f1, f2, f3, f4⟩ | ⟨acc', f1, f2⟩
      · rw [f1]
        simp only [sizeRun, f1]
        obtain ⟨out, q1, q2⟩ := ih { c with offset := c.offset + 1 } acc' e3 f2 (by rw [e2]; omega)
        rw [e2] at q2
        exact ⟨out, q1, q2⟩
      · rw [f1]
        simp only [sizeRun, f1]
        exact ⟨_, rfl, ⟨_, rfl, rfl, e2⟩, f2⟩
      · rw [f1]
        simp only [sizeRun, f1]
        exact ⟨_, rfl, ⟨_, _, rfl⟩, f2⟩

def PieceMatches (x : Bytes) (out : SizeRes × Bytes) : SizeOut → Prop
  | .more _ => out = (.more, [])
  | .value v _ t => out = (.value v, t)
  | .fail => out.1 = .fail CORRUPT_PATCH_OVERFLOW

omit [Build] in
theorem feedHeader_run : ∀ (pieces : List Bytes) (acc : SizeAcc), acc.Inv →
    ∃ out, feedHeaderSize acc pieces = .ok out ∧ PieceMatches pieces.flatten out (sizeRun headerSizeByte acc pieces.flatten) := by
  intro pieces
  induction pieces with
  | nil => intro acc _; exact ⟨_, rfl, rfl⟩
  | cons p ps ih =>
    intro acc ha
    obtain ⟨⟨r, c, a⟩, e, hm, ha'⟩ := headerSize_size (p.length + 1) { buf := p, offset := 0 } acc (Nat.zero_le _) ha (by simp [Chunk.rest])
    have hrest : ({ buf := p, offset := 0 } : Chunk).rest = p := rfl
    rw [hrest] at hm
    simp only [feedHeaderSize, e, Bind.bind, Except.bind, List.flatten_cons, sizeRun_append]
    cases hrun : sizeRun headerSizeByte acc p with
    | more a' =>
      rw [hrun] at hm
      obtain ⟨c', hc⟩ := hm
      cases hc
      rw [if_pos rfl]
      exact ih _ ha'
    | value v a' t =>
      rw [hrun] at hm
      obtain ⟨c', hc, h1, h2⟩ := hm
      cases hc
      rw [if_neg (by intro h; cases h)]
      refine ⟨_, rfl, ?_⟩
      simp only [Chunk.rest, h1] at h2
      simp only [PieceMatches, h2]
    | fail =>
      rw [hrun] at hm
      obtain ⟨c', a', hc⟩ := hm
      cases hc
      rw [if_neg (by intro h; cases h)]
      exact ⟨_, rfl, rfl⟩

theorem raw_one {p o : Nat} (ho : o + 1 ≤ p) (hp : p < 2 ^ 63) {c : Chunk} (hc : c.Inv) {b : UInt8} {t : Bytes} (hr : c.rest = b :: t) :
    (CReader.raw p o).decompress c 1 1 = .ok (.ok [b], .raw p (o + 1), { c with offset := c.offset + 1 }) := by
  have hav : c.available = true := by rw [c.available_eq hc, hr]; rfl
  have hleft := c.left_eq hc
  rw [hr] at hleft
  have hlen : c.rest.length = c.buf.length - c.offset := by simp [Chunk.rest]
  rw [hr] at hlen
  simp only [List.length_cons] at hleft hlen
  have hmin : min 1 c.left = 1 := by omega
  have hs : sz (o + 1) = o + 1 := Nat.mod_eq_of_lt (by omega)
  have ht : (c.buf.drop c.offset).take 1 = [b] := by
    have : c.buf.drop c.offset = b :: t := hr
    rw [this]; rfl
  have hnot : ¬ (1 < 1 ∨ c.buf.length < c.offset + 1) := by omega
  simp only [CReader.decompress, noneDecompress, hs, Chunk.read, hav, if_true, Chunk.readAllNoCheck, hmin, if_neg hnot, ht,
    Bind.bind, Except.bind, pure, Except.pure, List.length_cons, List.length_nil]
  rw [if_neg (by omega)]

theorem raw_none {p o : Nat} (ho : o + 1 ≤ p) (hp : p < 2 ^ 63) {c : Chunk} (hc : c.Inv) (hr : c.rest = []) :
    (CReader.raw p o).decompress c 1 1 = .ok (.more, .raw p o, c) := by
  have hs : sz (o + 1) = o + 1 := Nat.mod_eq_of_lt (by omega)
  simp only [CReader.decompress, noneDecompress, hs, c.read_nil hc hr, Bind.bind, Except.bind]
  rw [if_neg (by omega)]

def BodyMatches (c : Chunk) (p o : Nat) (out : SizeRes × CReader × Chunk × SizeAcc) : SizeOut → Prop
  | .more a => ∃ c', out = (.more, .raw p (o + c.rest.length), c', a)
  | .value v a t => ∃ (c' : Chunk) (r : CReader), out = (.value v, r, c', a) ∧ c'.buf = c.buf ∧ c'.rest = t
  | .fail => ∃ c' r a, out = (.fail CORRUPT_PATCH_OVERFLOW, r, c', a)

theorem bodySize_size {p : Nat} (hp : p < 2 ^ 63) : ∀ (fuel : Nat) (c : Chunk) (acc : SizeAcc) (o : Nat), c.Inv → acc.Inv → acc.rank < fuel →
    o + c.rest.length < p →
    ∃ out, unpackSizeC fuel (.raw p o) c acc = .ok out ∧ BodyMatches c p o out (sizeRun sizeByte acc c.rest) ∧ out.2.2.2.Inv := by
  intro fuel
  induction fuel with
  | zero => intro c acc o _ _ h; omega
  | succ fuel ih =>
    intro c acc o hc ha hf hop
    unfold unpackSizeC
    cases hr : c.rest with
    | nil =>
      rw [raw_none (by omega) hp hc hr]
      exact ⟨_, rfl, ⟨c, by rw [hr]; rfl⟩, ha⟩
    | cons b t =>
      have hl : c.rest.length = t.length + 1 := by rw [hr]; rfl
      obtain ⟨e1, e2, e3⟩ := c.get_cons hc hr
      rw [raw_one (by omega) hp hc hr]
      simp only [Bind.bind, Except.bind]
      rcases sizeByte_cases ha b with ⟨acc', f1, f2, f3⟩ | ⟨acc', v, f1, f2, f3, f4⟩ | ⟨acc', f1, f2⟩
      · rw [f1]
        simp only [sizeRun, f1]
        obtain ⟨out, q1, q2, q3⟩ := ih { c with offset := c.offset + 1 } acc' (o + 1) e3 f2 (by omega) (by rw [e2]; omega)
        rw [e2] at q2
        refine ⟨out, q1, ?_, q3⟩
        cases hrun : sizeRun sizeByte acc' t with
        | more a =>
          rw [hrun] at q2
          obtain ⟨c', hc'⟩ := q2
          refine ⟨c', ?_⟩
          rw [hc', e2, hl]
          have : o + 1 + t.length = o + (t.length + 1) := by omega
          rw [this]
        | value v a t' => rw [hrun] at q2; exact q2
        | fail => rw [hrun] at q2; exact q2
      · rw [f1]
        simp only [sizeRun, f1]
        exact ⟨_, rfl, ⟨_, _, rfl, rfl, e2⟩, f2⟩
      · rw [f1]
        simp only [sizeRun, f1]
        exact ⟨_, rfl, ⟨_, _, _, rfl⟩, f2⟩

omit [Build] in
theorem SizeAcc.rank_lt {acc : SizeAcc} (ha : acc.Inv) : acc.rank < 6 := by
  unfold SizeAcc.rank
  cases hs : acc.state with
  | first => simp
  | consecutive =>
    obtain ⟨h1, h2, _⟩ := ha hs
    simp only
    omega

theorem feedBody_run {p : Nat} (hp : p < 2 ^ 63) : ∀ (pieces : List Bytes) (acc : SizeAcc) (o : Nat), acc.Inv →
    o + pieces.flatten.length < p →
    ∃ out, feedBodySize (.raw p o) acc pieces = .ok out ∧ PieceMatches pieces.flatten out (sizeRun sizeByte acc pieces.flatten) := by
  intro pieces
  induction pieces with
  | nil => intro acc o _ _; exact ⟨_, rfl, rfl⟩
  | cons q ps ih =>
    intro acc o ha hop
    simp only [List.flatten_cons, List.length_append] at hop
    have hrest : ({ buf := q, offset := 0 } : Chunk).rest = q := rfl
    obtain ⟨⟨r, rd, c, a⟩, e, hm, ha'⟩ := bodySize_size hp 6 { buf := q, offset := 0 } acc o (Nat.zero_le _) ha (SizeAcc.rank_lt ha) (by rw [hrest]; omega)
    rw [hrest] at hm
    simp only [feedBodySize, patchReaderUnpackSize, e, Bind.bind, Except.bind, List.flatten_cons, sizeRun_append]
    cases hrun : sizeRun sizeByte acc q with
    | more a' =>
      rw [hrun] at hm
      obtain ⟨c', hc⟩ := hm
      cases hc
      rw [if_pos rfl]
      exact ih _ _ ha' (by rw [hrest]; omega)
    | value v a' t =>
      rw [hrun] at hm
      obtain ⟨c', r', hc, h1, h2⟩ := hm
      cases hc
      rw [if_neg (by intro h; cases h)]
      refine ⟨_, rfl, ?_⟩
      simp only [Chunk.rest, h1] at h2
      simp only [PieceMatches, h2]
    | fail =>
      rw [hrun] at hm
      obtain ⟨c', r', a', hc⟩ := hm
      cases hc
      rw [if_neg (by intro h; cases h)]
      exact ⟨_, rfl, rfl⟩

/-! CRLE sizes. -/

inductive UsizeOut where
  | more (u : USize)
  | value (v : Nat) (rest : Bytes)
  | fail
deriving DecidableEq

def usizeRun (u : USize) : Bytes → UsizeOut
  | [] => .more u
  | b :: t =>
    match usizeByte u b with
    | none => .fail
    | some (u, none) => usizeRun u t
    | some (_, some v) => .value v t

omit [Build] in
theorem usizeRun_append (x y : Bytes) : ∀ u, usizeRun u (x ++ y) =
    match usizeRun u x with
    | .more a => usizeRun a y
    | .value v t => .value v (t ++ y)
    | .fail => .fail := by
  induction x with
  | nil => intro acc; rfl
  | cons b t ih =>
    intro acc
    simp only [List.cons_append, usizeRun]
    cases usizeByte acc b with
    | none => rfl
    | some p =>
      obtain ⟨u, o⟩ := p
      cases o with
      | none => exact ih u
      | some v => rfl

omit [Build] in
theorem crleUnpackSize_shorter : ∀ (x : Bytes) (v o : Nat) {v' : Nat} {t : Bytes}, crleUnpackSize v o x = some (v', t) → t.length < x.length := by
  intro x
  induction x with
  | nil => intro v o v' t h; cases h
  | cons b t ih =>
    intro v o v' t' h
    simp only [crleUnpackSize] at h
    split at h
    · have := ih _ _ h
      simp only [List.length_cons]; omega
    · cases h; simp

omit [Build] in
theorem usizeRun_val : ∀ (x : Bytes) (u : USize), u.offset % 7 = 0 → u.offset ≤ 28 →
    match crleUnpackSize u.value u.offset x with
    | some (v, t) => if u.offset + 7 * (x.length - t.length) ≤ 28 then usizeRun u x = .value v t else usizeRun u x = .fail
    | none => if u.offset + 7 * x.length ≤ 28 then ∃ a, usizeRun u x = .more a else usizeRun u x = .fail := by
  intro x
  induction x with
  | nil =>
    intro u h2 h3
    simp only [crleUnpackSize, List.length_nil]
    rw [if_pos (by omega)]
    exact ⟨u, rfl⟩
  | cons b t ih =>
    intro u h2 h3
    have hsh := @crleUnpackSize_shorter (b :: t) u.value u.offset
    simp only [crleUnpackSize] at hsh ⊢
    by_cases ho : isOverflow u.offset = true
    · have hfail : usizeRun u (b :: t) = .fail := by
        simp [usizeRun, usizeByte, ho]
      have h28 : u.offset = 28 := by
        simp [isOverflow] at ho; omega
      split
      · rename_i v t' heq
        rw [if_neg (by have := hsh heq; omega)]
        exact hfail
      · rw [if_neg (by simp only [List.length_cons]; omega)]
        exact hfail
    · have hof : u.offset ≤ 21 := by
        simp [isOverflow] at ho; omega
      have hv := orShift_val (v := u.value) (b := b) (o := u.offset) (by omega)
      by_cases hb : b &&& 0x80 ≠ 0
      · rw [if_pos hb]
        have hr : usizeRun u (b :: t) = usizeRun { u with value := u.value ||| ((b.toNat &&& 0x7f) <<< u.offset), offset := u.offset + 7 } t := by
          conv => lhs; rw [usizeRun]
          simp only [usizeByte, if_neg ho, hv, if_pos hb]
        rw [hr]
        have := ih { u with value := u.value ||| ((b.toNat &&& 0x7f) <<< u.offset), offset := u.offset + 7 } (by show (u.offset + 7) % 7 = 0; omega) (by show u.offset + 7 ≤ 28; omega)
        simp only at this
        have hl : u.offset + 7 * (b :: t).length = u.offset + 7 + 7 * t.length := by
          simp only [List.length_cons]; omega
        rw [hl]
        cases hc : crleUnpackSize (u.value ||| ((b.toNat &&& 0x7f) <<< u.offset)) (u.offset + 7) t with
        | none => rw [hc] at this; exact this
        | some p =>
          obtain ⟨v, t'⟩ := p
          rw [hc] at this
          have hs := crleUnpackSize_shorter t _ _ hc
          simp only at this ⊢
          have hl' : u.offset + 7 * ((b :: t).length - t'.length) = u.offset + 7 + 7 * (t.length - t'.length) := by
            simp only [List.length_cons]; omega
          rw [hl']
          exact this
      · rw [if_neg hb]
        simp only [List.length_cons]
        rw [if_pos (by omega)]
        rw [usizeRun]
        simp only [usizeByte, if_neg ho, hv, if_neg hb]

def UsizeMatches (c : Chunk) (out : SizeRes × Chunk × USize) : UsizeOut → Prop
  | .more a => ∃ c', out = (.more, c', a)
  | .value v t => ∃ (c' : Chunk) (a : USize), out = (.value v, c', a) ∧ c'.buf = c.buf ∧ c'.rest = t
  | .fail => ∃ c' a, out = (.fail CORRUPT_PATCH_OVERFLOW, c', a)

omit [Build] in
theorem usizeLoop_run : ∀ (fuel : Nat) (c : Chunk) (u : USize), c.Inv → u.state = .consecutive → u.offset % 7 = 0 → c.rest.length < fuel →
    ∃ out, unpackUsizeLoop fuel c u = .ok out ∧ UsizeMatches c out (usizeRun u c.rest) ∧ 
      (out.1 = .more → out.2.2.state = .consecutive ∧ out.2.2.offset % 7 = 0) := by
  intro fuel
  induction fuel with
  | zero => intro c u _ _ _ h; omega
  | succ fuel ih =>
    intro c u hc h1 h2 hf
    unfold unpackUsizeLoop
    cases hr : c.rest with
    | nil =>
      rw [c.get_nil hc hr]
      exact ⟨_, rfl, ⟨c, rfl⟩, fun _ => ⟨h1, h2⟩⟩
    | cons b t =>
      have hl : c.rest.length = t.length + 1 := by rw [hr]; rfl
      obtain ⟨e1, e2, e3⟩ := c.get_cons hc hr
      rw [e1]
      simp only [Bind.bind, Except.bind]
      by_cases ho : isOverflow u.offset = true
      · rw [if_pos ho]
        refine ⟨_, rfl, ?_, by intro h; cases h⟩
        simp only [usizeRun, usizeByte, if_pos ho]
        exact ⟨_, _, rfl⟩
      · rw [if_neg ho]
        have hv := orShift_val (v := u.value) (b := b) (o := u.offset) (by simp [isOverflow] at ho; omega)
        rw [hv]
        simp only
        by_cases hb : b &&& 0x80 ≠ 0
        · rw [if_pos hb]
          obtain ⟨out, q1, q2, q3⟩ := ih { c with offset := c.offset + 1 }
            { u with value := u.value ||| ((b.toNat &&& 0x7f) <<< u.offset), offset := u.offset + 7 } e3 h1
            (by show (u.offset + 7) % 7 = 0; omega) (by rw [e2]; omega)
          refine ⟨out, q1, ?_, q3⟩
          rw [e2] at q2
          simp only [usizeRun, usizeByte, if_neg ho, hv, if_pos hb]
          exact q2
        · rw [if_neg hb]
          refine ⟨_, rfl, ?_, by intro h; cases h⟩
          simp only [usizeRun, usizeByte, if_neg ho, hv, if_neg hb]
          exact ⟨_, _, rfl, rfl, e2⟩

def UpieceMatches (out : SizeRes × Bytes) : UsizeOut → Prop
  | .more _ => out = (.more, [])
  | .value v t => out = (.value v, t)
  | .fail => out.1 = .fail CORRUPT_PATCH_OVERFLOW

omit [Build] in
theorem feedCrle_run : ∀ (pieces : List Bytes) (u : USize), (u.state = .consecutive → u.offset % 7 = 0) →
    ∃ out, feedCrleSize u pieces = .ok out ∧ UpieceMatches out (usizeRun u.start pieces.flatten) := by
  intro pieces
  induction pieces with
  | nil => intro u _; exact ⟨_, rfl, rfl⟩
  | cons p ps ih =>
    intro u hu
    have hst : u.start.state = .consecutive ∧ u.start.offset % 7 = 0 := by
      unfold USize.start
      cases hs : u.state with
      | first => exact ⟨rfl, rfl⟩
      | consecutive => exact ⟨hs, hu hs⟩
    have hle : ({ buf := p, offset := 0 } : Chunk).left = p.length := by simp [Chunk.left]
    obtain ⟨⟨r, c, a⟩, e, hm, ha'⟩ := usizeLoop_run (p.length + 1) { buf := p, offset := 0 } u.start (Nat.zero_le _) hst.1 hst.2 (by simp [Chunk.rest])
    have hun : unpackUsizeC { buf := p, offset := 0 } u = .ok (r, c, a) := by
      unfold unpackUsizeC
      rw [hle]
      exact e
    have hrest : ({ buf := p, offset := 0 } : Chunk).rest = p := rfl
    rw [hrest] at hm
    simp only [feedCrleSize, hun, Bind.bind, Except.bind, List.flatten_cons, usizeRun_append]
    cases hrun : usizeRun u.start p with
    | more a' =>
      rw [hrun] at hm
      obtain ⟨c', hc⟩ := hm
      cases hc
      rw [if_pos rfl]
      obtain ⟨k1, k2⟩ := ha' rfl
      simp only at k1 k2
      obtain ⟨out, q1, q2⟩ := ih a (fun _ => k2)
      refine ⟨out, q1, ?_⟩
      have : a.start = a := by simp [USize.start, k1]
      rw [this] at q2
      exact q2
    | value v t =>
      rw [hrun] at hm
      obtain ⟨c', a', hc, h1, h2⟩ := hm
      cases hc
      rw [if_neg (by intro h; cases h)]
      refine ⟨_, rfl, ?_⟩
      simp only [Chunk.rest, h1] at h2
      simp only [UpieceMatches, h2]
    | fail =>
      rw [hrun] at hm
      obtain ⟨c', a', hc⟩ := hm
      cases hc
      rw [if_neg (by intro h; cases h)]
      exact ⟨_, rfl, rfl⟩

omit [Build] in
/-- The header meaning in terms of the Python decoder. -/
theorem hdrRun_size (x : Bytes) : ∀ acc : SizeAcc, acc.Inv → hdrRun acc x =
    match sizeRun headerSizeByte acc x with
    | .more a => .more a
    | .value v a t => .value v.toNat a t
    | .fail => .fail := by
  induction x with
  | nil => intro acc _; rfl
  | cons b t ih =>
    intro acc ha
    simp only [hdrRun, sizeRun]
    rcases headerSizeByte_cases ha b with ⟨acc', f1, f2⟩ | ⟨acc', v, f1, f2, f3, f4⟩ | ⟨acc', f1, f2⟩
    · rw [f1]; exact ih acc' f2
    · rw [f1]
    · rw [f1]

omit [Build] in
theorem hdrRun_value {x : Bytes} {v : Nat} {a : SizeAcc} {t : Bytes} (h : hdrRun {} x = .value v a t) :
    ∃ w k, unpackSizeWithLength x = .ok (w, k, t) ∧ k ≤ 4 ∧ v = w.natAbs := by
  have hi : ({} : SizeAcc).Inv := by intro h; cases h
  have hr := run_first headerSizeByte_sizes (fun v => rfl) x {} rfl
  rw [hdrRun_size x {} hi] at h
  cases hu : unpackSizeWithLength x with
  | error e =>
    rw [hu] at hr
    simp only at hr
    split at hr
    · obtain ⟨a', ha⟩ := hr
      rw [ha] at h; cases h
    · rw [hr] at h; cases h
  | ok p =>
    obtain ⟨w, k, t'⟩ := p
    rw [hu] at hr
    simp only at hr
    split at hr
    · obtain ⟨a', sn, h1, h2⟩ := hr
      rw [h2] at h
      cases h
      exact ⟨w, k, rfl, by assumption, rfl⟩
    · rw [hr] at h; cases h

omit [Build] in
theorem hdrRun_of_unpack {x : Bytes} {w : Int} {k : Nat} {t : Bytes} (h : unpackSizeWithLength x = .ok (w, k, t)) (hk : k ≤ 4) :
    ∃ a, hdrRun {} x = .value w.natAbs a t := by
  have hi : ({} : SizeAcc).Inv := by intro h; cases h
  have hr := run_first headerSizeByte_sizes (fun v => rfl) x {} rfl
  rw [h] at hr
  simp only [if_pos hk] at hr
  obtain ⟨a', sn, h1, h2⟩ := hr
  exact ⟨a', by rw [hdrRun_size x {} hi, h2]; rfl⟩

end Detools
