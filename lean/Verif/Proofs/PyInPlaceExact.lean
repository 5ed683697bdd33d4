import Verif.Proofs.PyInPlace
import Verif.Proofs.PyTrunc
import Verif.Spec.InPlaceMeans

namespace Detools

/-- Enough fuel leads to an exception other than the timeout of the model. -/
def FailsM (x : Nat → Mem α) (m : Bytes) : Prop := ∃ F m' e, e ≠ PyErr.timeout ∧ ∀ fuel, F ≤ fuel → x fuel m = (m', .error e)

/-- Enough fuel leads to a result. -/
def WorksM (x : Nat → Mem α) (m m' : Bytes) (a : α) : Prop := ∃ F, ∀ fuel, F ≤ fuel → x fuel m = (m', .ok a)

theorem FailsM.const {e : PyErr} (he : e ≠ .timeout) (m : Bytes) : FailsM (fun _ => (Mem.lift (.error e) : Mem α)) m := ⟨0, m, e, he, fun _ _ => rfl⟩

theorem FailsM.bind_left {x : Nat → Mem α} {f : Nat → α → Mem β} {m} (h : FailsM x m) : FailsM (fun fuel => x fuel >>= f fuel) m := by
  obtain ⟨F, m', e, he, hF⟩ := h
  exact ⟨F, m', e, he, fun fuel hf => by simp only [Mem.bind_eq, Mem.bind, hF fuel hf]⟩

theorem FailsM.bind_right {x : Nat → Mem α} {f : Nat → α → Mem β} {m m' a} (hx : WorksM x m m' a)
    (h : FailsM (fun fuel => f fuel a) m') : FailsM (fun fuel => x fuel >>= f fuel) m := by
  obtain ⟨F1, hx⟩ := hx
  obtain ⟨F, m'', e, he, hF⟩ := h
  refine ⟨max F1 F, m'', e, he, fun fuel hf => ?_⟩
  have := hF fuel (by omega)
  simp only at this
  simp only [Mem.bind_eq, Mem.bind, hx fuel (by omega), this]

theorem WorksM.bind {x : Nat → Mem α} {f : Nat → α → Mem β} {m m' m'' a b} (hx : WorksM x m m' a)
    (h : WorksM (fun fuel => f fuel a) m' m'' b) : WorksM (fun fuel => x fuel >>= f fuel) m m'' b := by
  obtain ⟨F1, hx⟩ := hx
  obtain ⟨F, hF⟩ := h
  refine ⟨max F1 F, fun fuel hf => ?_⟩
  have := hF fuel (by omega)
  simp only at this
  simp only [Mem.bind_eq, Mem.bind, hx fuel (by omega), this]

theorem FailsM.succ {x : Nat → Mem α} {m} (h : FailsM (fun k => x (k + 1)) m) : FailsM x m := by
  obtain ⟨F, m', e, he, hF⟩ := h
  refine ⟨F + 1, m', e, he, fun fuel hf => ?_⟩
  obtain ⟨k, rfl⟩ : ∃ k, fuel = k + 1 := ⟨fuel - 1, by omega⟩
  exact hF k (by omega)

theorem WorksM.succ {x : Nat → Mem α} {m m' a} (h : WorksM (fun k => x (k + 1)) m m' a) : WorksM x m m' a := by
  obtain ⟨F, hF⟩ := h
  refine ⟨F + 1, fun fuel hf => ?_⟩
  obtain ⟨k, rfl⟩ : ∃ k, fuel = k + 1 := ⟨fuel - 1, by omega⟩
  exact hF k (by omega)

theorem WorksM.lift {x : Nat → Except PyErr α} {a} (h : ∃ F, ∀ fuel, F ≤ fuel → x fuel = .ok a) (m : Bytes) :
    WorksM (fun fuel => Mem.lift (x fuel)) m m a := by
  obtain ⟨F, hF⟩ := h
  exact ⟨F, fun fuel hf => by simp only [Mem.lift, hF fuel hf]⟩

theorem FailsM.lift {x : Nat → Except PyErr α} (h : ∃ F e, e ≠ PyErr.timeout ∧ ∀ fuel, F ≤ fuel → x fuel = .error e) (m : Bytes) :
    FailsM (fun fuel => Mem.lift (x fuel)) m := by
  obtain ⟨F, e, he, hF⟩ := h
  exact ⟨F, m, e, he, fun fuel hf => by simp only [Mem.lift, hF fuel hf]⟩

theorem WorksM.pure (a : α) (m : Bytes) : WorksM (fun _ => (Mem.pure a : Mem α)) m m a := ⟨0, fun _ _ => rfl⟩

/-! ### One list of chunks -/

theorem diffInto_fuel : ∀ (n k : Nat) (m : Bytes) (dst : Nat) (src : Int) (d : Bytes), d.length ≤ n → d.length ≤ k →
    diffInto n m dst src d = diffInto k m dst src d := by
  intro n
  induction n with
  | zero =>
    intro k m dst src d h1 h2
    have : d = [] := List.eq_nil_of_length_eq_zero (by omega)
    subst this
    cases k <;> simp [diffInto]
  | succ n ih =>
    intro k m dst src d h1 h2
    by_cases hd : d = []
    · subst hd; cases k <;> simp [diffInto]
    · have := List.length_pos_iff.2 hd
      obtain ⟨k, rfl⟩ : ∃ j, k = j + 1 := ⟨k - 1, by omega⟩
      simp only [diffInto]
      rw [ih k _ _ _ _ (by simp only [List.length_drop]; omega) (by simp only [List.length_drop]; omega)]

/-- What a list of `n` bytes in chunks does to the memory. -/
def chunksInto (diff : Bool) (n : Nat) (m : Bytes) (t : Nat) (src : Int) (q : Bytes) : Option Bytes :=
  if n ≤ q.length then
    if diff then diffInto n m t src (q.take n) else some (fileWrite m t (q.take n))
  else none

theorem segmentChunkLoop_supply {D : Decompressor} (L : Supply D) (diff : Bool) (toOffset : Int) (n : Nat) :
    ∀ (s : SegState D) (m q : Bytes) (t : Nat), L.has s.reader.st s.reader.file q → toOffset + s.toPos = t →
    (∃ m' r', chunksInto diff n m t s.fromOffset q = some m' ∧
      WorksM (fun fuel => segmentChunkLoop diff toOffset fuel n s) m m'
        { reader := r', toPos := s.toPos + n, fromOffset := if diff then s.fromOffset + n else s.fromOffset } ∧
      L.has r'.st r'.file (q.drop n)) ∨
    (chunksInto diff n m t s.fromOffset q = none ∧ FailsM (fun fuel => segmentChunkLoop diff toOffset fuel n s) m) := by
  induction n using Nat.strongRecOn with
  | _ n ih =>
  intro s m q t hO ht
  by_cases h0 : n = 0
  · subst h0
    left
    refine ⟨m, s.reader, ?_, ⟨0, fun fuel _ => ?_⟩, by simpa using hO⟩
    · cases diff <;> simp [chunksInto, diffInto, fileWrite_nil]
    · have : (⟨s.reader, s.toPos + ((0 : Nat) : Int), if diff = true then s.fromOffset + ((0 : Nat) : Int) else s.fromOffset⟩ : SegState D) = s := by
        cases s; simp
      rw [this]
      cases fuel <;> simp [segmentChunkLoop, Mem.pure]
  · obtain ⟨c, hc⟩ : ∃ c, c = min n 4096 := ⟨_, rfl⟩
    have hc1 : 0 < c := by omega
    have hc2 : c ≤ n := by omega
    have unf : ∀ k, segmentChunkLoop diff toOffset (k + 1) n s = (do
        let (patchData, reader) ← Mem.lift (s.reader.read k c)
        let data ← segmentData diff s.fromOffset c patchData
        Mem.writeAt (toOffset + s.toPos) data
        segmentChunkLoop diff toOffset k (n - c)
          { reader := reader, toPos := s.toPos + c, fromOffset := if diff then s.fromOffset + c else s.fromOffset }) := by
      intro k
      rw [segmentChunkLoop, if_neg h0, ← hc]
    rcases PatchReader.read_supply L s.reader q c hO with ⟨hq, F1, r1, hr1, hO1⟩ | ⟨hq, F, e, he, hF⟩
    · have hlc : (q.take c).length = c := by simp; omega
      -- the data of the first chunk
      have hdata : (∃ d, (diff = true → ¬ (s.fromOffset < 0 ∨ m.length < s.fromOffset.toNat + c)) ∧
            d = (if diff then List.zipWith (· + ·) (q.take c) (m.drop s.fromOffset.toNat) else q.take c) ∧ d.length = c ∧
            WorksM (fun _ => segmentData diff s.fromOffset c (q.take c)) m m d) ∨
          (diff = true ∧ (s.fromOffset < 0 ∨ m.length < s.fromOffset.toNat + c) ∧
            FailsM (fun _ => segmentData diff s.fromOffset c (q.take c)) m) := by
        cases diff with
        | false => exact .inl ⟨_, by simp, by simp, hlc, 0, fun _ _ => rfl⟩
        | true =>
          by_cases hb : s.fromOffset < 0 ∨ m.length < s.fromOffset.toNat + c
          · right
            refine ⟨rfl, hb, ?_⟩
            unfold segmentData
            by_cases hn : s.fromOffset < 0
            · exact ⟨0, m, .builtin "OSError", by simp, fun _ _ => by
                simp only [if_true, Mem.bind_eq, Mem.bind, Mem.readAt, hn]⟩
            · have : m.length < s.fromOffset.toNat + c := hb.resolve_left hn
              refine ⟨0, m, .builtin "ValueError: Lengths must be equal.", by simp, fun _ _ => ?_⟩
              simp only [if_true, Mem.bind_eq, Mem.bind, Mem.readAt, hn, if_false, Mem.lift, addBytes]
              rw [if_pos (by simp; omega)]
          · left
            refine ⟨_, fun _ => hb, rfl, ?_, 0, fun _ _ => ?_⟩
            · simp only [if_true, List.length_zipWith, List.length_drop, hlc]; omega
            · have hn : ¬ s.fromOffset < 0 := fun h => hb (.inl h)
              have hl : (List.take c (List.drop s.fromOffset.toNat m)).length = c := by simp; omega
              simp only [segmentData, if_true, Mem.bind_eq, Mem.bind, Mem.readAt, hn, if_false, Mem.lift, addBytes, hlc, hl]
              rw [if_neg (by simp), zipWith_take_right _ _ _ (by omega)]
      have hrest : ∀ m1 : Bytes, chunksInto diff (n - c) m1 (t + c) (if diff then s.fromOffset + c else s.fromOffset) (q.drop c) =
          if n ≤ q.length then
            if diff then diffInto (n - c) m1 (t + c) (s.fromOffset + c) ((q.take n).drop c) else some (fileWrite m1 (t + c) ((q.take n).drop c))
          else none := by
        intro m1
        unfold chunksInto
        have e1 : (n - c ≤ (q.drop c).length) ↔ n ≤ q.length := by simp; omega
        have e2 : (q.drop c).take (n - c) = (q.take n).drop c := by rw [List.drop_take]
        simp only [e1, e2]
        cases diff <;> simp
      rcases hdata with ⟨d, hok, hd, hdl, hworks⟩ | ⟨hdiff, hb, hfails⟩
      · have hw : WorksM (fun _ => Mem.writeAt (toOffset + s.toPos) d) m (fileWrite m t d) () :=
          ⟨0, fun _ _ => Mem.writeAt_ok m t d _ ht⟩
        have heq : chunksInto diff n m t s.fromOffset q =
            chunksInto diff (n - c) (fileWrite m t d) (t + c) (if diff then s.fromOffset + c else s.fromOffset) (q.drop c) := by
          rw [hrest]
          unfold chunksInto
          by_cases hnq : n ≤ q.length
          · rw [if_pos hnq, if_pos hnq]
            cases diff with
            | false =>
              simp only [Bool.false_eq_true, if_false] at hd ⊢
              have e : fileWrite (fileWrite m t d) (t + d.length) ((q.take n).drop c) = fileWrite m t (d ++ (q.take n).drop c) := fileWrite_append _ _ _ _
              rw [hdl] at e
              rw [e, hd]
              have : q.take c = (q.take n).take c := by rw [List.take_take, Nat.min_eq_left hc2]
              rw [this, List.take_append_drop]
            | true =>
              simp only [if_true] at hd ⊢
              obtain ⟨k, rfl⟩ : ∃ k, n = k + 1 := ⟨n - 1, by omega⟩
              have hne : q.take (k + 1) ≠ [] := by
                intro h
                have := congrArg List.length h
                rw [List.length_take, List.length_nil] at this
                omega
              have htl : (q.take (k + 1)).length = k + 1 := by simp; omega
              have htk : (q.take (k + 1)).take 4096 = q.take c := by rw [List.take_take, Nat.min_comm, ← hc]
              have hdk : (q.take (k + 1)).drop 4096 = (q.take (k + 1)).drop c := by
                by_cases h : 4096 ≤ k + 1
                · rw [show c = 4096 by omega]
                · rw [List.drop_of_length_le (by omega), List.drop_of_length_le (by omega)]
              rw [diffInto, if_neg hne, htk, hlc, if_neg (hok rfl), hdk, ← hd]
              exact diffInto_fuel _ _ _ _ _ _ (by simp only [List.length_drop, htl]; omega) (by simp only [List.length_drop, htl]; omega)
          · rw [if_neg hnq, if_neg hnq]
        rw [heq]
        rcases ih (n - c) (by omega) { reader := r1, toPos := s.toPos + c, fromOffset := if diff then s.fromOffset + c else s.fromOffset }
            (fileWrite m t d) (q.drop c) (t + c) hO1 (by simp only; omega) with ⟨m', r', g1, g2, g3⟩ | ⟨g1, g2⟩
        · left
          refine ⟨m', r', g1, WorksM.succ ?_, by rw [List.drop_drop] at g3; rwa [show c + (n - c) = n by omega] at g3⟩
          simp only [unf]
          refine WorksM.bind (WorksM.lift ⟨F1, hr1⟩ m) (WorksM.bind hworks (WorksM.bind hw ?_))
          have : ({ reader := r', toPos := s.toPos + (n : Int), fromOffset := if diff = true then s.fromOffset + (n : Int) else s.fromOffset } : SegState D) =
              { reader := r', toPos := s.toPos + (c : Int) + ((n - c : Nat) : Int), fromOffset := if diff = true then (if diff = true then s.fromOffset + (c : Int) else s.fromOffset) + ((n - c : Nat) : Int) else (if diff = true then s.fromOffset + (c : Int) else s.fromOffset) } := by
            cases diff <;> simp only [Bool.false_eq_true, if_true, if_false] <;> congr 1 <;> omega
          rw [this]
          exact g2
        · right
          refine ⟨g1, FailsM.succ ?_⟩
          simp only [unf]
          exact FailsM.bind_right (WorksM.lift ⟨F1, hr1⟩ m) (FailsM.bind_right hworks (FailsM.bind_right hw g2))
      · right
        subst hdiff
        refine ⟨?_, FailsM.succ ?_⟩
        · unfold chunksInto
          by_cases hnq : n ≤ q.length
          · rw [if_pos hnq]
            simp only [if_true]
            obtain ⟨k, rfl⟩ : ∃ k, n = k + 1 := ⟨n - 1, by omega⟩
            have hne : q.take (k + 1) ≠ [] := by
              intro h
              have := congrArg List.length h
              rw [List.length_take, List.length_nil] at this
              omega
            have htk : (q.take (k + 1)).take 4096 = q.take c := by rw [List.take_take, Nat.min_comm, ← hc]
            rw [diffInto, if_neg hne, htk, hlc, if_pos hb]
          · rw [if_neg hnq]
        · simp only [unf]
          exact FailsM.bind_right (WorksM.lift ⟨F1, hr1⟩ m) (FailsM.bind_left hfails)
    · right
      refine ⟨by unfold chunksInto; rw [if_neg (by omega)], FailsM.succ ?_⟩
      simp only [unf]
      exact FailsM.bind_left (FailsM.lift ⟨F, e, he, hF⟩ m)

theorem segmentChunks_supply {D : Decompressor} (L : Supply D) (diff : Bool) (toOffset toSize : Int) (s : SegState D) (m q : Bytes) (t : Nat)
    (hO : L.has s.reader.st s.reader.file q) (ht : toOffset + s.toPos = t) :
    match unpackSizeWithLength q with
    | .error _ => FailsM (fun fuel => segmentChunks fuel diff toOffset toSize s) m
    | .ok (v, _, b) =>
      if s.toPos + v > toSize then FailsM (fun fuel => segmentChunks fuel diff toOffset toSize s) m
      else (∃ m' r', chunksInto diff v.toNat m t s.fromOffset b = some m' ∧
          WorksM (fun fuel => segmentChunks fuel diff toOffset toSize s) m m'
            { reader := r', toPos := s.toPos + v.toNat, fromOffset := if diff then s.fromOffset + v.toNat else s.fromOffset } ∧
          L.has r'.st r'.file (b.drop v.toNat)) ∨
        (chunksInto diff v.toNat m t s.fromOffset b = none ∧ FailsM (fun fuel => segmentChunks fuel diff toOffset toSize s) m) := by
  have hu := PatchReader.unpackSize_supply L s.reader q hO
  cases h1 : unpackSizeWithLength q with
  | error e0 =>
    rw [h1] at hu
    unfold segmentChunks
    exact FailsM.bind_left (FailsM.lift hu m)
  | ok p =>
    obtain ⟨v, k, b⟩ := p
    rw [h1] at hu
    obtain ⟨F, r, hr, hOr⟩ := hu
    simp only
    by_cases hc : s.toPos + v > toSize
    · rw [if_pos hc]
      unfold segmentChunks
      refine FailsM.bind_right (WorksM.lift ⟨F, hr⟩ m) ?_
      simp only [if_pos hc]
      exact FailsM.const (by simp) m
    · rw [if_neg hc]
      unfold segmentChunks
      rcases segmentChunkLoop_supply L diff toOffset v.toNat { s with reader := r } m b t hOr ht with ⟨m', r', g1, g2, g3⟩ | ⟨g1, g2⟩
      · refine .inl ⟨m', r', g1, WorksM.bind (WorksM.lift ⟨F, hr⟩ m) ?_, g3⟩
        simp only [if_neg hc]
        exact g2
      · refine .inr ⟨g1, FailsM.bind_right (WorksM.lift ⟨F, hr⟩ m) ?_⟩
        simp only [if_neg hc]
        exact g2

/-! ### The records of a segment -/

theorem segmentLoop_supply {D : Decompressor} (L : Supply D) (toOffset toSize : Int) : ∀ (N : Nat) (s : SegState D) (m q : Bytes) (t : Nat),
    q.length ≤ N → L.has s.reader.st s.reader.file q → toOffset + s.toPos = t →
    (∃ recs rest m' s', Recs (toSize - s.toPos) q recs rest ∧ recsInto m t s.fromOffset recs = some m' ∧
      WorksM (fun fuel => segmentLoop fuel toOffset toSize s) m m' s' ∧ L.has s'.reader.st s'.reader.file rest) ∨
    ((∀ recs rest, Recs (toSize - s.toPos) q recs rest → recsInto m t s.fromOffset recs = none) ∧
      FailsM (fun fuel => segmentLoop fuel toOffset toSize s) m) := by
  intro N
  induction N using Nat.strongRecOn with
  | _ N ih =>
  intro s m q t hN hO ht
  by_cases hlt : s.toPos < toSize
  · have unf : ∀ k, segmentLoop (k + 1) toOffset toSize s = (do
        let s ← segmentChunks k true toOffset toSize s
        let s ← segmentChunks k false toOffset toSize s
        let (size, reader) ← Mem.lift (s.reader.unpackSize k)
        segmentLoop k toOffset toSize { s with reader := reader, fromOffset := s.fromOffset + size }) := by
      intro k; rw [segmentLoop, if_pos hlt]
    have h1 := segmentChunks_supply L true toOffset toSize s m q t hO ht
    cases u1 : unpackSizeWithLength q with
    | error e0 =>
      rw [u1] at h1
      refine .inr ⟨fun recs rest h => ?_, FailsM.succ ?_⟩
      · cases h with
        | done h => omega
        | record _ g => rw [u1] at g; cases g
      · simp only [unf]; exact FailsM.bind_left h1
    | ok p1 =>
      obtain ⟨v1, k1, b1⟩ := p1
      rw [u1] at h1
      have s1 := unpackSizeWithLength_shorter u1
      simp only at h1
      -- what the first part of a record looks like
      have hrec1 : ∀ {recs rest}, Recs (toSize - s.toPos) q recs rest → ∃ r rs c1 c2 c3, recs = r :: rs ∧ r.diffSize = v1 ∧ b1 = r.diff ++ c1 ∧
          v1 ≤ toSize - s.toPos ∧ r.diff.length = v1.toNat ∧
          unpackSizeWithLength c1 = .ok (r.extraSize, r.extraLen, r.extra ++ c2) ∧ r.diff.length + r.extraSize ≤ toSize - s.toPos ∧
          r.extra.length = r.extraSize.toNat ∧ unpackSizeWithLength c2 = .ok (r.adjustment, r.adjLen, c3) ∧
          Recs (toSize - s.toPos - r.diff.length - r.extra.length) c3 rs rest := by
        intro recs rest h
        cases h with
        | done h => omega
        | @record _ _ c1 c2 c3 _ r rs h0 g1 g2 g3 g4 g5 g6 g7 g8 =>
          rw [u1] at g1
          simp only [Except.ok.injEq, Prod.mk.injEq] at g1
          obtain ⟨e1, -, e2⟩ := g1
          exact ⟨r, rs, c1, c2, c3, rfl, e1.symm, e2, by omega, by rw [e1]; exact g3, g4, g5, g6, g7, g8⟩
      by_cases c1 : s.toPos + v1 > toSize
      · rw [if_pos c1] at h1
        refine .inr ⟨fun recs rest h => ?_, FailsM.succ ?_⟩
        · obtain ⟨r, rs, c1, c2, c3, -, -, -, g, -⟩ := hrec1 h
          omega
        · simp only [unf]; exact FailsM.bind_left h1
      · rw [if_neg c1] at h1
        rcases h1 with ⟨m1, r1, i1, w1, o1⟩ | ⟨i1, f1⟩
        · have hl1 : v1.toNat ≤ b1.length := by
            unfold chunksInto at i1
            split at i1
            · assumption
            · cases i1
          have d1 : diffInto v1.toNat m t s.fromOffset (b1.take v1.toNat) = some m1 := by
            unfold chunksInto at i1
            rw [if_pos hl1] at i1
            simpa using i1
          have htk1 : ∀ {x y : Bytes}, b1 = x ++ y → x.length = v1.toNat → x = b1.take v1.toNat ∧ y = b1.drop v1.toNat := by
            intro x y h hl
            rw [h, ← hl]
            simp
          have h2 := segmentChunks_supply L false toOffset toSize
            { reader := r1, toPos := s.toPos + v1.toNat, fromOffset := if true = true then s.fromOffset + v1.toNat else s.fromOffset } m1 _ (t + v1.toNat) o1
            (by simp only; omega)
          cases u2 : unpackSizeWithLength (b1.drop v1.toNat) with
          | error e0 =>
            rw [u2] at h2
            refine .inr ⟨fun recs rest h => ?_, FailsM.succ ?_⟩
            · obtain ⟨r, rs, c1, c2, c3, -, -, g1, -, g3, g4, -⟩ := hrec1 h
              rw [(htk1 g1 g3).2, u2] at g4
              cases g4
            · simp only [unf]; exact FailsM.bind_right w1 (FailsM.bind_left h2)
          | ok p2 =>
            obtain ⟨v2, k2, b2⟩ := p2
            rw [u2] at h2
            have s2 := unpackSizeWithLength_shorter u2
            simp only at h2
            have hrec2 : ∀ {recs rest}, Recs (toSize - s.toPos) q recs rest → ∃ r rs c2 c3, recs = r :: rs ∧ r.diff = b1.take v1.toNat ∧
                r.diff.length = v1.toNat ∧ b2 = r.extra ++ c2 ∧ v1.toNat + v2 ≤ toSize - s.toPos ∧ r.extra.length = v2.toNat ∧
                unpackSizeWithLength c2 = .ok (r.adjustment, r.adjLen, c3) ∧
                Recs (toSize - s.toPos - v1.toNat - v2.toNat) c3 rs rest := by
              intro recs rest h
              obtain ⟨r, rs, c1, c2, c3, g0, -, g1, g2, g3, g4, g5, g6, g7, g8⟩ := hrec1 h
              rw [(htk1 g1 g3).2, u2] at g4
              simp only [Except.ok.injEq, Prod.mk.injEq] at g4
              obtain ⟨e1, -, e2⟩ := g4
              rw [← e1] at g5 g6
              rw [g3] at g5 g8
              rw [g6] at g8
              exact ⟨r, rs, c2, c3, g0, (htk1 g1 g3).1, g3, e2, g5, g6, g7, g8⟩
            by_cases c2 : s.toPos + v1.toNat + v2 > toSize
            · rw [if_pos c2] at h2
              refine .inr ⟨fun recs rest h => ?_, FailsM.succ ?_⟩
              · obtain ⟨r, rs, c2, c3, -, -, -, -, g, -⟩ := hrec2 h
                omega
              · simp only [unf]; exact FailsM.bind_right w1 (FailsM.bind_left h2)
            · rw [if_neg c2] at h2
              rcases h2 with ⟨m2, r2, i2, w2, o2⟩ | ⟨i2, f2⟩
              · have hl2 : v2.toNat ≤ b2.length := by
                  unfold chunksInto at i2
                  split at i2
                  · assumption
                  · cases i2
                have d2 : fileWrite m1 (t + v1.toNat) (b2.take v2.toNat) = m2 := by
                  unfold chunksInto at i2
                  rw [if_pos hl2] at i2
                  simpa using i2
                have hu3 := PatchReader.unpackSize_supply L r2 _ o2
                cases u3 : unpackSizeWithLength (b2.drop v2.toNat) with
                | error e0 =>
                  rw [u3] at hu3
                  refine .inr ⟨fun recs rest h => ?_, FailsM.succ ?_⟩
                  · obtain ⟨r, rs, c2, c3, -, -, -, g1, -, g2, g3, -⟩ := hrec2 h
                    rw [show c2 = b2.drop v2.toNat by rw [g1, ← g2]; simp, u3] at g3
                    cases g3
                  · simp only [unf]
                    exact FailsM.bind_right w1 (FailsM.bind_right w2 (FailsM.bind_left (FailsM.lift hu3 _)))
                | ok p3 =>
                  obtain ⟨v3, k3, b3⟩ := p3
                  rw [u3] at hu3
                  obtain ⟨F3, r3, hr3, o3⟩ := hu3
                  have s3 := unpackSizeWithLength_shorter u3
                  have hb1 : (b1.drop v1.toNat).length ≤ b1.length := by simp
                  have hb2 : (b2.drop v2.toNat).length ≤ b2.length := by simp
                  have hrec3 : ∀ {recs rest}, Recs (toSize - s.toPos) q recs rest → ∃ r rs, recs = r :: rs ∧ r.diff = b1.take v1.toNat ∧
                      r.diff.length = v1.toNat ∧ r.extra = b2.take v2.toNat ∧ r.extra.length = v2.toNat ∧ r.adjustment = v3 ∧
                      Recs (toSize - s.toPos - v1.toNat - v2.toNat) b3 rs rest := by
                    intro recs rest h
                    obtain ⟨r, rs, c2, c3, g0, g1, g2, g3, -, g4, g5, g6⟩ := hrec2 h
                    have e : r.extra = b2.take v2.toNat ∧ c2 = b2.drop v2.toNat := by rw [g3, ← g4]; simp
                    rw [e.2, u3] at g5
                    simp only [Except.ok.injEq, Prod.mk.injEq] at g5
                    obtain ⟨e1, -, rfl⟩ := g5
                    exact ⟨r, rs, g0, g1, g2, e.1, g4, e1.symm, g6⟩
                  have hout : ∀ {r : Rec} {rs : List Rec}, r.diff = b1.take v1.toNat → r.diff.length = v1.toNat → r.extra = b2.take v2.toNat →
                      r.extra.length = v2.toNat → r.adjustment = v3 →
                      recsInto m t s.fromOffset (r :: rs) = recsInto m2 (t + v1.toNat + v2.toNat) (s.fromOffset + v1.toNat + v3) rs := by
                    intro r rs e1 e2 e3 e4 e5
                    simp only [recsInto]
                    rw [e2, e4, e1, e3, e5, d1]
                    simp only [Option.bind_some]
                    rw [d2]
                  have key := ih b3.length (by omega) { reader := r3, toPos := s.toPos + v1.toNat + v2.toNat, fromOffset := s.fromOffset + v1.toNat + v3 } m2 b3
                    (t + v1.toNat + v2.toNat) (Nat.le_refl _) o3 (by simp only; omega)
                  simp only at key
                  rw [show toSize - (s.toPos + (v1.toNat : Int) + (v2.toNat : Int)) = toSize - s.toPos - v1.toNat - v2.toNat by omega] at key
                  rcases key with ⟨recs, rest, m', s', e1, e2, e3, e4⟩ | ⟨e1, e2⟩
                  · left
                    let r : Rec := ⟨v1, b1.take v1.toNat, v2, b2.take v2.toNat, v3, k1, k2, k3⟩
                    have rl1 : r.diff.length = v1.toNat := by show (b1.take v1.toNat).length = _; simp; omega
                    have rl2 : r.extra.length = v2.toNat := by show (b2.take v2.toNat).length = _; simp; omega
                    refine ⟨r :: recs, rest, m', s', ?_, ?_, ?_, e4⟩
                    · refine .record (r := r) (b1 := b1.drop v1.toNat) (b2 := b2.drop v2.toNat) (b3 := b3) (by omega) ?_ ?_ rl1 ?_ ?_ rl2 u3 ?_
                      · rw [u1]; show _ = Except.ok (v1, k1, b1.take v1.toNat ++ b1.drop v1.toNat); rw [List.take_append_drop]
                      · show v1 ≤ _; omega
                      · rw [u2]; show _ = Except.ok (v2, k2, b2.take v2.toNat ++ b2.drop v2.toNat); rw [List.take_append_drop]
                      · rw [rl1]; show _ + v2 ≤ _; omega
                      · rw [rl1, rl2]; exact e1
                    · rw [hout rfl rl1 rfl rl2 rfl]; exact e2
                    · refine WorksM.succ ?_
                      simp only [unf]
                      refine WorksM.bind w1 (WorksM.bind w2 (WorksM.bind (WorksM.lift ⟨F3, hr3⟩ _) ?_))
                      simpa using e3
                  · right
                    refine ⟨fun recs rest h => ?_, FailsM.succ ?_⟩
                    · obtain ⟨r, rs, rfl, g1, g2, g3, g4, g5, g6⟩ := hrec3 h
                      rw [hout g1 g2 g3 g4 g5]
                      exact e1 _ _ g6
                    · simp only [unf]
                      refine FailsM.bind_right w1 (FailsM.bind_right w2 (FailsM.bind_right (WorksM.lift ⟨F3, hr3⟩ _) ?_))
                      simpa using e2
              · refine .inr ⟨fun recs rest h => ?_, FailsM.succ ?_⟩
                · obtain ⟨r, rs, c2, c3, -, -, -, g1, -, g2, -⟩ := hrec2 h
                  exfalso
                  unfold chunksInto at i2
                  rw [if_pos (by rw [g1, List.length_append]; omega)] at i2
                  simp at i2
                · simp only [unf]; exact FailsM.bind_right w1 (FailsM.bind_left f2)
        · refine .inr ⟨fun recs rest h => ?_, FailsM.succ ?_⟩
          · obtain ⟨r, rs, c1, c2, c3, rfl, -, g1, -, g3, -⟩ := hrec1 h
            unfold chunksInto at i1
            rw [if_pos (by rw [g1, List.length_append]; omega)] at i1
            simp only [if_true] at i1
            rw [g1, ← g3, List.take_left] at i1
            simp only [recsInto, i1, Option.bind_none]
          · simp only [unf]; exact FailsM.bind_left f1
  · left
    refine ⟨[], q, m, s, .done (by omega), rfl, ⟨0, fun fuel _ => ?_⟩, hO⟩
    cases fuel <;> simp [segmentLoop, hlt, Mem.pure]

/-! ### All segments -/

theorem SegsInto.unique {seg shift toSize : Int} : ∀ {left i : Nat} {m body m1 r1 m2 r2 : Bytes}, SegsInto seg shift toSize left i m body m1 r1 →
    SegsInto seg shift toSize left i m body m2 r2 → m1 = m2 ∧ r1 = r2 := by
  intro left i m body m1 r1 m2 r2 h
  induction h with
  | done => intro h'; cases h'; exact ⟨rfl, rfl⟩
  | segment g1 g2 g3 g4 _ ih =>
    intro h'
    cases h' with
    | segment k1 k2 k3 k4 k5 =>
      rw [g1] at k1
      cases k1
      obtain ⟨rfl, rfl⟩ := g3.unique k3
      rw [g4] at k4
      cases k4
      exact ih k5

theorem applySegments_supply {D : Decompressor} (L : Supply D) (seg shift toSize : Int) (hseg : 0 < seg) : ∀ (left i : Nat) (r : PatchReader D) (m q : Bytes),
    L.has r.st r.file q →
    (∃ m' rest r', SegsInto seg shift toSize left i m q m' rest ∧
      WorksM (fun fuel => applySegments fuel seg shift toSize left i r) m m' r' ∧ L.has r'.st r'.file rest) ∨
    ((∀ m' rest, ¬ SegsInto seg shift toSize left i m q m' rest) ∧ FailsM (fun fuel => applySegments fuel seg shift toSize left i r) m) := by
  intro left
  induction left with
  | zero => intro i r m q hO; exact .inl ⟨m, q, r, .done, ⟨0, fun _ _ => rfl⟩, hO⟩
  | succ left ih =>
    intro i r m q hO
    have hpos : 0 ≤ (i : Int) * seg := Int.mul_nonneg (by omega) (by omega)
    have hu := PatchReader.unpackSize_supply L r q hO
    have unf : ∀ fuel, applySegments fuel seg shift toSize (left + 1) i r = ((applyInPlaceSegment fuel r (i * seg) (min seg (toSize - i * seg)) (max (seg * (i + 1)) shift)) >>=
        fun reader => applySegments fuel seg shift toSize left (i + 1) reader) := fun fuel => rfl
    cases u1 : unpackSizeWithLength q with
    | error e0 =>
      rw [u1] at hu
      refine .inr ⟨fun m' rest h => ?_, ?_⟩
      · cases h with
        | segment g => rw [u1] at g; cases g
      · simp only [unf, applyInPlaceSegment]
        exact FailsM.bind_left (FailsM.bind_left (FailsM.lift hu m))
    | ok p =>
      obtain ⟨d, k, b⟩ := p
      rw [u1] at hu
      obtain ⟨F, r1, hr1, o1⟩ := hu
      by_cases hd : d > 0
      · refine .inr ⟨fun m' rest h => ?_, ?_⟩
        · cases h with
          | segment g g2 => rw [u1] at g; cases g; omega
        · simp only [unf, applyInPlaceSegment]
          refine FailsM.bind_left (FailsM.bind_right (WorksM.lift ⟨F, hr1⟩ m) ?_)
          simp only [if_pos hd]
          exact FailsM.const (by simp) m
      · have key := segmentLoop_supply L (i * seg) (min seg (toSize - i * seg)) b.length { reader := r1, toPos := 0, fromOffset := max (seg * (i + 1)) shift } m b
          (i * seg).toNat (Nat.le_refl _) o1 (by simp only; omega)
        simp only [Int.sub_zero] at key
        rcases key with ⟨recs, rest, m1, s', e1, e2, e3, e4⟩ | ⟨e1, e2⟩
        · have hseg1 : WorksM (fun fuel => applyInPlaceSegment fuel r (i * seg) (min seg (toSize - i * seg)) (max (seg * (i + 1)) shift)) m m1 s'.reader := by
            simp only [applyInPlaceSegment]
            refine WorksM.bind (WorksM.lift ⟨F, hr1⟩ m) ?_
            simp only [if_neg hd]
            exact WorksM.bind e3 (WorksM.pure _ _)
          rcases ih (i + 1) s'.reader m1 rest e4 with ⟨m', rest', r', f1, f2, f3⟩ | ⟨f1, f2⟩
          · refine .inl ⟨m', rest', r', .segment u1 (by omega) e1 e2 f1, ?_, f3⟩
            simp only [unf]
            exact WorksM.bind hseg1 f2
          · refine .inr ⟨fun m' rest' h => ?_, ?_⟩
            · cases h with
              | segment g1 g2 g3 g4 g5 =>
                rw [u1] at g1
                cases g1
                obtain ⟨rfl, rfl⟩ := e1.unique g3
                rw [e2] at g4
                cases g4
                exact f1 _ _ g5
            · simp only [unf]
              exact FailsM.bind_right hseg1 f2
        · refine .inr ⟨fun m' rest' h => ?_, ?_⟩
          · cases h with
            | segment g1 g2 g3 g4 g5 =>
              rw [u1] at g1
              cases g1
              rw [e1 _ _ g3] at g4
              cases g4
          · simp only [unf, applyInPlaceSegment]
            refine FailsM.bind_left (FailsM.bind_right (WorksM.lift ⟨F, hr1⟩ m) ?_)
            simp only [if_neg hd]
            exact FailsM.bind_left e2

/-! ### The whole patch -/

/-- The number of segments. -/
theorem rangeLength_eq (toSize seg : Int) (hs : seg ≠ 0) :
    rangeLength toSize seg = if seg < 0 then 0 else ((toSize + seg - 1) / seg).toNat := by
  unfold rangeLength divCeil
  by_cases h : seg < 0
  · rw [if_pos h, if_pos h]
  · rw [if_neg h, if_neg h, Int.fdiv_eq_ediv_of_nonneg _ (by omega)]

theorem bodyInPlace_supply (codec : PyCodec) (L : Supply codec.decomp) (h : InPlaceHeader) (rest q m : Bytes)
    (hO : L.has (codec.initDecomp rest.length) rest q) :
    (∃ m' r st file, (h.memorySize ≤ m.length ∧ 0 ≤ h.shiftSize ∧ h.segmentSize ≠ 0) ∧
      SegsInto h.segmentSize h.shiftSize h.toSize (if h.segmentSize < 0 then 0 else ((h.toSize + h.segmentSize - 1) / h.segmentSize).toNat) 0
        (moved m h.memorySize h.shiftSize h.fromSize) q m' r ∧ L.has st file r ∧
      ∃ F, ∀ fuel, F ≤ fuel → applyInPlaceBody codec fuel h rest m =
        (m', if codec.decomp.eof st then .ok h.toSize else .error (.error "End of patch not found."))) ∨
    ((∀ m' r, (h.memorySize ≤ m.length ∧ 0 ≤ h.shiftSize ∧ h.segmentSize ≠ 0) →
      ¬ SegsInto h.segmentSize h.shiftSize h.toSize (if h.segmentSize < 0 then 0 else ((h.toSize + h.segmentSize - 1) / h.segmentSize).toNat) 0
        (moved m h.memorySize h.shiftSize h.fromSize) q m' r) ∧
      FailsM (fun fuel => applyInPlaceBody codec fuel h rest) m) := by
  by_cases h1 : (m.length : Int) < h.memorySize
  · refine .inr ⟨fun m' r hc => absurd hc.1 (by omega), ?_⟩
    unfold applyInPlaceBody
    refine FailsM.bind_left ⟨0, m, .error "Expected memory size of at least ...", by simp, fun fuel _ => ?_⟩
    simp only [shiftMemory, if_pos h1]
  · by_cases h2 : h.shiftSize < 0
    · refine .inr ⟨fun m' r hc => absurd hc.2.1 (by omega), ?_⟩
      unfold applyInPlaceBody
      refine FailsM.bind_left ⟨0, m, .builtin "OSError", by simp, fun fuel _ => ?_⟩
      simp only [shiftMemory, if_neg h1, Mem.writeAt, if_pos h2]
    · have hsm : WorksM (fun _ => shiftMemory h.memorySize h.shiftSize h.fromSize) m (moved m h.memorySize h.shiftSize h.fromSize) () := by
        refine ⟨0, fun _ _ => ?_⟩
        simp only [shiftMemory, if_neg h1, Mem.writeAt, if_neg h2, moved]
      by_cases h3 : h.segmentSize = 0
      · refine .inr ⟨fun m' r hc => absurd h3 hc.2.2, ?_⟩
        unfold applyInPlaceBody
        refine FailsM.bind_right hsm ?_
        simp only [if_pos h3]
        exact FailsM.const (by simp) _
      · have key : (∃ m' r r', SegsInto h.segmentSize h.shiftSize h.toSize (rangeLength h.toSize h.segmentSize) 0
              (moved m h.memorySize h.shiftSize h.fromSize) q m' r ∧
              WorksM (fun fuel => applySegments fuel h.segmentSize h.shiftSize h.toSize (rangeLength h.toSize h.segmentSize) 0
                ({ st := codec.initDecomp rest.length, file := rest } : PatchReader codec.decomp)) (moved m h.memorySize h.shiftSize h.fromSize) m' r' ∧
              L.has r'.st r'.file r) ∨
            ((∀ m' r, ¬ SegsInto h.segmentSize h.shiftSize h.toSize (rangeLength h.toSize h.segmentSize) 0
              (moved m h.memorySize h.shiftSize h.fromSize) q m' r) ∧
              FailsM (fun fuel => applySegments fuel h.segmentSize h.shiftSize h.toSize (rangeLength h.toSize h.segmentSize) 0
                ({ st := codec.initDecomp rest.length, file := rest } : PatchReader codec.decomp)) (moved m h.memorySize h.shiftSize h.fromSize)) := by
          by_cases h4 : h.segmentSize < 0
          · have : rangeLength h.toSize h.segmentSize = 0 := by rw [rangeLength_eq _ _ h3, if_pos h4]
            rw [this]
            exact .inl ⟨_, _, _, .done, ⟨0, fun _ _ => rfl⟩, hO⟩
          · exact applySegments_supply L _ _ _ (by omega) _ 0 _ _ q hO
        rw [rangeLength_eq _ _ h3] at key
        rcases key with ⟨m', r, r', k1, ⟨F, k2⟩, k3⟩ | ⟨k1, k2⟩
        · refine .inl ⟨m', r, r'.st, r'.file, ⟨by omega, by omega, h3⟩, k1, k3, F, fun fuel hf => ?_⟩
          unfold applyInPlaceBody
          obtain ⟨F0, hsm⟩ := hsm
          rw [Mem.bind_ok (hsm F0 (Nat.le_refl _))]
          simp only [if_neg h3]
          have k2' := k2 fuel hf
          simp only at k2'
          rw [rangeLength_eq _ _ h3, Mem.bind_ok k2']
          cases codec.decomp.eof r'.st <;> rfl
        · refine .inr ⟨fun m' r _ => k1 m' r, ?_⟩
          unfold applyInPlaceBody
          refine FailsM.bind_right hsm ?_
          simp only [if_neg h3, rangeLength_eq _ _ h3]
          exact FailsM.bind_left k2

theorem unpackHeader_eq (b : UInt8) : unpackHeader b = (b.toNat / 16 % 8, b.toNat % 16) := by
  unfold unpackHeader
  have e1 : b.toNat >>> 4 = b.toNat / 16 := by rw [Nat.shiftRight_eq_div_pow]
  have e2 : ∀ n : Nat, n &&& 7 = n % 8 := fun n => Nat.and_two_pow_sub_one_eq_mod n 3
  have e3 : ∀ n : Nat, n &&& 15 = n % 16 := fun n => Nat.and_two_pow_sub_one_eq_mod n 4
  rw [e1, e2, e3]

theorem convertCompression_iff (n : Nat) (c : Compression) : convertCompression n = .ok c ↔ n = c.toNumber := by
  match n with
  | 0 => cases c <;> simp [convertCompression, Compression.toNumber]
  | 1 => cases c <;> simp [convertCompression, Compression.toNumber]
  | 2 => cases c <;> simp [convertCompression, Compression.toNumber]
  | 3 => cases c <;> simp [convertCompression, Compression.toNumber]
  | 4 => cases c <;> simp [convertCompression, Compression.toNumber]
  | 5 => cases c <;> simp [convertCompression, Compression.toNumber]
  | 6 => cases c <;> simp [convertCompression, Compression.toNumber]
  | n + 7 => cases c <;> simp [convertCompression, Compression.toNumber]

theorem unpackSize_iff (t : Bytes) (v : Int) (r : Bytes) : unpackSize t = .ok (v, r) ↔ ∃ n, unpackSizeWithLength t = .ok (v, n, r) := by
  simp only [unpackSize, bind, Except.bind, pure, Except.pure]
  cases unpackSizeWithLength t with
  | error e => simp
  | ok p => obtain ⟨a, b, c⟩ := p; simp

theorem Except.bind_ok_iff {x : Except ε α} {f : α → Except ε β} {b : β} : (x >>= f) = .ok b ↔ ∃ a, x = .ok a ∧ f a = .ok b := by
  cases x <;> simp [bind, Except.bind]

theorem readHeaderInPlace_iff (patch : Bytes) (h : InPlaceHeader) (rest : Bytes) :
    readHeaderInPlace patch = .ok (h, rest) ↔
      InPlaceHead patch h.compression.toNumber h.memorySize h.segmentSize h.shiftSize h.fromSize h.toSize rest := by
  have hlt : h.compression.toNumber ≤ 6 := by cases h.compression <;> decide
  unfold readHeaderInPlace InPlaceHead
  cases patch with
  | nil => simp
  | cons b t =>
    simp only [unpackHeader_eq]
    by_cases ht : b.toNat / 16 % 8 = PATCH_TYPE_IN_PLACE
    · rw [if_neg (by simp [ht])]
      simp only [Except.bind_ok_iff, convertCompression_iff, Prod.exists, unpackSize_iff, pure, Except.pure, Except.ok.injEq, Prod.mk.injEq]
      constructor
      · rintro ⟨c, hc, v0, t1, ⟨n0, u0⟩, v1, t2, ⟨n1, u1⟩, v2, t3, ⟨n2, u2⟩, v3, t4, ⟨n3, u3⟩, v4, t5, ⟨n4, u4⟩, rfl, rfl⟩
        exact ⟨b, t, t1, t2, t3, t4, n0, n1, n2, n3, n4, rfl, ht, hc, hlt, u0, u1, u2, u3, u4⟩
      · rintro ⟨b', t0, t1, t2, t3, t4, n0, n1, n2, n3, n4, h1, h2, h3, h4, u0, u1, u2, u3, u4⟩
        simp only [List.cons.injEq] at h1
        obtain ⟨rfl, rfl⟩ := h1
        exact ⟨_, h3, _, _, ⟨_, u0⟩, _, _, ⟨_, u1⟩, _, _, ⟨_, u2⟩, _, _, ⟨_, u3⟩, _, _, ⟨_, u4⟩, rfl, rfl⟩
    · rw [if_pos ht]
      constructor
      · intro h; cases h
      · rintro ⟨b', t0, t1, t2, t3, t4, n0, n1, n2, n3, n4, h1, h2, _⟩
        simp only [List.cons.injEq] at h1
        obtain ⟨rfl, rfl⟩ := h1
        exact absurd h2 ht

theorem unpackSize_not_timeout {t : Bytes} {e} (h : unpackSize t = .error e) : e ≠ .timeout := by
  rintro rfl
  have key : ∀ (t : Bytes) (v o : Nat), Detools.unpackLoop v o t ≠ .error .timeout := by
    intro t
    induction t with
    | nil => intro v o; simp [Detools.unpackLoop]
    | cons b t ih => intro v o; simp only [Detools.unpackLoop]; split; exact ih _ _; simp
  cases t with
  | nil => simp [unpackSize, unpackSizeWithLength, bind, Except.bind] at h
  | cons b t =>
    simp only [unpackSize, unpackSizeWithLength, bind, Except.bind, pure, Except.pure] at h
    split at h
    · next hu =>
      split at hu
      · split at hu
        · next hh => cases h; cases hu; exact key _ _ _ hh
        · cases hu
      · cases hu
    · cases h

theorem Except.bind_error_iff {x : Except ε α} {f : α → Except ε β} {e : ε} : (x >>= f) = .error e ↔ x = .error e ∨ ∃ a, x = .ok a ∧ f a = .error e := by
  cases x <;> simp [bind, Except.bind]

theorem readHeaderInPlace_not_timeout {patch : Bytes} {e} (h : readHeaderInPlace patch = .error e) : e ≠ .timeout := by
  unfold readHeaderInPlace at h
  cases patch with
  | nil => cases h; simp
  | cons b t =>
    simp only at h
    split at h
    · cases h; simp
    · simp only [Except.bind_error_iff, Prod.exists] at h
      rcases h with h | ⟨c, -, h⟩
      · unfold convertCompression at h
        rintro rfl
        split at h <;> cases h
      rcases h with h | ⟨_, _, -, h⟩
      · exact unpackSize_not_timeout h
      rcases h with h | ⟨_, _, -, h⟩
      · exact unpackSize_not_timeout h
      rcases h with h | ⟨_, _, -, h⟩
      · exact unpackSize_not_timeout h
      rcases h with h | ⟨_, _, -, h⟩
      · exact unpackSize_not_timeout h
      rcases h with h | ⟨_, _, -, h⟩
      · exact unpackSize_not_timeout h
      · cases h

/-! ### Patches cut short -/

/-- Whatever the memories: segments that are complete have no complete prefix. -/
theorem SegsInto.not_prefix {seg shift toSize : Int} {z : Bytes} : ∀ {left i : Nat} {m q m1 m2 m2' r2 : Bytes}, SegsInto seg shift toSize left i m (q ++ z) m1 [] →
    SegsInto seg shift toSize left i m2 q m2' r2 → z = [] := by
  intro left
  induction left with
  | zero =>
    intro i m q m1 m2 m2' r2 h1 h2
    have : q ++ z = [] := by
      generalize q ++ z = x at h1
      cases h1
      rfl
    exact (List.append_eq_nil_iff.1 this).2
  | succ left ih =>
    intro i m q m1 m2 m2' r2 h1 h2
    cases h2 with
    | segment k1 k2 k3 k4 k5 =>
      generalize hx : q ++ z = x at h1
      cases h1 with
      | segment g1 g2 g3 g4 g5 =>
        have := unpackSizeWithLength_append k1 z
        rw [hx, g1] at this
        cases this
        obtain ⟨rfl, hr⟩ := g3.unique (k3.append z)
        rw [hr] at g5
        exact ih g5 k5

/-- The body of a created patch is complete. -/
theorem created_segments (fr to : Bytes) (seg shift : Nat) (hseg : 0 < seg) (hpos : 0 < to.length) (opss : List (List Op))
    (g2 : opss.length = (to.length + seg - 1) / seg) (g3 : SegOps fr to seg shift 0 opss) :
    ∃ m m', SegsInto seg shift to.length ((((to.length : Int) + seg - 1) / seg).toNat) 0 m (encodeSegments opss) m' [] := by
  obtain ⟨F, r', h1, h2⟩ := applySegments_ok noneLossless.toDelivers fr to (List.replicate shift 0 ++ fr) seg shift hseg opss 0
    { st := noneCodec.initDecomp (encodeSegments opss).length, file := encodeSegments opss } [] g3
    (by
      have := Holds.written (List.replicate shift 0) shift fr
      have e : fileWrite (List.replicate shift 0) shift fr = List.replicate shift 0 ++ fr := by
        unfold fileWrite
        by_cases h : fr = []
        · simp [h]
        · simp [h]
      rwa [e] at this)
    (by rw [List.append_nil]; exact ⟨rfl, rfl⟩)
  have hn : ((((to.length : Int) + seg - 1) / seg).toNat) = opss.length := by
    rw [g2, show (to.length : Int) + seg - 1 = ((to.length + seg - 1 : Nat) : Int) by omega, ← Int.natCast_ediv, Int.toNat_natCast]
  rw [hn]
  rcases applySegments_supply noneLossless.toDelivers.supply seg shift to.length (by omega) opss.length 0
    { st := noneCodec.initDecomp (encodeSegments opss).length, file := encodeSegments opss } (fileWrite (List.replicate shift 0 ++ fr) 0 (to.take (0 * seg)))
    (encodeSegments opss) ⟨rfl, rfl⟩ with ⟨m', rest, r'', k1, ⟨F', k2⟩, k3⟩ | ⟨_, F', m', e, _, k2⟩
  · have a := h1 (max F F') (by omega)
    have b := k2 (max F F') (by omega)
    simp only at b
    rw [a] at b
    cases b
    have : rest = [] := by
      have e1 : noneLossless.toDelivers.owes r'.st r'.file rest := k3
      have hne := noneLossless.toDelivers.eof_iff h2
      exact (noneLossless.toDelivers.eof_iff e1).1 (hne.2 rfl)
    subst this
    exact ⟨_, _, k1⟩
  · exfalso
    have a := h1 (max F F') (by omega)
    have b := k2 (max F F') (by omega)
    simp only at b
    rw [a] at b
    cases b

/-- A body cut short is rejected, whatever the memory. -/
theorem bodyInPlace_cut (codec : PyCodec) (L : Supply codec.decomp) (c : Compression) (memory shift from_ : Int) (seg sh : Nat) (hsh : shift = sh) (fr to : Bytes)
    (hseg : 0 < seg) (hpos : 0 < to.length) (opss : List (List Op))
    (g2 : opss.length = (to.length + seg - 1) / seg) (g3 : SegOps fr to seg sh 0 opss) (rest q lost m : Bytes)
    (hq : encodeSegments opss = q ++ lost) (hlost : lost ≠ []) (hO : L.has (codec.initDecomp rest.length) rest q) :
    FailsM (fun fuel => applyInPlaceBody codec fuel ⟨c, memory, seg, shift, from_, to.length⟩ rest) m := by
  subst hsh
  obtain ⟨m1, m1', h1⟩ := created_segments fr to seg sh hseg hpos opss g2 g3
  rw [hq] at h1
  rcases bodyInPlace_supply codec L ⟨c, memory, seg, sh, from_, to.length⟩ rest q m hO with ⟨m', r, st, file, hc, k1, _⟩ | ⟨_, k⟩
  · simp only at k1
    rw [if_neg (by omega)] at k1
    exact absurd (h1.not_prefix k1) hlost
  · exact k

/-- A header cut short cannot be read. -/
theorem headerInPlace_cut (c : Compression) (v0 v1 v2 v3 v4 : Int) (p z : Bytes)
    (h : packHeader PATCH_TYPE_IN_PLACE c.toNumber ++ packSize v0 ++ packSize v1 ++ packSize v2 ++ packSize v3 ++ packSize v4 = p ++ z) (hz : z ≠ []) :
    ∃ e, readHeaderInPlace p = .error e := by
  cases hr : readHeaderInPlace p with
  | error e => exact ⟨e, rfl⟩
  | ok v =>
    exfalso
    obtain ⟨hd, rest⟩ := v
    rw [readHeaderInPlace_iff] at hr
    obtain ⟨b, t0, t1, t2, t3, t4, n0, n1, n2, n3, n4, rfl, _, _, _, u0, u1, u2, u3, u4⟩ := hr
    simp only [packHeader, List.append_assoc, List.cons_append, List.nil_append, List.cons.injEq] at h
    have w0 := unpackSizeWithLength_append u0 z
    rw [← h.2, unpackSizeWithLength_packSize] at w0
    simp only [Except.ok.injEq, Prod.mk.injEq] at w0
    have w1 := unpackSizeWithLength_append u1 z
    rw [← w0.2.2, unpackSizeWithLength_packSize] at w1
    simp only [Except.ok.injEq, Prod.mk.injEq] at w1
    have w2 := unpackSizeWithLength_append u2 z
    rw [← w1.2.2, unpackSizeWithLength_packSize] at w2
    simp only [Except.ok.injEq, Prod.mk.injEq] at w2
    have w3 := unpackSizeWithLength_append u3 z
    rw [← w2.2.2, unpackSizeWithLength_packSize] at w3
    simp only [Except.ok.injEq, Prod.mk.injEq] at w3
    have w4 := unpackSizeWithLength_append u4 z
    rw [← w3.2.2, ← List.append_nil (packSize v4), unpackSizeWithLength_packSize] at w4
    simp only [Except.ok.injEq, Prod.mk.injEq] at w4
    have := w4.2.2
    rw [eq_comm, List.append_eq_nil_iff] at this
    exact hz this.2

theorem applyInPlace_fails_header (lib : Lib) {p : Bytes} {e} (m : Bytes) (h : readHeaderInPlace p = .error e) :
    FailsM (fun fuel => applyInPlace lib fuel p) m := by
  unfold applyInPlace
  rw [h]
  exact FailsM.bind_left (FailsM.const (readHeaderInPlace_not_timeout h) _)

theorem applyInPlace_read (lib : Lib) {p : Bytes} {h : InPlaceHeader} {rest : Bytes} (fuel : Nat) (m : Bytes) (hr : readHeaderInPlace p = .ok (h, rest)) :
    applyInPlace lib fuel p m = if h.toSize > 0 then applyInPlaceBody (lib.codecOf h.compression) fuel h rest m else (m, .ok h.toSize) := by
  unfold applyInPlace
  rw [hr, Mem.lift_bind_ok]
  show (if h.toSize > 0 then _ else _ : Mem Int) m = _
  by_cases hp : h.toSize > 0
  · rw [if_pos hp, if_pos hp]
  · rw [if_neg hp, if_neg hp]; rfl

/-! ### Codecs that detect incomplete streams -/

section
variable {D : Decompressor} (inc : Incomplete D)

theorem Mem.bind_res_ok {x : Mem α} {f : α → Mem β} {b : β} {m m' : Bytes} (h : (x >>= f) m = (m', .ok b)) :
    ∃ m1 a, x m = (m1, .ok a) ∧ f a m1 = (m', .ok b) := by
  rw [Mem.bind_eq] at h
  unfold Mem.bind at h
  split at h
  · cases h
  · next m1 a ha => exact ⟨m1, a, ha, h⟩

theorem segmentChunkLoop_incomplete (diff : Bool) (toOffset : Int) : ∀ (fuel left : Nat) (s s' : SegState D) (m m' : Bytes),
    inc.I s.reader.st s.reader.file → segmentChunkLoop diff toOffset fuel left s m = (m', .ok s') → inc.I s'.reader.st s'.reader.file := by
  intro fuel
  induction fuel with
  | zero =>
    intro left s s' m m' hI h
    unfold segmentChunkLoop at h
    split at h
    · cases h; exact hI
    · cases h
  | succ fuel ih =>
    intro left s s' m m' hI h
    unfold segmentChunkLoop at h
    split at h
    · cases h; exact hI
    · obtain ⟨m1, ⟨pd, r1⟩, h1, h⟩ := Mem.bind_res_ok h
      have hI1 := PatchReader.loop_incomplete inc _ _ _ _ _ _ hI (congrArg Prod.snd h1)
      obtain ⟨m2, d, _, h⟩ := Mem.bind_res_ok h
      obtain ⟨m3, _, _, h⟩ := Mem.bind_res_ok h
      exact ih _ _ _ _ _ (by exact hI1) h

theorem segmentChunks_incomplete {fuel diff toOffset toSize} {s s' : SegState D} {m m' : Bytes} (hI : inc.I s.reader.st s.reader.file)
    (h : segmentChunks fuel diff toOffset toSize s m = (m', .ok s')) : inc.I s'.reader.st s'.reader.file := by
  unfold segmentChunks at h
  obtain ⟨m1, ⟨v, r⟩, h1, h⟩ := Mem.bind_res_ok h
  have hI1 := PatchReader.unpackSize_incomplete inc hI (congrArg Prod.snd h1)
  simp only at h
  split at h
  · cases h
  · exact segmentChunkLoop_incomplete inc _ _ _ _ _ _ _ _ (by exact hI1) h

theorem segmentLoop_incomplete (toOffset toSize : Int) : ∀ (fuel : Nat) (s s' : SegState D) (m m' : Bytes), inc.I s.reader.st s.reader.file →
    segmentLoop fuel toOffset toSize s m = (m', .ok s') → inc.I s'.reader.st s'.reader.file := by
  intro fuel
  induction fuel with
  | zero =>
    intro s s' m m' hI h
    unfold segmentLoop at h
    split at h
    · cases h
    · cases h; exact hI
  | succ fuel ih =>
    intro s s' m m' hI h
    unfold segmentLoop at h
    split at h
    · obtain ⟨m1, s1, h1, h⟩ := Mem.bind_res_ok h
      have hI1 := segmentChunks_incomplete inc hI h1
      obtain ⟨m2, s2, h2, h⟩ := Mem.bind_res_ok h
      have hI2 := segmentChunks_incomplete inc hI1 h2
      obtain ⟨m3, ⟨v, r3⟩, h3, h⟩ := Mem.bind_res_ok h
      have hI3 := PatchReader.unpackSize_incomplete inc hI2 (congrArg Prod.snd h3)
      exact ih _ _ _ _ (by exact hI3) h
    · cases h; exact hI

theorem applySegments_incomplete (fuel : Nat) (seg shift toSize : Int) : ∀ (left i : Nat) (r r' : PatchReader D) (m m' : Bytes), inc.I r.st r.file →
    applySegments fuel seg shift toSize left i r m = (m', .ok r') → inc.I r'.st r'.file := by
  intro left
  induction left with
  | zero => intro i r r' m m' hI h; unfold applySegments at h; cases h; exact hI
  | succ left ih =>
    intro i r r' m m' hI h
    unfold applySegments at h
    obtain ⟨m1, r1, h1, h⟩ := Mem.bind_res_ok h
    refine ih _ _ _ _ _ ?_ h
    unfold applyInPlaceSegment at h1
    obtain ⟨m2, ⟨v, r2⟩, h2, h1⟩ := Mem.bind_res_ok h1
    have hI2 := PatchReader.unpackSize_incomplete inc hI (congrArg Prod.snd h2)
    simp only at h1
    split at h1
    · cases h1
    · obtain ⟨m3, s3, h3, h1⟩ := Mem.bind_res_ok h1
      have hI3 := segmentLoop_incomplete inc _ _ _ _ _ _ _ (by exact hI2) h3
      cases h1
      exact hI3
end

theorem bodyInPlace_incomplete (codec : PyCodec) (inc : Incomplete codec.decomp) (fuel : Nat) (h : InPlaceHeader) (rest m m' : Bytes) (n : Int)
    (hI : inc.I (codec.initDecomp rest.length) rest) : applyInPlaceBody codec fuel h rest m ≠ (m', .ok n) := by
  intro hr
  unfold applyInPlaceBody at hr
  obtain ⟨m1, _, _, hr⟩ := Mem.bind_res_ok hr
  split at hr
  · cases hr
  · obtain ⟨m2, r2, h2, hr⟩ := Mem.bind_res_ok hr
    have hI2 := applySegments_incomplete inc _ _ _ _ _ _ _ _ _ _ (by exact hI) h2
    rw [inc.noEof hI2] at hr
    cases hr

end Detools
