import Verif.Model.CSequential
/-
Proof device: the meaning of a decompressing reader feeding a byte consumer, one
input byte at a time, independent of how the input is cut into chunks.
-/
namespace Detools


/-- What a reader delivers: a byte, or the end of an empty CRLE segment. -/
inductive Tok where
  | byte (b : UInt8)
  | zero
deriving DecidableEq

/-- A consumer of tokens. -/
structure Sink where
  A : Type
  step : A → Tok → A
  done : A → Prop

def Sink.steps (S : Sink) (a : S.A) (ts : List Tok) : S.A := ts.foldl S.step a

@[simp] theorem Sink.steps_nil (S : Sink) (a : S.A) : S.steps a [] = a := rfl
@[simp] theorem Sink.steps_cons (S : Sink) (a : S.A) (t) (ts) :
    S.steps a (t :: ts) = S.steps (S.step a t) ts := rfl
theorem Sink.steps_append (S : Sink) (a : S.A) (ts us) :
    S.steps a (ts ++ us) = S.steps (S.steps a ts) us := by simp [Sink.steps]

def byteCount : List Tok → Nat
  | [] => 0
  | .byte _ :: ts => byteCount ts + 1
  | .zero :: ts => byteCount ts

/-- The consumer is not done before `n` more bytes. -/
def Hungry (S : Sink) (n : Nat) (a : S.A) : Prop :=
  ∀ ts, byteCount ts < n → ¬ S.done (S.steps a ts)

/-- The consumer never gets done. -/
def Never (S : Sink) (a : S.A) : Prop := ∀ ts, ¬ S.done (S.steps a ts)

theorem Never.hungry {S : Sink} {a : S.A} (h : Never S a) (n) : Hungry S n a := fun ts _ => h ts

theorem Hungry.notDone {S : Sink} {n} {a : S.A} (h : Hungry S n a) (hn : 0 < n) : ¬ S.done a :=
  h [] (by simpa [byteCount] using hn)

theorem Hungry.mono {S : Sink} {n m} {a : S.A} (h : Hungry S n a) (hm : m ≤ n) : Hungry S m a :=
  fun ts ht => h ts (by omega)

theorem Hungry.byte {S : Sink} {n} {a : S.A} (h : Hungry S (n + 1) a) (b) :
    Hungry S n (S.step a (.byte b)) :=
  fun ts ht => h (.byte b :: ts) (by simp only [byteCount]; omega)

theorem Hungry.zero {S : Sink} {n} {a : S.A} (h : Hungry S n a) :
    Hungry S n (S.step a .zero) :=
  fun ts ht => h (.zero :: ts) (by simpa only [byteCount] using ht)

theorem Never.step {S : Sink} {a : S.A} (h : Never S a) (t) : Never S (S.step a t) :=
  fun ts => h (t :: ts)

theorem Hungry.one {S : Sink} {a : S.A} (h : ¬ S.done a) (hz : Never S (S.step a .zero)) : Hungry S 1 a := by
  intro ts ht
  cases ts with
  | nil => exact h
  | cons t ts =>
    cases t with
    | byte b => simp [byteCount] at ht
    | zero => exact hz ts

/-- Reader states: the C reader and a token taken from the input but not yet
delivered. -/
abbrev RState := CReader × Option Tok

/-- `unpack_usize` on its first byte. -/
def USize.start (u : USize) : USize :=
  match u.state with
  | .first => { state := .consecutive, value := 0, offset := 0 }
  | .consecutive => u

/-- Canonical form of a CRLE state. -/
def CCrle.norm : CCrle → CCrle
  | .scatteredSize u => .scatteredSize u.start
  | .repeatedRepetitions u => .repeatedRepetitions u.start
  | s => s

/-- The reader state of a C reader. -/
def CReader.abs : CReader → RState
  | .crle s => (.crle s.norm, none)
  | r => (r, none)

/-- One byte of a size in the CRLE stream. -/
def usizeByte (u : USize) (byte : UInt8) : Option (USize × Option Nat) :=
  if isOverflow u.offset then none
  else
    match orShift u.value byte u.offset with
    | .error _ => none
    | .ok v =>
      let u := { u with value := v, offset := u.offset + 7 }
      if byte &&& 0x80 ≠ 0 then some (u, none) else some (u, some u.value)

/-- Deliver a token without input. -/
def rNext : RState → Option (Tok × RState)
  | (r, some t) => some (t, (r, none))
  | (.crle (.repeatedDataRead v left), none) =>
    if left = 0 then some (.zero, (.crle .idle, none))
    else some (.byte v, (.crle (if left - 1 = 0 then .idle else .repeatedDataRead v (left - 1)), none))
  | (.heatshrink (some h), none) =>
    match hsPoll hsStatic h 1 with
    | .ok (h', [b]) => some (.byte b, (.heatshrink (some h'), none))
    | _ => none
  | (_, none) => none

def crleIdleFeed (b : UInt8) : Option CCrle :=
  if b = 0 then some (.scatteredSize ({} : USize).start)
  else if b = 1 then some (.repeatedRepetitions ({} : USize).start)
  else none

/-- Take one byte of input (when nothing can be delivered). -/
def rFeed : RState → UInt8 → Option RState
  | (.raw p o, _), b => if o + 1 ≤ p then some (.raw p (o + 1), some (.byte b)) else none
  | (.lzma _, _), _ => none
  | (.crle .idle, _), b => (crleIdleFeed b).map (fun s => (.crle s, none))
  | (.crle (.scatteredSize u), _), b =>
    match usizeByte u b with
    | none => none
    | some (u, none) => some (.crle (.scatteredSize u), none)
    | some (_, some v) => some (.crle (.scatteredData v), none)
  | (.crle (.scatteredData left), _), b =>
    if left = 0 then (crleIdleFeed b).map (fun s => (.crle s, some .zero))
    else some (.crle (if left - 1 = 0 then .idle else .scatteredData (left - 1)), some (.byte b))
  | (.crle (.repeatedRepetitions u), _), b =>
    match usizeByte u b with
    | none => none
    | some (u, none) => some (.crle (.repeatedRepetitions u), none)
    | some (_, some v) => some (.crle (.repeatedData v), none)
  | (.crle (.repeatedData left), _), b => some (.crle (.repeatedDataRead b left), none)
  | (.crle (.repeatedDataRead _ _), _), _ => none
  | (.heatshrink none, _), b =>
    if hsHeader b = (hsStatic.window, hsStatic.lookahead) then some (.heatshrink (some (hsReset hsStatic)), none)
    else none
  | (.heatshrink (some h), _), b =>
    match hsPoll hsStatic h 1 with
    | .ok (h, []) =>
      match hsSink hsStatic h [b] with
      | .ok (1, h) => some (.heatshrink (some h), none)
      | _ => none
    | _ => none

/-- The stream is accepted: the consumer gets done with result `res`, and the reader
then agrees to be destroyed. -/
inductive Succ (S : Sink) : RState → S.A → Bytes → S.A → Prop
  | done {r a x} : S.done a → r.1.destroy = 0 → Succ S r a x a
  | next {r a x t r' res} : ¬ S.done a → rNext r = some (t, r') →
      Succ S r' (S.step a t) x res → Succ S r a x res
  | feed {r a b x r' res} : ¬ S.done a → rNext r = none → rFeed r b = some r' →
      Succ S r' a x res → Succ S r a (b :: x) res

theorem succ_done {S : Sink} {r a x res} (h : S.done a) :
    Succ S r a x res ↔ res = a ∧ r.1.destroy = 0 := by
  constructor
  · intro hs
    cases hs with
    | done _ h2 => exact ⟨rfl, h2⟩
    | next h1 => exact absurd h h1
    | feed h1 => exact absurd h h1
  · rintro ⟨rfl, h2⟩
    exact .done h h2

theorem succ_next {S : Sink} {r a x res t r'} (h : ¬ S.done a) (hn : rNext r = some (t, r')) :
    Succ S r a x res ↔ Succ S r' (S.step a t) x res := by
  constructor
  · intro hs
    cases hs with
    | done h1 => exact absurd h1 h
    | next _ h2 h3 =>
      rw [hn] at h2
      cases h2
      exact h3
    | feed _ h2 => rw [hn] at h2; cases h2
  · exact .next h hn

theorem succ_nil {S : Sink} {r a res} (h : ¬ S.done a) (hn : rNext r = none) :
    ¬ Succ S r a [] res := by
  intro hs
  cases hs with
  | done h1 => exact h h1
  | next _ h2 => rw [hn] at h2; cases h2

theorem succ_cons {S : Sink} {r a b x res} (h : ¬ S.done a) (hn : rNext r = none) :
    Succ S r a (b :: x) res ↔ ∃ r', rFeed r b = some r' ∧ Succ S r' a x res := by
  constructor
  · intro hs
    cases hs with
    | done h1 => exact absurd h1 h
    | next _ h2 => rw [hn] at h2; cases h2
    | feed _ _ h3 h4 => exact ⟨_, h3, h4⟩
  · rintro ⟨r', h1, h2⟩
    exact .feed h hn h1 h2

theorem succ_feed {S : Sink} {r a b x res r'} (h : ¬ S.done a) (hn : rNext r = none) (hf : rFeed r b = some r') :
    Succ S r a (b :: x) res ↔ Succ S r' a x res := by
  rw [succ_cons h hn]
  constructor
  · rintro ⟨r'', h1, h2⟩
    rw [hf] at h1
    cases h1
    exact h2
  · exact fun h => ⟨_, hf, h⟩

theorem succ_feed_none {S : Sink} {r a b x res} (h : ¬ S.done a) (hn : rNext r = none) (hf : rFeed r b = none) :
    ¬ Succ S r a (b :: x) res := by
  rw [succ_cons h hn]
  rintro ⟨r'', h1, _⟩
  rw [hf] at h1
  cases h1

theorem Never.not_succ {S : Sink} {r a x res} (h : Never S a) : ¬ Succ S r a x res := by
  intro hs
  induction hs with
  | done h1 => exact h [] h1
  | next _ _ _ ih => exact ih (h.step _)
  | feed _ _ _ _ ih => exact ih h

theorem Succ.isDone {S : Sink} {r a x res} (h : Succ S r a x res) : S.done res := by
  induction h with
  | done h1 => exact h1
  | next _ _ _ ih => exact ih
  | feed _ _ _ _ ih => exact ih

theorem Succ.unique {S : Sink} {r a x res res'} (h : Succ S r a x res) (h' : Succ S r a x res') : res = res' := by
  induction h with
  | done h1 => exact ((succ_done h1).1 h').1.symm
  | next h1 h2 _ ih => exact ih ((succ_next h1 h2).1 h')
  | feed h1 h2 h3 _ ih => exact ih ((succ_feed h1 h2 h3).1 h')

/-! Chunks. -/

/-- The unread part of a chunk. -/
def Chunk.rest (c : Chunk) : Bytes := c.buf.drop c.offset

/-- The offset is inside the chunk. -/
def Chunk.Inv (c : Chunk) : Prop := c.offset ≤ c.buf.length

theorem Chunk.left_eq {c : Chunk} (h : c.Inv) : c.left = c.rest.length := by
  unfold Chunk.Inv at h
  simp [Chunk.left, Chunk.rest, h]

theorem Chunk.available_eq {c : Chunk} (h : c.Inv) : c.available = !c.rest.isEmpty := by
  rw [Chunk.available, c.left_eq h]
  cases c.rest <;> simp

theorem Chunk.get_nil {c : Chunk} (h : c.Inv) (hr : c.rest = []) : c.get = .ok none := by
  simp [Chunk.get, c.available_eq h, hr]

theorem Chunk.get_cons {c : Chunk} (h : c.Inv) {b t} (hr : c.rest = b :: t) :
    c.get = .ok (some (b, { c with offset := c.offset + 1 })) ∧
      ({ c with offset := c.offset + 1 } : Chunk).rest = t ∧
      ({ c with offset := c.offset + 1 } : Chunk).Inv := by
  have hl : c.rest.length = t.length + 1 := by rw [hr]; rfl
  have hb : c.buf[c.offset]? = some b := by
    have : (c.buf.drop c.offset)[0]? = some b := by
      have : c.buf.drop c.offset = b :: t := hr
      rw [this]; rfl
    simpa using this
  refine ⟨?_, ?_, ?_⟩
  · simp [Chunk.get, c.available_eq h, hr, Chunk.getNoCheck, hb, Bind.bind, Except.bind, Pure.pure, Except.pure]
  · have : c.buf.drop c.offset = b :: t := hr
    show c.buf.drop (c.offset + 1) = t
    rw [← List.drop_drop, this]
    rfl
  · have : c.rest.length = c.buf.length - c.offset := by simp [Chunk.rest]
    show c.offset + 1 ≤ c.buf.length
    omega

theorem Chunk.read_nil {c : Chunk} (h : c.Inv) (hr : c.rest = []) (cap n) : c.read cap n = .ok none := by
  simp [Chunk.read, c.available_eq h, hr]

theorem Chunk.read_cons {c : Chunk} (h : c.Inv) (hr : c.rest ≠ []) {cap n} (hn : n ≤ cap) :
    ∃ c', c.read cap n = .ok (some (c.rest.take n, c')) ∧ c'.rest = c.rest.drop n ∧ c'.Inv := by
  have hl := c.left_eq h
  have hlen : c.rest.length = c.buf.length - c.offset := by simp [Chunk.rest]
  unfold Chunk.Inv at h
  refine ⟨{ c with offset := c.offset + min n c.left }, ?_, ?_, ?_⟩
  · have ha : c.available = true := by
      rw [c.available_eq h]
      cases hc : c.rest with
      | nil => exact absurd hc hr
      | cons => rfl
    have hb : ¬ (cap < min n c.left ∨ c.buf.length < c.offset + min n c.left) := by omega
    have ht : (c.buf.drop c.offset).take (min n c.left) = c.rest.take n := by
      rw [hl]
      show c.rest.take (min n c.rest.length) = _
      rw [List.take_eq_take_iff]
      omega
    simp [Chunk.read, ha, Chunk.readAllNoCheck, hb, ht, Bind.bind, Except.bind, Pure.pure, Except.pure]
  · show c.buf.drop (c.offset + min n c.left) = _
    rw [← List.drop_drop, hl]
    show c.rest.drop _ = _
    by_cases h' : n ≤ c.rest.length
    · rw [Nat.min_eq_left h']
    · rw [Nat.min_eq_right (by omega), List.drop_of_length_le (by omega), List.drop_of_length_le (by omega)]
  · show c.offset + min n c.left ≤ c.buf.length
    omega

end Detools
