import Verif.Model.CBase
/-
Model of the SA-IS suffix array construction. detools/sais/sais.c,
detools/suffix_array.c.

The text is a list of characters, the suffix array a list of integers; an access outside
of either is undefined behaviour. Simplifications common to all definitions:

* Where sais.c stores the arrays of counts (`c_p`), bucket positions (`b_p`), marks
  (`d_p`) and the reduced text (`ra_p`) in the unused end of the suffix array they are
  separate lists here. The regions do not overlap those in use (C51_layout); the names are
  copied to `ra_p` in place. If `c_p` and `b_p` are the same array sais.c counts again
  whenever it needs the counts; here the counts are kept.
* `b2_p` caches `sa_p + b_p[c1]`; here `b_p` is updated directly.
* The elements of the suffix array are 32 bits: storing a value outside that range is
  undefined behaviour (the computation of the value is, in sais.c). Counts, bucket
  positions and names are natural numbers without bounds, as none is greater than n + 1; so
  are marks, as the number of marks grows by at most one in each of the 2n + 1 steps.
* An index that would become negative is undefined behaviour (`dec`).
* Allocations do not fail. Assertions are not modelled.
-/
namespace Detools

namespace Sais

/-- Read an element of an array. -/
def rd {α : Type} (a : List α) (i : Nat) : C α :=
  match a[i]? with
  | some v => .ok v
  | none => .error .oob

/-- Write an element of an array. -/
def wr {α : Type} (a : List α) (i : Nat) (v : α) : C (List α) :=
  if i < a.length then .ok (a.set i v) else .error .oob

/-- Whether a value fits in an `int32_t`; `negSucc n` is `-n - 1`. -/
def fits32 : Int → Bool
  | .ofNat n => decide (n ≤ 2147483647)
  | .negSucc n => decide (n ≤ 2147483647)

/-- Write an element of the suffix array, of type `int32_t`. -/
def st (a : List Int) (i : Nat) (v : Int) : C (List Int) :=
  if fits32 v then wr a i v else .error .overflow

/-- `--i` where `i` is used as an index afterwards. -/
def dec : Nat → C Nat
  | 0 => .error .oob
  | i + 1 => .ok i

/-- Write an element of the suffix array if a condition holds. -/
def stIf (c : Bool) (a : List Int) (i : Nat) (v : Int) : C (List Int) :=
  if c then st a i v else .ok a

/-- Write an element of an array if a condition holds. -/
def wrIf {α : Type} (c : Bool) (a : List α) (i : Nat) (v : α) : C (List α) :=
  if c then wr a i v else .ok a

/-- `~j`. -/
def inv (j : Int) : Int := -j - 1

/-- `get_counts`. detools/sais/sais.c:50-65. -/
def countsLoop : List Nat → List Nat → C (List Nat)
  | [], c => .ok c
  | x :: xs, c => do
    let v ← rd c x
    let c ← wr c x (v + 1)
    countsLoop xs c

/-- `get_counts`. detools/sais/sais.c:50-65. -/
def getCounts (t : List Nat) (k : Nat) : C (List Nat) := countsLoop t (List.replicate k 0)

/-- `get_buckets` with `end` set: the end of each bucket. detools/sais/sais.c:67-88. -/
def bucketEnds : Nat → List Nat → List Nat
  | _, [] => []
  | sum, c :: cs => (sum + c) :: bucketEnds (sum + c) cs

/-- `get_buckets` with `end` not set: the start of each bucket. detools/sais/sais.c:67-88. -/
def bucketStarts : Nat → List Nat → List Nat
  | _, [] => []
  | sum, c :: cs => sum :: bucketStarts (sum + c) cs

/-- The suffix array and the bucket positions. -/
structure SaB where
  sa : List Int
  b : List Nat

/-! ### Left-most S positions -/

/-- The nested loops that find the left-most S (LMS) positions from right to left, which
sais.c contains three times: detools/sais/sais.c:571-597, 204-220 and 689-708. `i + 1` is the
current position, `c1` its character, and `s` is set in the loop over characters of type S.
The result is the positions `i + 1` for which the body of `if (0 <= i)` is executed, in that
order. -/
def lmsScan (t : List Nat) : (i : Nat) → (c1 : Nat) → (s : Bool) → C (List Nat)
  | 0, _, _ => .ok []
  | i + 1, c1, s => do
    let c0 ← rd t i
    if s then
      if c0 ≤ c1 then lmsScan t i c0 true
      else do
        let rest ← lmsScan t i c0 false
        .ok ((i + 1) :: rest)
    else if c1 ≤ c0 then lmsScan t i c0 false
    else lmsScan t i c0 true

/-- All LMS positions, from right to left. -/
def lmsPositions (t : List Nat) : C (List Nat) := do
  let c0 ← rd t (t.length - 1)
  lmsScan t (t.length - 1) c0 false

/-- Where the last LMS position found is to be stored (`b`), and its value less one (`j`). -/
structure Pending where
  slot : Option Nat
  j : Nat

/-- `*b = j`. detools/sais/sais.c:587. -/
def storePending (sa : List Int) (pend : Pending) : C (List Int) :=
  match pend.slot with
  | none => .ok sa
  | some q => st sa q pend.j

/-- The bodies of the loops of stage 1: each LMS position, less one, is stored in its bucket
when the next one is found. The first store goes to `t`, a variable that is not used.
detools/sais/sais.c:586-590. -/
def placeLms (t : List Nat) : List Nat → SaB → Pending → C (SaB × Pending)
  | [], s, pend => .ok (s, pend)
  | p :: ps, s, pend => do
    let sa ← storePending s.sa pend
    let c1 ← rd t p
    let e ← rd s.b c1
    let e ← dec e
    let b ← wr s.b c1 e
    placeLms t ps ⟨sa, b⟩ ⟨some e, p - 1⟩

/-! ### Sorting LMS substrings, first way -/

/-- One step of the first loop of `lms_sort_1`. detools/sais/sais.c:115-132. -/
def sort1LStep (t : List Nat) (i : Nat) (s : SaB) : C SaB := do
  let j ← rd s.sa i
  if 0 < j then do
    let c0 ← rd t j.toNat
    let i2 ← dec j.toNat
    let c2 ← rd t i2
    let q ← rd s.b c0
    let sa ← st s.sa q (if c2 < c0 then inv (j - 1) else j - 1)
    let b ← wr s.b c0 (q + 1)
    let sa ← wr sa i 0
    .ok ⟨sa, b⟩
  else if j < 0 then do
    let sa ← st s.sa i (inv j)
    .ok ⟨sa, s.b⟩
  else .ok s

/-- A loop over `i`, `i + 1`, ..., `i + todo - 1`. -/
def upLoop {σ : Type} (step : Nat → σ → C σ) : (todo i : Nat) → σ → C σ
  | 0, _, s => .ok s
  | todo + 1, i, s => do
    let s ← step i s
    upLoop step todo (i + 1) s

/-- A loop over `i - 1`, ..., `0`. -/
def downLoop {σ : Type} (step : Nat → σ → C σ) : (i : Nat) → σ → C σ
  | 0, s => .ok s
  | i + 1, s => do
    let s ← step i s
    downLoop step i s

/-- One step of the second loop of `lms_sort_1`. detools/sais/sais.c:141-155. -/
def sort1SStep (t : List Nat) (i : Nat) (s : SaB) : C SaB := do
  let j ← rd s.sa i
  if 0 < j then do
    let c0 ← rd t j.toNat
    let i2 ← dec j.toNat
    let c2 ← rd t i2
    let q ← rd s.b c0
    let q ← dec q
    let b ← wr s.b c0 q
    let sa ← st s.sa q (if c0 < c2 then inv j else j - 1)
    let sa ← wr sa i 0
    .ok ⟨sa, b⟩
  else .ok s

/-- `lms_sort_1`. detools/sais/sais.c:91-156. -/
def lmsSort1 (t c : List Nat) (sa : List Int) : C (List Int) := do
  let n := t.length
  let b := bucketStarts 0 c
  let c1 ← rd t (n - 1)
  let q ← rd b c1
  let c2 ← rd t (n - 2)
  let sa ← st sa q (if c2 < c1 then inv ((n - 2 : Nat) : Int) else ((n - 2 : Nat) : Int))
  let b ← wr b c1 (q + 1)
  let s ← upLoop (sort1LStep t) n 0 ⟨sa, b⟩
  let s ← downLoop (sort1SStep t) n ⟨s.sa, bucketEnds 0 c⟩
  .ok s.sa

/-! ### Names, first way -/

/-- The entries below `i` are in place; the first loop of `lms_postproc_1` from there on.
`todo` is the number of elements of the array from `i` on. detools/sais/sais.c:179-182. -/
def compactHead : (todo i : Nat) → List Int → C (Nat × List Int)
  | 0, _, _ => .error .oob
  | todo + 1, i, sa => do
    let p ← rd sa i
    if p < 0 then do
      let sa ← st sa i (inv p)
      compactHead todo (i + 1) sa
    else .ok (i, sa)

/-- The second loop of `lms_postproc_1`. `todo` is the number of elements of the array from
`i` on. detools/sais/sais.c:184-197. -/
def compactTail (m : Nat) : (todo i j : Nat) → List Int → C (List Int)
  | 0, _, _, _ => .error .oob
  | todo + 1, i, j, sa => do
    let p ← rd sa i
    if p < 0 then do
      let sa ← st sa j (inv p)
      let sa ← wr sa i 0
      if j + 1 = m then .ok sa else compactTail m todo (i + 1) (j + 1) sa
    else compactTail m todo (i + 1) j sa

/-- Compaction of the sorted substrings into the first `m` elements.
detools/sais/sais.c:175-197 and, with the marks, 359-392. -/
def compact (m : Nat) (sa : List Int) : C (List Int) := do
  let (i, sa) ← compactHead sa.length 0 sa
  if i < m then compactTail m (sa.length - (i + 1)) (i + 1) i sa else .ok sa

/-- Store the length of all substrings. detools/sais/sais.c:199-220. -/
def storeLengths (m : Nat) : List Nat → (j : Nat) → List Int → C (List Int)
  | [], _, sa => .ok sa
  | p :: ps, j, sa => do
    let sa ← st sa (m + p / 2) ((j : Int) - (p - 1 : Nat))
    storeLengths m ps p sa

/-- The comparison of two substrings of length `len`. detools/sais/sais.c:227-231. -/
def sameChars (t : List Nat) : (len p q : Nat) → C Bool
  | 0, _, _ => .ok true
  | len + 1, p, q => do
    let a ← rd t p
    let b ← rd t q
    if a = b then sameChars t len (p + 1) (q + 1) else .ok false

/-- Whether the substring at `p` is the one at `q`. detools/sais/sais.c:226-235. -/
def sameSubstring (t : List Nat) (p q : Nat) (plen qlen : Int) : C Bool :=
  if plen = qlen ∧ (q : Int) + plen < t.length then sameChars t plen.toNat p q else .ok false

/-- Find the names of all substrings, from the `i`th in order on. `todo` are left. The result
is the number of names. detools/sais/sais.c:222-243. -/
def nameLoop (t : List Nat) (m : Nat) : (todo i name q qlen : Nat) → List Int → C (List Int × Nat)
  | 0, _, name, _, _, sa => .ok (sa, name)
  | todo + 1, i, name, q, qlen, sa => do
    let p ← rd sa i
    let plen ← rd sa (m + p.toNat / 2)
    let same ← sameSubstring t p.toNat q plen qlen
    if same then do
      let sa ← st sa (m + p.toNat / 2) name
      nameLoop t m todo (i + 1) name q qlen sa
    else do
      let sa ← st sa (m + p.toNat / 2) ((name + 1 : Nat) : Int)
      nameLoop t m todo (i + 1) (name + 1) p.toNat plen.toNat sa

/-- `lms_postproc_1`. detools/sais/sais.c:158-244. -/
def lmsPostproc1 (t : List Nat) (lms : List Nat) (sa : List Int) : C (List Int × Nat) := do
  let m := lms.length
  let sa ← compact m sa
  let sa ← storeLengths m lms (t.length - 1) sa
  nameLoop t m m 0 0 t.length 0 sa

/-! ### Sorting LMS substrings, second way -/

/-- `lms_sort_2` and its state: the marks and the number of different substrings so far. -/
structure SaBD where
  sa : List Int
  b : List Nat
  d : List Nat
  cur : Nat

/-- Mark the entry `b` if the bucket has an LMS position. detools/sais/sais.c:626-630. -/
def markAt (n : Nat) (c : Bool) (b : Nat) (sa : List Int) : C (List Int) :=
  if c then do
    let v ← rd sa b
    st sa b (v + n)
  else .ok sa

/-- Mark the first LMS position of each bucket, for the buckets from `i` on; `sum` is the end
of bucket `i - 1`. detools/sais/sais.c:622-631. -/
def markFirst (n : Nat) : (c b : List Nat) → (sum : Nat) → List Int → C (List Int)
  | [], _, _, sa => .ok sa
  | _ :: _, [], _, _ => .error .oob
  | c :: cs, b :: bs, sum, sa => do
    let sa ← markAt n (b ≠ sum + c) b sa
    markFirst n cs bs (sum + c) sa

/-- One step of the first loop of `lms_sort_2`. detools/sais/sais.c:274-302. -/
def sort2LStep (t : List Nat) (i : Nat) (s : SaBD) : C SaBD := do
  let n : Int := t.length
  let j ← rd s.sa i
  if 0 < j then do
    let cur := if n ≤ j then s.cur + 1 else s.cur
    let j := if n ≤ j then j - n else j
    let c0 ← rd t j.toNat
    let i2 ← dec j.toNat
    let c2 ← rd t i2
    let q ← rd s.b c0
    let x := 2 * c0 + (if c2 < c0 then 1 else 0)
    let seen ← rd s.d x
    let j := if seen ≠ cur then j - 1 + n else j - 1
    let d ← wrIf (seen ≠ cur) s.d x cur
    let sa ← st s.sa q (if c2 < c0 then inv j else j)
    let b ← wr s.b c0 (q + 1)
    let sa ← wr sa i 0
    .ok ⟨sa, b, d, cur⟩
  else if j < 0 then do
    let sa ← st s.sa i (inv j)
    .ok { s with sa }
  else .ok s

/-- The search for the marked entry of a group. detools/sais/sais.c:309. The loop starts
below `i`; below the array it would leave it. -/
def findMarked (n : Int) (sa : List Int) : (i : Nat) → C Nat
  | 0 => .error .oob
  | i + 1 => do
    let v ← rd sa i
    if v < n then findMarked n sa i else .ok i

/-- Move the mark of each group from its first to its last entry. `fuel` bounds the number
of steps; `i` is the number of entries left. detools/sais/sais.c:304-315. -/
def moveMarks (n : Int) : (fuel i : Nat) → List Int → C (List Int)
  | _, 0, sa => .ok sa
  | 0, _ + 1, _ => .error .timeout
  | fuel + 1, i + 1, sa => do
    let v ← rd sa i
    if 0 < v ∧ v < n then do
      let sa ← st sa i (v + n)
      let j ← findMarked n sa i
      let u ← rd sa j
      let sa ← st sa j (u - n)
      moveMarks n fuel j sa
    else moveMarks n fuel i sa

/-- One step of the last loop of `lms_sort_2`. detools/sais/sais.c:320-347. -/
def sort2SStep (t : List Nat) (i : Nat) (s : SaBD) : C SaBD := do
  let n : Int := t.length
  let j ← rd s.sa i
  if 0 < j then do
    let cur := if n ≤ j then s.cur + 1 else s.cur
    let j := if n ≤ j then j - n else j
    let c0 ← rd t j.toNat
    let i2 ← dec j.toNat
    let c2 ← rd t i2
    let q ← rd s.b c0
    let q ← dec q
    let b ← wr s.b c0 q
    let x := 2 * c0 + (if c0 < c2 then 1 else 0)
    let seen ← rd s.d x
    let j := if seen ≠ cur then j - 1 + n else j - 1
    let d ← wrIf (seen ≠ cur) s.d x cur
    let sa ← st s.sa q (if c0 < c2 then inv (j + 1) else j)
    let sa ← wr sa i 0
    .ok ⟨sa, b, d, cur⟩
  else .ok s

/-- `lms_sort_2`. detools/sais/sais.c:246-348. -/
def lmsSort2 (t c d : List Nat) (sa : List Int) : C (List Int) := do
  let n := t.length
  let b := bucketStarts 0 c
  let c1 ← rd t (n - 1)
  let q ← rd b c1
  let c2 ← rd t (n - 2)
  let j : Int := (n - 2 : Nat) + n
  let sa ← st sa q (if c2 < c1 then inv j else j)
  let b ← wr b c1 (q + 1)
  let s ← upLoop (sort2LStep t) n 0 ⟨sa, b, d, 0⟩
  let sa ← moveMarks n (n + 1) n s.sa
  let s ← downLoop (sort2SStep t) n ⟨sa, bucketEnds 0 c, s.d, s.cur + 1⟩
  .ok s.sa

/-! ### Names, second way -/

/-- Store the names, from the `i - 1`th substring in order to the first; `d` is the name of
the `i`th. detools/sais/sais.c:394-403. -/
def storeNames (n : Int) (m : Nat) : (i d : Nat) → List Int → C (List Int)
  | 0, _, sa => .ok sa
  | i + 1, d, sa => do
    let j ← rd sa i
    let d' := if n ≤ j then d - 1 else d
    let j := if n ≤ j then j - n else j
    let sa ← st sa (m + j.toNat / 2) (d' : Nat)
    storeNames n m i d' sa

/-- Remove the marks. detools/sais/sais.c:405-411. -/
def unmark (n : Int) : (todo i : Nat) → List Int → C (List Int)
  | 0, _, sa => .ok sa
  | todo + 1, i, sa => do
    let j ← rd sa i
    let sa ← stIf (n ≤ j) sa i (j - n)
    unmark n todo (i + 1) sa

/-- `lms_postproc_2`. detools/sais/sais.c:350-415. sais.c counts the marked entries while it
compacts them; here they are counted afterwards. -/
def lmsPostproc2 (n : Int) (m : Nat) (sa : List Int) : C (List Int × Nat) := do
  let sa ← compact m sa
  let name := (sa.take m).countP (fun j => n ≤ j)
  if name < m then do
    let sa ← storeNames n m m (name + 1) sa
    .ok (sa, name)
  else do
    let sa ← unmark n m 0 sa
    .ok (sa, name)

/-! ### The suffix array from the sorted LMS suffixes -/

/-- Zero the elements `q`, ..., `j - 1`. detools/sais/sais.c:744-746 and 758-760. -/
def zeroDown (q : Nat) : (j : Nat) → List Int → C (List Int)
  | 0, sa => .ok sa
  | j + 1, sa => if q ≤ j then do
      let sa ← wr sa j 0
      zeroDown q j sa
    else .ok sa

/-- Put the sorted LMS suffixes, which are in the first `i` elements, into their buckets; the
elements from `j` on are done, and `c0` is the bucket of the last suffix put in place.
detools/sais/sais.c:733-761. -/
def placeSorted (t b : List Nat) : (i j : Nat) → (c0 : Option Nat) → List Int → C (List Int)
  | 0, j, _, sa => zeroDown 0 j sa
  | i + 1, j, c0, sa => do
    let p ← rd sa i
    let c1 ← rd t p.toNat
    let q ← rd b c1
    if c0 = some c1 then do
      let j ← dec j
      let sa ← st sa j p
      placeSorted t b i j (some c1) sa
    else do
      let sa ← zeroDown q j sa
      let j ← dec (min q j)
      let sa ← st sa j p
      placeSorted t b i j (some c1) sa

/-- `(0 < j) && (chr(j - 1) < c1)`. detools/sais/sais.c:440 and 456. -/
def smallerBefore (t : List Nat) (x c : Nat) : C Bool :=
  if 0 < x then do
    let c2 ← rd t (x - 1)
    .ok (decide (c2 < c))
  else .ok false

/-- `(j == 0) || (chr(j - 1) > c1)`. detools/sais/sais.c:478. -/
def largerBefore (t : List Nat) (x c : Nat) : C Bool :=
  if x = 0 then .ok true else do
    let c2 ← rd t (x - 1)
    .ok (decide (c < c2))

/-- One step of the first loop of `induce_sa`. detools/sais/sais.c:442-458. -/
def induceLStep (t : List Nat) (i : Nat) (s : SaB) : C SaB := do
  let j ← rd s.sa i
  let sa ← st s.sa i (inv j)
  if 0 < j then do
    let x := j.toNat - 1
    let c0 ← rd t x
    let q ← rd s.b c0
    let pred ← smallerBefore t x c0
    let sa ← st sa q (if pred then inv x else x)
    let b ← wr s.b c0 (q + 1)
    .ok ⟨sa, b⟩
  else .ok ⟨sa, s.b⟩

/-- One step of the second loop of `induce_sa`. detools/sais/sais.c:467-482. -/
def induceSStep (t : List Nat) (i : Nat) (s : SaB) : C SaB := do
  let j ← rd s.sa i
  if 0 < j then do
    let x := j.toNat - 1
    let c0 ← rd t x
    let q ← rd s.b c0
    let q ← dec q
    let b ← wr s.b c0 q
    let pred ← largerBefore t x c0
    let sa ← st s.sa q (if pred then inv x else x)
    .ok ⟨sa, b⟩
  else do
    let sa ← st s.sa i (inv j)
    .ok ⟨sa, s.b⟩

/-- `induce_sa`. detools/sais/sais.c:418-483. -/
def induceSa (t c : List Nat) (sa : List Int) : C (List Int) := do
  let n := t.length
  let b := bucketStarts 0 c
  let c1 ← rd t (n - 1)
  let q ← rd b c1
  let pred ← smallerBefore t (n - 1) c1
  let sa ← st sa q (if pred then inv ((n - 1 : Nat) : Int) else ((n - 1 : Nat) : Int))
  let b ← wr b c1 (q + 1)
  let s ← upLoop (induceLStep t) n 0 ⟨sa, b⟩
  let s ← downLoop (induceSStep t) n ⟨s.sa, bucketEnds 0 c⟩
  .ok s.sa

/-! ### The whole algorithm -/

/-- `flags`, a `Bool` for each bit. -/
structure Flags where
  f1 : Bool := false
  f2 : Bool := false
  f4 : Bool := false
  f8 : Bool := false
  f16 : Bool := false
  f32 : Bool := false
deriving DecidableEq, Repr

/-- Where the counts and the bucket positions are kept; `MINBUCKETSIZE` is 256. `fs` is the
number of free elements after the suffix array. detools/sais/sais.c:512-550. -/
def bucketFlags (k fs : Nat) : Flags :=
  if k ≤ 256 then
    if k ≤ fs then { f1 := true } else { f1 := true, f2 := true }
  else if k ≤ fs then
    if k ≤ fs - k then {}
    else if k ≤ 1024 then { f2 := true }
    else { f8 := true }
  else { f4 := true, f8 := true }

/-- `flags` in stage 1: whether the second way to sort LMS substrings is used, and where its
marks are kept. `SAIS_LMSSORT2_LIMIT` is 0x3fffffff. detools/sais/sais.c:552-560. -/
def saisFlags (n k fs : Nat) : Flags :=
  let f := bucketFlags k fs
  if n ≤ 0x3fffffff ∧ 2 ≤ n / k then
    if f.f1 then
      if (k : Int) * 2 ≤ fs - k then { f with f32 := true } else { f with f16 := true }
    else if f = {} ∧ (k : Int) * 2 ≤ fs - k * 2 then { f with f32 := true }
    else f
  else f

/-- `flags & (16 | 32)`. detools/sais/sais.c:600. -/
def useSort2 (n k fs : Nat) : Bool := (saisFlags n k fs).f16 || (saisFlags n k fs).f32

/-- Whether the counts in the free elements are kept there while the reduced problem is
solved. detools/sais/sais.c:660-666. -/
def keepCounts (n k fs m name : Nat) : Bool :=
  let f := saisFlags n k fs
  !f.f1 && !f.f4 && !f.f8 && decide (k + name ≤ n + fs - 2 * m)

/-- `newfs`: the number of free elements for the reduced problem.
detools/sais/sais.c:658-666. -/
def newFs (n k fs m name : Nat) : Nat :=
  if keepCounts n k fs m name then n + fs - 2 * m - k else n + fs - 2 * m

/-- Where `c_p` starts in the suffix array and its free elements; `none` if it is on the heap.
detools/sais/sais.c:512-550. -/
def cAt (n k fs : Nat) : Option Nat :=
  let f := saisFlags n k fs
  if f.f1 || f.f4 then none else some (n + fs - k)

/-- Where `b_p` starts in the suffix array and its free elements; `none` if it is on the heap.
detools/sais/sais.c:512-550. -/
def bAt (n k fs : Nat) : Option Nat :=
  let f := saisFlags n k fs
  if f.f2 || f.f4 then none
  else if f.f1 || f.f8 then some (n + fs - k)
  else some (n + fs - k - k)

/-- Whether `b_p` is `c_p`. detools/sais/sais.c:512-550. -/
def bIsC (n k fs : Nat) : Bool := (saisFlags n k fs).f8

/-- Where `d_p` starts in the suffix array and its free elements; `none` if it is on the heap
or not used. detools/sais/sais.c:600-617. -/
def dAt (n k fs : Nat) : Option Nat :=
  if (saisFlags n k fs).f32 then (bAt n k fs).map fun b => b - 2 * k else none

/-- Copy the names to the `m` elements from `base` on, starting from 0, from the last name to
the first. `todo` elements from `m` on are left, and `j` names. detools/sais/sais.c:671-675. -/
def copyNames (m base : Nat) : (todo j : Nat) → List Int → C (List Int)
  | 0, _, mem => .ok mem
  | todo + 1, j, mem => do
    let v ← rd mem (m + todo)
    if v ≠ 0 then do
      let j ← dec j
      let mem ← st mem (base + j) (v - 1)
      copyNames m base todo j mem
    else copyNames m base todo j mem

/-- The reduced text (`ra_p`), made in the memory of the suffix array and its `fs` free
elements, which it is copied from. detools/sais/sais.c:668-675. -/
def reducedText (n m fs newfs : Nat) (sa : List Int) : C (List Nat) := do
  let mem ← copyNames m (m + newfs) (n / 2) m (sa ++ List.replicate fs 0)
  .ok (((mem.drop (m + newfs)).take m).map Int.toNat)

/-- The elements of `pos` selected by `idx`. detools/sais/sais.c:710-712. -/
def lookup (pos : List Nat) : List Int → C (List Int)
  | [] => .ok []
  | i :: is => do
    let p ← rd pos i.toNat
    let rest ← lookup pos is
    .ok ((p : Int) :: rest)

/-- Stage 1 of `sais_main`: the sorted LMS substrings and the number of names.
detools/sais/sais.c:562-645. -/
def stage1 (t c lms : List Nat) (two : Bool) : C (List Int × Nat) := do
  let n := t.length
  let m := lms.length
  let (s, pend) ← placeLms t lms ⟨List.replicate n 0, bucketEnds 0 c⟩ ⟨none, n⟩
  if 1 < m then
    if two then do
      let c1 ← rd t (pend.j + 1)
      let e ← rd s.b c1
      let b ← wr s.b c1 (e + 1)
      let sa ← markFirst n c b 0 s.sa
      let sa ← lmsSort2 t c (List.replicate (2 * c.length) 0) sa
      lmsPostproc2 n m sa
    else do
      let sa ← lmsSort1 t c s.sa
      lmsPostproc1 t lms sa
  else if m = 1 then
    match pend.slot with
    | none => .error .oob
    | some q => do
      let sa ← st s.sa q ((pend.j + 1 : Nat) : Int)
      .ok (sa, 1)
  else .ok (s.sa, 0)

/-- Stage 2 of `sais_main` if there are equal names: `sub` is the suffix array of the reduced
text. detools/sais/sais.c:677-712. -/
def sortNames (m : Nat) (lms : List Nat) (sub sa : List Int) : C (List Int) := do
  let sorted ← lookup lms.reverse sub
  .ok (sorted ++ sa.drop m)

/-- Stage 3 of `sais_main`. detools/sais/sais.c:722-771. -/
def stage3 (t c : List Nat) (m : Nat) (sa : List Int) : C (List Int) :=
  if 1 < m then do
    let sa ← placeSorted t (bucketEnds 0 c) m t.length none sa
    induceSa t c sa
  else induceSa t c sa

/-- `sais_main`. detools/sais/sais.c:486-775. The elements after the sorted LMS suffixes are
what the reduced problem left in them; they are all overwritten, and are left unchanged
here. -/
def saisMain : (fuel : Nat) → (t : List Nat) → (k fs : Nat) → C (List Int)
  | 0, _, _, _ => .error .timeout
  | fuel + 1, t, k, fs => do
    let n := t.length
    let c ← getCounts t k
    let lms ← lmsPositions t
    let m := lms.length
    let (sa, name) ← stage1 t c lms (useSort2 n k fs)
    if name < m then do
      let newfs := newFs n k fs m name
      let text ← reducedText n m fs newfs sa
      let sub ← saisMain fuel text name newfs
      let sa ← sortNames m lms sub sa
      stage3 t c m sa
    else stage3 t c m sa

end Sais

open Sais in
/-- `sais`. detools/sais/sais.c:777-792. The arguments are not null and the length fits in 32
bits (`saisArray` below). -/
def sais (data : Bytes) : C (List Int) :=
  if data.length ≤ 1 then .ok (List.replicate data.length 0)
  else saisMain data.length (data.map UInt8.toNat) 256 0

/-- `suffix_array.sais`: the position after the data, then the result of `sais`. A length of
2 GiB or more does not fit in the `int32_t` it is cast to: what happens then is not modelled.
detools/suffix_array.c:39-93. -/
def saisArray (data : Bytes) : C (List Nat) := if 2 ^ 31 ≤ data.length then .error .overflow else do
  let sa ← sais data
  .ok (data.length :: sa.map Int.toNat)

end Detools
