import Verif.Model.SsMerge
/-
Model of `trsort`, which sorts the B* suffixes by the names of the B* substrings.
detools/libdivsufsort/trsort.c.inc.h, divsufsort_private.h.

The array is given in two parts: `SA`, the first `n` elements, and `ISA`, the `n` elements that
follow, which are natural numbers, the ranks. What follows is not touched: the model reports as
undefined an access to it, or to the wrong one of the two. The pointers into `SA` are indices,
and the pointer `ISAd` is `d`, where `ISAd` is `ISA + d`. Simplifications common to all
definitions:

* No value is stored but an index, one that was in an array, or its complement, so stores are
  not checked for overflow. The budget is not either: `remain` is at most `incval`, which is
  `n`, and `count` is a number of elements of `SA`.
* The integers in `lg_table` are computed.
* Assertions are not modelled, but a push on a full stack is the outcome `stack`.
* A loop that reads an element after a condition on an index has been changed to a recursion on
  how many elements are left.
-/
namespace Detools

namespace Dss

namespace Tr
open Sais

/-- `ISAd[*p]`, where `p` is the index `i` and `ISAd` is `ISA + d`. -/
def keyAt (isa : List Nat) (d : Nat) (a : List Int) (i : Nat) : C Nat := do
  let r ← getNo a i
  rd isa (r + d)

/-- `do { *(b + 1) = *b; } while((first <= --b) && (*b < 0))`; `j` is `b + 1`.
trsort.c.inc.h:85. -/
def insShift (first : Nat) : (j : Nat) → List Int → C (Nat × List Int)
  | 0, _ => .error .oob
  | j + 1, a => do
    let v ← rd a j
    let a ← wr a (j + 1) v
    if first < j then
      let w ← rd a (j - 1)
      if w < 0 then insShift first j a else .ok (j, a)
    else .ok (j, a)

/-- The search for the place of the number `v`: the last comparison, `b + 1` and the array; `j`
is `b + 1`. trsort.c.inc.h:84-87. -/
def insInner (isa : List Nat) (d first v : Nat) : (fuel j : Nat) → List Int → C (Int × Nat × List Int)
  | 0, _, _ => .error .timeout
  | fuel + 1, j, a => do
    let x ← rd isa (v + d)
    let y ← keyAt isa d a (j - 1)
    if x < y then
      let (j, a) ← insShift first j a
      if j ≤ first then .ok ((x : Int) - y, j, a) else insInner isa d first v fuel j a
    else .ok ((x : Int) - y, j, a)

/-- The insertion of the element at `i`. trsort.c.inc.h:84-89. -/
def insStep (isa : List Nat) (d first i : Nat) (a : List Int) : C (List Int) := do
  let v ← getNo a i
  let (r, j, a) ← insInner isa d first v (i + 1) i a
  let a ← invIf (decide (r = 0)) (j - 1) a
  wr a j v

/-- `tr_insertionsort`. trsort.c.inc.h:77-91. -/
def trInsertionsort (isa : List Nat) (d first last : Nat) (a : List Int) : C (List Int) :=
  upLoop (insStep isa d first) (last - (first + 1)) (first + 1) a

/-- The loop of `tr_fixdown`, for the array that starts at index `o`: a number `v` with
rank `c` goes down from `i`. trsort.c.inc.h:103-107. -/
def fixdownLoop (isa : List Nat) (d o size : Nat) (v : Int) (c : Nat) : (fuel i : Nat) → List Int → C (List Int)
  | 0, _, _ => .error .timeout
  | fuel + 1, i, a =>
    if 2 * i + 1 < size then do
      let x ← keyAt isa d a (o + (2 * i + 1))
      let y ← keyAt isa d a (o + (2 * i + 2))
      let k := if x < y then 2 * i + 2 else 2 * i + 1
      let x := if x < y then y else x
      if x ≤ c then wr a (o + i) v
      else
        let w ← rd a (o + k)
        let a ← wr a (o + i) w
        fixdownLoop isa d o size v c fuel k a
    else wr a (o + i) v

/-- `tr_fixdown`. trsort.c.inc.h:96-109. -/
def trFixdown (isa : List Nat) (d o i size : Nat) (a : List Int) : C (List Int) := do
  let v ← rd a (o + i)
  let c ← keyAt isa d a (o + i)
  fixdownLoop isa d o size v c (size + 1) i a

/-- `if(ISAd[SA[m / 2]] < ISAd[SA[m]]) { SWAP(SA[m], SA[m / 2]); }` if the size is even.
trsort.c.inc.h:119-122. -/
def heapEven (isa : List Nat) (d o size m : Nat) (a : List Int) : C (List Int) :=
  if size % 2 = 0 then do
    let x ← keyAt isa d a (o + m / 2)
    let y ← keyAt isa d a (o + m)
    if x < y then swapAt (o + m) (o + m / 2) a else .ok a
  else .ok a

/-- `if((size % 2) == 0) { SWAP(SA[0], SA[m]); tr_fixdown(ISAd, SA, 0, m); }`.
trsort.c.inc.h:125. -/
def heapLast (isa : List Nat) (d o size m : Nat) (a : List Int) : C (List Int) :=
  if size % 2 = 0 then do
    let a ← swapAt o (o + m) a
    trFixdown isa d o 0 m a
  else .ok a

/-- `t = SA[0], SA[0] = SA[i]; tr_fixdown(ISAd, SA, 0, i); SA[i] = t;`, where `i` is one more
than the argument. trsort.c.inc.h:126-130. -/
def heapMax (isa : List Nat) (d o i : Nat) (a : List Int) : C (List Int) := do
  let v ← rd a o
  let w ← rd a (o + (i + 1))
  let a ← wr a o w
  let a ← trFixdown isa d o 0 (i + 1) a
  wr a (o + (i + 1)) v

/-- `tr_heapsort`, for the array that starts at index `o`. trsort.c.inc.h:112-131. -/
def trHeapsort (isa : List Nat) (d o size : Nat) (a : List Int) : C (List Int) := do
  let m := if size % 2 = 0 then size - 1 else size
  let a ← heapEven isa d o size m a
  let a ← downLoop (fun i a => trFixdown isa d o i m a) (m / 2) a
  let a ← heapLast isa d o size m a
  downLoop (heapMax isa d o) (m - 1) a

/-- `ISAd[*i] > ISAd[*j]`. -/
def keyGt (isa : List Nat) (d : Nat) (a : List Int) (i j : Nat) : C Bool := do
  let x ← keyAt isa d a i
  let y ← keyAt isa d a j
  .ok (decide (x > y))

/-- `tr_median3`. trsort.c.inc.h:137-147. -/
def trMedian3 (isa : List Nat) (d : Nat) (a : List Int) (v1 v2 v3 : Nat) : C Nat := do
  let g ← keyGt isa d a v1 v2
  let p := if g then v2 else v1
  let q := if g then v1 else v2
  let g ← keyGt isa d a q v3
  let h ← keyGt isa d a p v3
  .ok (if g then (if h then p else v3) else q)

/-- `tr_median5`. trsort.c.inc.h:150-162. -/
def trMedian5 (isa : List Nat) (d : Nat) (a : List Int) (v1 v2 v3 v4 v5 : Nat) : C Nat := do
  let g ← keyGt isa d a v2 v3
  let (v2, v3) := if g then (v3, v2) else (v2, v3)
  let g ← keyGt isa d a v4 v5
  let (v4, v5) := if g then (v5, v4) else (v4, v5)
  let g ← keyGt isa d a v2 v4
  let (v4, v3, v5) := if g then (v2, v5, v3) else (v4, v3, v5)
  let g ← keyGt isa d a v1 v3
  let (v1, v3) := if g then (v3, v1) else (v1, v3)
  let g ← keyGt isa d a v1 v4
  let (v4, v3) := if g then (v1, v5) else (v4, v3)
  let g ← keyGt isa d a v3 v4
  .ok (if g then v4 else v3)

/-- `tr_pivot`. trsort.c.inc.h:165-187. -/
def trPivot (isa : List Nat) (d first last : Nat) (a : List Int) : C Nat := do
  let t := last - first
  let middle := first + t / 2
  if t ≤ 512 then
    if t ≤ 32 then trMedian3 isa d a first middle (last - 1)
    else
      let t := t >>> 2
      trMedian5 isa d a first (first + t) middle (last - 1 - t) (last - 1)
  else
    let t := t >>> 3
    let p ← trMedian3 isa d a first (first + t) (first + (t <<< 1))
    let q ← trMedian3 isa d a (middle - t) middle (middle + t)
    let r ← trMedian3 isa d a (last - 1 - (t <<< 1)) (last - 1 - t) (last - 1)
    trMedian3 isa d a p q r

/-- `for(b = first; (++b < last) && ((x = ISAd[*b]) == v);) { }`, where `i` is `b` after `++b`
and `todo` is `last - i`. trsort.c.inc.h:229. -/
def eqUp (isa : List Nat) (d v : Nat) (a : List Int) : (todo i : Nat) → C Nat
  | 0, i => .ok i
  | todo + 1, i => do
    let x ← keyAt isa d a i
    if x = v then eqUp isa d v a todo (i + 1) else .ok i

/-- `for(; (++b < n) && ((x = ISAd[*b]) <= v);) { if(x == v) { SWAP(*b, *a); ++a; } }`, where
`i` is `b` after `++b`, `p` is `a` and `todo` is `n - i`: `a`, `b` and the array.
trsort.c.inc.h:231-233, 243-245. -/
def leUp (isa : List Nat) (d v : Nat) : (todo p i : Nat) → List Int → C (Nat × Nat × List Int)
  | 0, p, i, a => .ok (p, i, a)
  | todo + 1, p, i, a => do
    let x ← keyAt isa d a i
    if x ≤ v then
      if x = v then
        let a ← swapAt i p a
        leUp isa d v todo (p + 1) (i + 1) a
      else leUp isa d v todo p (i + 1) a
    else .ok (p, i, a)

/-- `for(c = last; (b < --c) && ((x = ISAd[*c]) == v);) { }`, where `i` is `c` after `--c` and
`todo` is `i - b`. trsort.c.inc.h:235. -/
def eqDown (isa : List Nat) (d v : Nat) (a : List Int) : (todo i : Nat) → C Nat
  | 0, i => .ok i
  | todo + 1, i => do
    let x ← keyAt isa d a i
    if x = v then eqDown isa d v a todo (i - 1) else .ok i

/-- `for(; (b < --c) && ((x = ISAd[*c]) >= v);) { if(x == v) { SWAP(*c, *d); --d; } }`, where
`i` is `c` after `--c`, `q` is `d` and `todo` is `i - b`: `d`, `c` and the array.
trsort.c.inc.h:237-239, 246-248. -/
def geDown (isa : List Nat) (d v : Nat) : (todo q i : Nat) → List Int → C (Nat × Nat × List Int)
  | 0, q, i, a => .ok (q, i, a)
  | todo + 1, q, i, a => do
    let x ← keyAt isa d a i
    if v ≤ x then
      if x = v then
        let a ← swapAt i q a
        geDown isa d v todo (q - 1) (i - 1) a
      else geDown isa d v todo q (i - 1) a
    else .ok (q, i, a)

/-- The indices `a`, `b`, `c` and `d` and the array. -/
structure Split where
  p : Nat
  b : Nat
  c : Nat
  q : Nat
  a : List Int

/-- `a = b`, and the loop that follows if `b < last` and `x < v`. trsort.c.inc.h:230-234. -/
def splitUp (isa : List Nat) (d v last b : Nat) (a : List Int) : C (Nat × Nat × List Int) :=
  if b < last then do
    let x ← keyAt isa d a b
    if x < v then leUp isa d v (last - (b + 1)) b (b + 1) a else .ok (b, b, a)
  else .ok (b, b, a)

/-- `d = c`, and the loop that follows if `b < c` and `x > v`. trsort.c.inc.h:236-240. -/
def splitDown (isa : List Nat) (d v b c : Nat) (a : List Int) : C (Nat × Nat × List Int) :=
  if b < c then do
    let x ← keyAt isa d a c
    if x > v then geDown isa d v (c - 1 - b) c (c - 1) a else .ok (c, c, a)
  else .ok (c, c, a)

/-- `for(; b < c;) { SWAP(*b, *c); ... }`. trsort.c.inc.h:241-249. -/
def splitLoop (isa : List Nat) (d v : Nat) : (fuel : Nat) → Split → C Split
  | 0, s => if s.b < s.c then .error .timeout else .ok s
  | fuel + 1, s =>
    if s.b < s.c then do
      let a ← swapAt s.b s.c s.a
      let (p, b, a) ← leUp isa d v (s.c - (s.b + 1)) s.p (s.b + 1) a
      let (q, c, a) ← geDown isa d v (s.c - 1 - b) s.q (s.c - 1) a
      splitLoop isa d v fuel ⟨p, b, c, q, a⟩
    else .ok s

/-- The partition around the rank `v`, which the elements before `middle` have.
trsort.c.inc.h:229-249. -/
def splitAround (isa : List Nat) (d v first middle last : Nat) (a : List Int) : C Split := do
  let b ← eqUp isa d v a (last - middle) middle
  let (p, b, a) ← splitUp isa d v last b a
  let c ← eqDown isa d v a (last - 1 - b) (last - 1)
  let (q, c, a) ← splitDown isa d v b c a
  splitLoop isa d v (last - first) ⟨p, b, c, q, a⟩

/-- The swaps at the end of `tr_partition`, and `*pa` and `*pb`. trsort.c.inc.h:251-259. -/
def splitEnd (first last : Nat) (r : Split) : C (Nat × Nat × List Int) :=
  if r.p ≤ r.q then do
    let n := min (r.p - first) (r.b - r.p)
    let a ← blockswap n first (r.b - n) r.a
    let n := min (r.q + 1 - r.b) (last - r.q - 1)
    let a ← blockswap n r.b (last - n) a
    .ok (first + (r.b - r.p), last - (r.q + 1 - r.b), a)
  else .ok (first, last, r.a)

/-- `tr_partition`: `*pa`, `*pb` and the array. trsort.c.inc.h:220-260. -/
def trPartition (isa : List Nat) (d first middle last v : Nat) (a : List Int) : C (Nat × Nat × List Int) := do
  let r ← splitAround isa d v first middle last a
  splitEnd first last r

/-- `lg_table[i]`. trsort.c.inc.h:32-41. -/
def lgTable (i : Nat) : Int := if i = 0 then -1 else (Nat.log2 i : Nat)

/-- `tr_ilg`. trsort.c.inc.h:43-73. -/
def trIlg (n : Nat) : Int :=
  if n &&& 0xffff0000 ≠ 0 then
    if n &&& 0xff000000 ≠ 0 then 24 + lgTable ((n >>> 24) &&& 0xff) else 16 + lgTable ((n >>> 16) &&& 0xff)
  else
    if n &&& 0xff00 ≠ 0 then 8 + lgTable ((n >>> 8) &&& 0xff) else lgTable (n &&& 0xff)

/-- `trbudget_t`. trsort.c.inc.h:192-198. -/
structure Budget where
  chance : Int
  remain : Int
  incval : Int
  count : Int
deriving DecidableEq

/-- `trbudget_check`: whether there is enough left, and the budget. trsort.c.inc.h:207-215. -/
def Budget.check (b : Budget) (size : Nat) : Bool × Budget :=
  if (size : Int) ≤ b.remain then (true, { b with remain := b.remain - size })
  else if b.chance = 0 then (false, { b with count := b.count + size })
  else (true, { b with remain := b.remain + (b.incval - size), chance := b.chance - 1 })

/-- `SA`, `ISA` and the budget. -/
structure TrSt where
  sa : List Int
  isa : List Nat
  bud : Budget

/-- `for(; c < n; ++c) { ISA[*c] = v; }`; `todo` is `n - c`. trsort.c.inc.h:348, 351, 399, 455,
456. -/
def setRanks (sa : List Int) (v : Nat) : (todo c : Nat) → List Nat → C (List Nat)
  | 0, _, isa => .ok isa
  | todo + 1, c, isa => do
    let r ← getNo sa c
    let isa ← wr isa r v
    setRanks sa v todo (c + 1) isa

/-- What the loops of `tr_copy` and `tr_partialcopy` change: `SA`, `ISA`, `lastrank` and
`newrank`. `lastrank` is `none` for -1, which is no rank. `newrank` is set before it is used. -/
structure CopySt where
  sa : List Int
  isa : List Nat
  lastrank : Option Nat
  newrank : Nat

/-- `rank = ISA[i]; if(lastrank != rank) { lastrank = rank; newrank = j; }`.
trsort.c.inc.h:301-302, 309-310, 318-319. -/
def nextRank (i j : Nat) (s : CopySt) : C CopySt := do
  let rank ← rd s.isa i
  if s.lastrank = some rank then .ok s else .ok { s with lastrank := some rank, newrank := j }

/-- `(0 <= (s = *c - depth)) && (ISA[s] == v)`, and `s` if so. trsort.c.inc.h:274, 280, 299,
316. -/
def copyTest (d v c : Nat) (s : CopySt) : C (Option Nat) := do
  let x ← rd s.sa c
  if 0 ≤ x - (d : Int) then
    let r ← rd s.isa (x - (d : Int)).toNat
    .ok (if r = v then some (x - (d : Int)).toNat else none)
  else .ok none

/-- `*j = s; ISA[s] = j`, as `tr_copy` does, and with `part` the same but that the rank is found
as `tr_partialcopy` does. trsort.c.inc.h:275-276, 281-282, 300-303, 317-320. -/
def copyPut (part : Bool) (d j r : Nat) (s : CopySt) : C CopySt := do
  let sa ← wr s.sa j (Int.ofNat r)
  if part then
    let s ← nextRank (r + d) j { s with sa := sa }
    let isa ← wr s.isa r s.newrank
    .ok { s with isa := isa }
  else
    let isa ← wr s.isa r j
    .ok { s with sa := sa, isa := isa }

/-- The first loop of `tr_copy` and, with `part`, of `tr_partialcopy`; `j` is `d + 1`.
trsort.c.inc.h:273-278, 297-305. -/
def copyUp (part : Bool) (d v : Nat) : (fuel c j : Nat) → CopySt → C (Nat × CopySt)
  | 0, _, _, _ => .error .timeout
  | fuel + 1, c, j, s =>
    if c < j then do
      match ← copyTest d v c s with
      | some r =>
        let s ← copyPut part d j r s
        copyUp part d v fuel (c + 1) (j + 1) s
      | none => copyUp part d v fuel (c + 1) j s
    else .ok (j, s)

/-- The second loop of `tr_partialcopy`; `todo` is `e - first + 1`. trsort.c.inc.h:307-312. -/
def copyFix (first : Nat) : (todo : Nat) → CopySt → C CopySt
  | 0, s => .ok s
  | todo + 1, s => do
    let r ← getNo s.sa (first + todo)
    let rank ← rd s.isa r
    let s ← nextRank r (first + todo) s
    if s.newrank ≠ rank then
      let isa ← wr s.isa r s.newrank
      copyFix first todo { s with isa := isa }
    else copyFix first todo s

/-- The last loop of `tr_copy` and, with `part`, of `tr_partialcopy`; `c` is one more than in
the program. trsort.c.inc.h:279-284, 314-322. -/
def copyDown (part : Bool) (d v e : Nat) : (c j : Nat) → CopySt → C CopySt
  | 0, j, s => if e < j then .error .oob else .ok s
  | c + 1, j, s =>
    if e < j then do
      match ← copyTest d v c s with
      | some r =>
        let s ← copyPut part d (j - 1) r s
        copyDown part d v e c (j - 1) s
      | none => copyDown part d v e c j s
    else .ok s

/-- `tr_copy`. trsort.c.inc.h:262-285. -/
def trCopy (first a b last d : Nat) (x : TrSt) : C TrSt := do
  let (e, s) ← copyUp false d (b - 1) (last - first + 1) first a ⟨x.sa, x.isa, none, 0⟩
  let s ← copyDown false d (b - 1) e last b s
  .ok { x with sa := s.sa, isa := s.isa }

/-- `tr_partialcopy`. trsort.c.inc.h:287-323. -/
def trPartialcopy (first a b last d : Nat) (x : TrSt) : C TrSt := do
  let (e, s) ← copyUp true d (b - 1) (last - first + 1) first a ⟨x.sa, x.isa, none, 0⟩
  let s ← copyFix first (e - first) { s with lastrank := none }
  let s ← copyDown true d (b - 1) e last b { s with lastrank := none }
  .ok { x with sa := s.sa, isa := s.isa }

/-- What `tr_introsort` has to do with the elements from `first` to `last`; `d` is `ISAd`. -/
structure TrFrame where
  d : Nat
  first : Nat
  last : Nat
  limit : Int
  trlink : Int

/-- An element of the stack. The fields `a`, `b`, `c`, `d` and `e` are here `d`, `first`,
`last`, `limit` and `trlink`, except in the element that gives the middle partition, where `b`
and `c` are its start and end, and `d` is 0 or -1. The top of the stack is the first element of
the list, so an index into the stack counts from the end of the list. trsort.c.inc.h:331. -/
abbrev TrStack := List TrFrame

/-- `STACK_PUSH5` on a stack of `TR_STACKSIZE` elements. divsufsort_private.h:160-165. -/
def push5 (f : TrFrame) (s : TrStack) : C TrStack :=
  if s.length < 64 then .ok (f :: s) else .error .stack

/-- `if(0 <= trlink) { stack[trlink].d = -1; }`. -/
def setLink (l : Int) (s : TrStack) : C TrStack :=
  if 0 ≤ l then
    if l.toNat < s.length then
      .ok (s.modify (s.length - 1 - l.toNat) fun f => { f with limit := -1 })
    else .error .oob
  else .ok s

/-- A frame, or none if one is to be popped, the stack and the arrays. -/
structure TrNext where
  f : Option TrFrame
  s : TrStack
  x : TrSt

/-- `if(c) { ... ISA[*c] = v; ... }`. -/
def setRanksIf (c : Bool) (sa : List Int) (v todo i : Nat) (isa : List Nat) : C (List Nat) :=
  if c then setRanks sa v todo i isa else .ok isa

/-- The two pushes for the middle partition, and `trlink`. trsort.c.inc.h:355-359. -/
def pushMiddle (a b incr : Nat) (f : TrFrame) (s : TrStack) : C (Int × TrStack) :=
  if 1 < b - a then do
    let s ← push5 ⟨0, a, b, 0, 0⟩ s
    let s ← push5 ⟨f.d - incr, f.first, f.last, -2, f.trlink⟩ s
    .ok ((s.length - 2 : Nat), s)
  else .ok (f.trlink, s)

/-- A partition at each end is sorted, the smaller first. trsort.c.inc.h:360-378, 515-533. -/
def pushTwo (lo hi : TrFrame) (s : TrStack) (x : TrSt) : C TrNext :=
  if lo.last - lo.first ≤ hi.last - hi.first then
    if 1 < lo.last - lo.first then do
      let s ← push5 hi s
      .ok ⟨some lo, s, x⟩
    else if 1 < hi.last - hi.first then .ok ⟨some hi, s, x⟩
    else .ok ⟨none, s, x⟩
  else
    if 1 < hi.last - hi.first then do
      let s ← push5 lo s
      .ok ⟨some hi, s, x⟩
    else if 1 < lo.last - lo.first then .ok ⟨some lo, s, x⟩
    else .ok ⟨none, s, x⟩

/-- The tandem repeat partition. trsort.c.inc.h:342-378. -/
def tandemStep (incr : Nat) (f : TrFrame) (s : TrStack) (x : TrSt) : C TrNext := do
  let (a, b, sa) ← trPartition x.isa (f.d - incr) f.first f.first f.last (f.last - 1) x.sa
  let isa ← setRanksIf (decide (a < f.last)) sa (a - 1) (a - f.first) f.first x.isa
  let isa ← setRanksIf (decide (b < f.last)) sa (b - 1) (b - a) a isa
  let (trlink, s) ← pushMiddle a b incr f s
  pushTwo ⟨f.d, f.first, a, trIlg (a - f.first), trlink⟩ ⟨f.d, b, f.last, trIlg (f.last - b), trlink⟩ s { x with sa := sa, isa := isa }

/-- The tandem repeat copy. trsort.c.inc.h:379-388. -/
def copyStep (f : TrFrame) (s : TrStack) (x : TrSt) : C TrNext :=
  match s with
  | [] => .error .oob
  | g :: s =>
    if g.limit = 0 then do
      let x ← trCopy f.first g.first g.last f.last f.d x
      .ok ⟨none, s, x⟩
    else do
      let s ← setLink f.trlink s
      let x ← trPartialcopy f.first g.first g.last f.last f.d x
      .ok ⟨none, s, x⟩

/-- `do { ISA[*a] = (saidx_t)(a - SA); } while((++a < last) && (0 <= *a))`: `a` and the ranks;
`todo` is `last - a`. trsort.c.inc.h:393. -/
def singles (sa : List Int) : (todo a : Nat) → List Nat → C (Nat × List Nat)
  | 0, _, _ => .error .oob
  | todo + 1, a, isa => do
    let r ← getNo sa a
    let isa ← wr isa r a
    if 0 < todo then
      let v ← rd sa (a + 1)
      if 0 ≤ v then singles sa todo (a + 1) isa else .ok (a + 1, isa)
    else .ok (a + 1, isa)

/-- `if(0 <= *first) { ... first = a; }`. trsort.c.inc.h:391-395. -/
def singlesIf (f : TrFrame) (x : TrSt) : C (Nat × List Nat) := do
  let v ← rd x.sa f.first
  if 0 ≤ v then singles x.sa (f.last - f.first) f.first x.isa else .ok (f.first, x.isa)

/-- `do { *a = ~*a; } while(*++a < 0)`: `a` and the array. trsort.c.inc.h:397. -/
def unmark : (fuel a : Nat) → List Int → C (Nat × List Int)
  | 0, _, _ => .error .timeout
  | fuel + 1, a, sa => do
    let v ← rd sa a
    let sa ← wr sa a (inv v)
    let w ← rd sa (a + 1)
    if w < 0 then unmark fuel (a + 1) sa else .ok (a + 1, sa)

/-- `next = (ISA[*a] != ISAd[*a]) ? tr_ilg(size) : -1`. trsort.c.inc.h:398, 452. -/
def nextLimit (isa : List Nat) (d a size : Nat) (sa : List Int) : C Int := do
  let x ← keyAt isa 0 sa a
  let y ← keyAt isa d sa a
  .ok (if x ≠ y then trIlg size else -1)

/-- The pushes for a sorted partition: the group from `first` to `a`, and what follows.
trsort.c.inc.h:402-421. -/
def pushGroup (incr first a : Nat) (next : Int) (f : TrFrame) (s : TrStack) (x : TrSt) : C TrNext :=
  let grp : TrFrame := ⟨f.d + incr, first, a, next, f.trlink⟩
  let rest : TrFrame := ⟨f.d, a, f.last, -3, f.trlink⟩
  match x.bud.check (a - first) with
  | (true, bud) =>
    if a - first ≤ f.last - a then do
      let s ← push5 rest s
      .ok ⟨some grp, s, { x with bud := bud }⟩
    else if 1 < f.last - a then do
      let s ← push5 grp s
      .ok ⟨some rest, s, { x with bud := bud }⟩
    else .ok ⟨some grp, s, { x with bud := bud }⟩
  | (false, bud) => do
    let s ← setLink f.trlink s
    if 1 < f.last - a then .ok ⟨some rest, s, { x with bud := bud }⟩
    else .ok ⟨none, s, { x with bud := bud }⟩

/-- The sorted partition. trsort.c.inc.h:389-425. -/
def sortedStep (incr : Nat) (f : TrFrame) (s : TrStack) (x : TrSt) : C TrNext := do
  let (first, isa) ← singlesIf f x
  if first < f.last then
    let (a, sa) ← unmark (f.last - first) first x.sa
    let next ← nextLimit isa f.d a (a - first + 1) sa
    let isa ← setRanksIf (decide (a + 1 < f.last)) sa a (a + 1 - first) first isa
    pushGroup incr first (a + 1) next f s { x with sa := sa, isa := isa }
  else .ok ⟨none, s, { x with isa := isa }⟩

/-- `for(; (first <= b) && (ISAd[*b] == x); --b) { *b = ~*b; }`: `b + 1` and the array; `todo`
is `b + 1 - first`. trsort.c.inc.h:438. -/
def markSame (isa : List Nat) (d first x : Nat) : (todo : Nat) → List Int → C (Nat × List Int)
  | 0, sa => .ok (first, sa)
  | todo + 1, sa => do
    let y ← keyAt isa d sa (first + todo)
    if y = x then
      let v ← rd sa (first + todo)
      let sa ← wr sa (first + todo) (inv v)
      markSame isa d first x todo sa
    else .ok (first + todo + 1, sa)

/-- `for(a = last - 1; first < a; a = b) { ... }`; `j` is `a + 1`. trsort.c.inc.h:437-439. -/
def markAll (isa : List Nat) (d first : Nat) : (fuel j : Nat) → List Int → C (List Int)
  | 0, _, _ => .error .timeout
  | fuel + 1, j, sa =>
    if first + 1 < j then do
      let x ← keyAt isa d sa (j - 1)
      let (j, sa) ← markSame isa d first x (j - 1 - first) sa
      markAll isa d first fuel j sa
    else .ok sa

/-- The pushes if there is enough in the budget. trsort.c.inc.h:460-512. -/
def pushAll (lo mid hi : TrFrame) (s : TrStack) (x : TrSt) : C TrNext :=
  if lo.last - lo.first ≤ hi.last - hi.first then
    if hi.last - hi.first ≤ mid.last - mid.first then
      if 1 < lo.last - lo.first then do
        let s ← push5 mid s
        let s ← push5 hi s
        .ok ⟨some lo, s, x⟩
      else if 1 < hi.last - hi.first then do
        let s ← push5 mid s
        .ok ⟨some hi, s, x⟩
      else .ok ⟨some mid, s, x⟩
    else if lo.last - lo.first ≤ mid.last - mid.first then
      if 1 < lo.last - lo.first then do
        let s ← push5 hi s
        let s ← push5 mid s
        .ok ⟨some lo, s, x⟩
      else do
        let s ← push5 hi s
        .ok ⟨some mid, s, x⟩
    else do
      let s ← push5 hi s
      let s ← push5 lo s
      .ok ⟨some mid, s, x⟩
  else
    if lo.last - lo.first ≤ mid.last - mid.first then
      if 1 < hi.last - hi.first then do
        let s ← push5 mid s
        let s ← push5 lo s
        .ok ⟨some hi, s, x⟩
      else if 1 < lo.last - lo.first then do
        let s ← push5 mid s
        .ok ⟨some lo, s, x⟩
      else .ok ⟨some mid, s, x⟩
    else if hi.last - hi.first ≤ mid.last - mid.first then
      if 1 < hi.last - hi.first then do
        let s ← push5 lo s
        let s ← push5 mid s
        .ok ⟨some hi, s, x⟩
      else do
        let s ← push5 lo s
        .ok ⟨some mid, s, x⟩
    else do
      let s ← push5 lo s
      let s ← push5 hi s
      .ok ⟨some mid, s, x⟩

/-- `(1 < size) && trbudget_check(budget, size)`, and the budget. trsort.c.inc.h:459. -/
def checkIf (b : Budget) (size : Nat) : Bool × Budget := if 1 < size then b.check size else (false, b)

/-- What follows a partition in more than one part. trsort.c.inc.h:452-534. -/
def splitStep (incr a b v : Nat) (limit : Int) (f : TrFrame) (s : TrStack) (x : TrSt) : C TrNext := do
  let y ← keyAt x.isa 0 x.sa a
  let next := if y ≠ v then trIlg (b - a) else -1
  let isa ← setRanks x.sa (a - 1) (a - f.first) f.first x.isa
  let isa ← setRanksIf (decide (b < f.last)) x.sa (b - 1) (b - a) a isa
  let lo : TrFrame := ⟨f.d, f.first, a, limit, f.trlink⟩
  let mid : TrFrame := ⟨f.d + incr, a, b, next, f.trlink⟩
  let hi : TrFrame := ⟨f.d, b, f.last, limit, f.trlink⟩
  match checkIf x.bud (b - a) with
  | (true, bud) => pushAll lo mid hi s { x with isa := isa, bud := bud }
  | (false, bud) => do
    let s ← if 1 < b - a then setLink f.trlink s else .ok s
    pushTwo lo hi s { x with isa := isa, bud := bud }

/-- What follows if all the ranks are the same. trsort.c.inc.h:536-541. -/
def sameStep (incr : Nat) (f : TrFrame) (s : TrStack) (x : TrSt) : C TrNext :=
  match x.bud.check (f.last - f.first) with
  | (true, bud) => .ok ⟨some ⟨f.d + incr, f.first, f.last, trIlg (f.last - f.first), f.trlink⟩, s, { x with bud := bud }⟩
  | (false, bud) => do
    let s ← setLink f.trlink s
    .ok ⟨none, s, { x with bud := bud }⟩

/-- What follows if the limit is not reached. trsort.c.inc.h:444-542. -/
def pivotStep (incr : Nat) (f : TrFrame) (s : TrStack) (x : TrSt) : C TrNext := do
  let i ← trPivot x.isa f.d f.first f.last x.sa
  let sa ← swapAt f.first i x.sa
  let v ← keyAt x.isa f.d sa f.first
  let (a, b, sa) ← trPartition x.isa f.d f.first (f.first + 1) f.last v sa
  if f.last - f.first ≠ b - a then splitStep incr a b v (f.limit - 1) f s { x with sa := sa }
  else sameStep incr f s { x with sa := sa }

/-- One iteration of the loop of `tr_introsort`. trsort.c.inc.h:341-542. -/
def trStep (incr : Nat) (f : TrFrame) (s : TrStack) (x : TrSt) : C TrNext :=
  if f.limit < 0 then
    if f.limit = -1 then tandemStep incr f s x
    else if f.limit = -2 then copyStep f s x
    else sortedStep incr f s x
  else if f.last - f.first ≤ 8 then do
    let sa ← trInsertionsort x.isa f.d f.first f.last x.sa
    .ok ⟨some { f with limit := -3 }, s, { x with sa := sa }⟩
  else if f.limit = 0 then do
    let sa ← trHeapsort x.isa f.d f.first (f.last - f.first) x.sa
    let sa ← markAll x.isa f.d f.first (f.last - f.first) f.last sa
    .ok ⟨some { f with limit := -3 }, s, { x with sa := sa }⟩
  else pivotStep incr f s x

/-- The loop of `tr_introsort`; without a frame one is popped, and the function returns if there
is none. trsort.c.inc.h:339-543, divsufsort_private.h:173-179. -/
def trLoop (incr : Nat) : (fuel : Nat) → Option TrFrame → TrStack → TrSt → C TrSt
  | 0, _, _, _ => .error .timeout
  | fuel + 1, some f, s, x => do
    let r ← trStep incr f s x
    trLoop incr fuel r.f r.s r.x
  | fuel + 1, none, f :: s, x => trLoop incr fuel (some f) s x
  | _ + 1, none, [], x => .ok x

/-- `tr_introsort`. There are no more steps than `fuel`, as each makes a partition smaller or the
depth greater, which is less than the number of ranks. trsort.c.inc.h:325-545. -/
def trIntrosort (incr first last : Nat) (x : TrSt) : C TrSt :=
  trLoop incr (8 * ((last - first) * (x.isa.length + 1)) + 1) (some ⟨incr, first, last, trIlg (last - first), -1⟩) [] x

/-- What the loop of `trsort` changes. -/
structure TrPass where
  skip : Int
  unsorted : Int
  x : TrSt

/-- `if(skip != 0) { *(first + skip) = skip; }`. trsort.c.inc.h:570, 583. -/
def putSkip (first : Nat) (skip : Int) (sa : List Int) : C (List Int) :=
  if skip ≠ 0 then do
    let i ← idx ((first : Int) + skip)
    wr sa i skip
  else .ok sa

/-- What is done with the elements from `first` to `last`. trsort.c.inc.h:572-579. -/
def passGroup (incr first last : Nat) (p : TrPass) : C TrPass :=
  if 1 < last - first then do
    let x ← trIntrosort incr first last { p.x with bud := { p.x.bud with count := 0 } }
    if x.bud.count ≠ 0 then .ok { p with unsorted := p.unsorted + x.bud.count, x := x }
    else .ok { p with skip := (first : Int) - last, x := x }
  else if last - first = 1 then .ok { p with skip := -1 }
  else .ok p

/-- `do { ... } while(first < (SA + n))`: the end and the state. trsort.c.inc.h:567-582. -/
def passLoop (n incr : Nat) : (fuel first : Nat) → TrPass → C (Nat × TrPass)
  | 0, _, _ => .error .timeout
  | fuel + 1, first, p => do
    let t ← rd p.x.sa first
    if t < 0 then
      let i ← idx ((first : Int) - t)
      let p := { p with skip := p.skip + t }
      if i < n then passLoop n incr fuel i p else .ok (i, p)
    else
      let sa ← putSkip first p.skip p.x.sa
      let r ← rd p.x.isa t.toNat
      let p ← passGroup incr first (r + 1) { p with skip := 0, x := { p.x with sa := sa } }
      if r + 1 < n then passLoop n incr fuel (r + 1) p else .ok (r + 1, p)

/-- The loop of `trsort`. trsort.c.inc.h:563-585. -/
def trPasses (n : Nat) : (fuel incr : Nat) → TrSt → C TrSt
  | 0, _, _ => .error .timeout
  | fuel + 1, incr, x => do
    let v ← rd x.sa 0
    if -(n : Int) < v then
      let (first, p) ← passLoop n incr n 0 ⟨0, 0, x⟩
      let sa ← putSkip first p.skip p.x.sa
      if p.unsorted = 0 then .ok { p.x with sa := sa } else trPasses n fuel (incr + incr) { p.x with sa := sa }
    else .ok x

/-- The numbers of a list, which must not be negative. -/
def natsOf : List Int → C (List Nat)
  | [] => .ok []
  | v :: l => do
    let r ← idx v
    let l ← natsOf l
    .ok (r :: l)

/-- `trsort(SA + n, SA, n, depth)`. There are no more passes than `n + 1`, as the number of
names that a pass compares grows. trsort.c.inc.h:553-586. -/
def trsort (n depth : Nat) (a : List Int) : C (List Int) := do
  let isa ← natsOf ((a.drop n).take n)
  let x ← trPasses n (n + 1) depth ⟨a.take n, isa, ⟨trIlg n * 2 / 3, n, n, 0⟩⟩
  .ok (x.sa ++ (x.isa.map Int.ofNat ++ a.drop (n + n)))

/-- The call in `sort_typeBstar`: `trsort(ISAb, SA, m, 1)`. divsufsort.c.inc.h:159. -/
def callTrsort (m : Nat) (a : List Int) : C (List Int) := trsort m 1 a

end Tr

end Dss

end Detools
