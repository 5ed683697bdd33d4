import Verif.Model.Divsufsort
/-
Model of `sssort`, which sorts the B* substrings of a bucket of divsufsort.
detools/libdivsufsort/sssort.c.inc.h, divsufsort_private.h.

As in Model/Divsufsort an access outside of an array is undefined behaviour. The suffix array is
given in two parts. The last `m` elements, `PA`, are only read. The elements before them are
what the pointers `first`, `last`, `buf` and so on point into: here they are indices. So the
model also reports as undefined an access to a part of the suffix array it must not touch.
Simplifications common to all definitions:

* No value is stored but one that was in the array, or its complement, so stores are not
  checked for overflow.
* The integers in `lg_table` are computed.
* Assertions are not modelled, but a full stack is undefined behaviour.
* A loop that reads an element after a condition on an index has been changed to a recursion on
  how many elements are left.
-/
namespace Detools

namespace Dss
open Sais

/-- The text `T` and the positions `PA`. -/
structure SsText where
  t : List Nat
  pa : List Int

/-- The number at index `i`. `PA + *p` is outside of `PA` if `*p` is negative. -/
def getNo (a : List Int) (i : Nat) : C Nat := do
  let v ← rd a i
  idx v

/-- `PA[r]`. -/
def SsText.pos (e : SsText) (r : Nat) : C Nat := getNo e.pa r

/-- The comparison of the text from `u1` to `u1n` with that from `u2` to `u2n`; `todo` is
`u1n - u1`. sssort.c.inc.h:146-152. -/
def ssCmp (t : List Nat) (u2n : Nat) : (todo u1 u2 : Nat) → C Int
  | 0, _, u2 => .ok (if u2 < u2n then -1 else 0)
  | todo + 1, u1, u2 =>
    if u2 < u2n then do
      let c1 ← rd t u1
      let c2 ← rd t u2
      if c1 = c2 then ssCmp t u2n todo (u1 + 1) (u2 + 1) else .ok ((c1 : Int) - c2)
    else .ok 1

/-- `ss_compare(T, PA + r, PA + s, depth)`. sssort.c.inc.h:141-156. -/
def ssCompare (e : SsText) (d r s : Nat) : C Int := do
  let x1 ← e.pos r
  let x2 ← e.pos s
  let y1 ← e.pos (r + 1)
  let y2 ← e.pos (s + 1)
  ssCmp e.t (y2 + 2) (y1 + 2 - (x1 + d)) (x1 + d) (x2 + d)

/-- `do { *(j - 1) = *j; } while((++j < last) && (*j < 0))`; `todo` is `last - j`.
sssort.c.inc.h:175. -/
def insShift : (todo j : Nat) → List Int → C (Nat × List Int)
  | 0, _, _ => .error .oob
  | todo + 1, j, a => do
    let v ← rd a j
    let a ← wr a (j - 1) v
    if 0 < todo then
      let w ← rd a (j + 1)
      if w < 0 then insShift todo (j + 1) a else .ok (j + 1, a)
    else .ok (j + 1, a)

/-- The search for the place of the number `v`: the last comparison, `j` and the array.
sssort.c.inc.h:174-178. -/
def insInner (e : SsText) (d last v : Nat) : (fuel j : Nat) → List Int → C (Int × Nat × List Int)
  | 0, _, _ => .error .timeout
  | fuel + 1, j, a => do
    let w ← getNo a j
    let r ← ssCompare e d v w
    if 0 < r then
      let (j, a) ← insShift (last - j) j a
      if last ≤ j then .ok (r, j, a) else insInner e d last v fuel j a
    else .ok (r, j, a)

/-- `if(r == 0) { *j = ~*j; }`. -/
def invIf (c : Bool) (j : Nat) (a : List Int) : C (List Int) :=
  if c then do
    let v ← rd a j
    wr a j (inv v)
  else .ok a

/-- The insertion of the element at `i`. sssort.c.inc.h:174-180. -/
def insStep (e : SsText) (d last i : Nat) (a : List Int) : C (List Int) := do
  let v ← getNo a i
  let (r, j, a) ← insInner e d last v (last - i) (i + 1) a
  let a ← invIf (decide (r = 0)) j a
  wr a (j - 1) v

/-- `ss_insertionsort`. sssort.c.inc.h:167-182. -/
def ssInsertionsort (e : SsText) (first last d : Nat) (a : List Int) : C (List Int) :=
  downLoop (fun k a => insStep e d last (first + k) a) (last - 1 - first) a

/-- `Td[PA[*p]]`, where `p` is the index `i` and `Td` is `T + d`. -/
def keyAt (e : SsText) (d : Nat) (a : List Int) (i : Nat) : C Nat := do
  let r ← getNo a i
  let x ← e.pos r
  rd e.t (x + d)

/-- `SWAP(*i, *j)`. divsufsort_private.h:144. -/
def swapAt (i j : Nat) (a : List Int) : C (List Int) := do
  let x ← rd a i
  let y ← rd a j
  let a ← wr a i y
  wr a j x

/-- The loop of `ss_fixdown`, for the array that starts at index `o`: a number `v` with
character `c` goes down from `i`. sssort.c.inc.h:198-202. -/
def fixdownLoop (e : SsText) (d o size : Nat) (v : Int) (c : Nat) : (fuel i : Nat) → List Int → C (List Int)
  | 0, _, _ => .error .timeout
  | fuel + 1, i, a =>
    if 2 * i + 1 < size then do
      let x ← keyAt e d a (o + (2 * i + 1))
      let y ← keyAt e d a (o + (2 * i + 2))
      let k := if x < y then 2 * i + 2 else 2 * i + 1
      let x := if x < y then y else x
      if x ≤ c then wr a (o + i) v
      else
        let w ← rd a (o + k)
        let a ← wr a (o + i) w
        fixdownLoop e d o size v c fuel k a
    else wr a (o + i) v

/-- `ss_fixdown`. sssort.c.inc.h:192-204. -/
def ssFixdown (e : SsText) (d o i size : Nat) (a : List Int) : C (List Int) := do
  let v ← rd a (o + i)
  let c ← keyAt e d a (o + i)
  fixdownLoop e d o size v c (size + 1) i a

/-- `if(Td[PA[SA[m / 2]]] < Td[PA[SA[m]]]) { SWAP(SA[m], SA[m / 2]); }` if the size is even.
sssort.c.inc.h:213-217. -/
def heapEven (e : SsText) (d o size m : Nat) (a : List Int) : C (List Int) :=
  if size % 2 = 0 then do
    let x ← keyAt e d a (o + m / 2)
    let y ← keyAt e d a (o + m)
    if x < y then swapAt (o + m) (o + m / 2) a else .ok a
  else .ok a

/-- `if((size % 2) == 0) { SWAP(SA[0], SA[m]); ss_fixdown(Td, PA, SA, 0, m); }`.
sssort.c.inc.h:220. -/
def heapLast (e : SsText) (d o size m : Nat) (a : List Int) : C (List Int) :=
  if size % 2 = 0 then do
    let a ← swapAt o (o + m) a
    ssFixdown e d o 0 m a
  else .ok a

/-- `t = SA[0], SA[0] = SA[i]; ss_fixdown(Td, PA, SA, 0, i); SA[i] = t;`, where `i` is one more
than the argument. sssort.c.inc.h:221-225. -/
def heapMax (e : SsText) (d o i : Nat) (a : List Int) : C (List Int) := do
  let v ← rd a o
  let w ← rd a (o + (i + 1))
  let a ← wr a o w
  let a ← ssFixdown e d o 0 (i + 1) a
  wr a (o + (i + 1)) v

/-- `ss_heapsort`, for the array that starts at index `o`. sssort.c.inc.h:206-226. -/
def ssHeapsort (e : SsText) (d o size : Nat) (a : List Int) : C (List Int) := do
  let m := if size % 2 = 0 then size - 1 else size
  let a ← heapEven e d o size m a
  let a ← downLoop (fun i a => ssFixdown e d o i m a) (m / 2) a
  let a ← heapLast e d o size m a
  downLoop (heapMax e d o) (m - 1) a

/-- `Td[PA[*i]] > Td[PA[*j]]`. -/
def keyGt (e : SsText) (d : Nat) (a : List Int) (i j : Nat) : C Bool := do
  let x ← keyAt e d a i
  let y ← keyAt e d a j
  .ok (decide (x > y))

/-- `ss_median3`. sssort.c.inc.h:234-244. -/
def ssMedian3 (e : SsText) (d : Nat) (a : List Int) (v1 v2 v3 : Nat) : C Nat := do
  let g ← keyGt e d a v1 v2
  let p := if g then v2 else v1
  let q := if g then v1 else v2
  let g ← keyGt e d a q v3
  let h ← keyGt e d a p v3
  .ok (if g then (if h then p else v3) else q)

/-- `ss_median5`. sssort.c.inc.h:245-259. -/
def ssMedian5 (e : SsText) (d : Nat) (a : List Int) (v1 v2 v3 v4 v5 : Nat) : C Nat := do
  let g ← keyGt e d a v2 v3
  let (v2, v3) := if g then (v3, v2) else (v2, v3)
  let g ← keyGt e d a v4 v5
  let (v4, v5) := if g then (v5, v4) else (v4, v5)
  let g ← keyGt e d a v2 v4
  let (v4, v3, v5) := if g then (v2, v5, v3) else (v4, v3, v5)
  let g ← keyGt e d a v1 v3
  let (v1, v3) := if g then (v3, v1) else (v1, v3)
  let g ← keyGt e d a v1 v4
  let (v4, v3) := if g then (v1, v5) else (v4, v3)
  let g ← keyGt e d a v3 v4
  .ok (if g then v4 else v3)

/-- `ss_pivot`. sssort.c.inc.h:261-284. -/
def ssPivot (e : SsText) (d first last : Nat) (a : List Int) : C Nat := do
  let t := last - first
  let middle := first + t / 2
  if t ≤ 512 then
    if t ≤ 32 then ssMedian3 e d a first middle (last - 1)
    else
      let t := t >>> 2
      ssMedian5 e d a first (first + t) middle (last - 1 - t) (last - 1)
  else
    let t := t >>> 3
    let p ← ssMedian3 e d a first (first + t) (first + (t <<< 1))
    let q ← ssMedian3 e d a (middle - t) middle (middle + t)
    let r ← ssMedian3 e d a (last - 1 - (t <<< 1)) (last - 1 - t) (last - 1)
    ssMedian3 e d a p q r

/-- `(PA[*i] + depth) >= (PA[*i + 1] + 1)`. -/
def endsAt (e : SsText) (d : Nat) (a : List Int) (i : Nat) : C Bool := do
  let r ← getNo a i
  let x ← e.pos r
  let y ← e.pos (r + 1)
  .ok (decide (x + d ≥ y + 1))

/-- `for(; (++a < b) && ((PA[*a] + depth) >= (PA[*a + 1] + 1));) { *a = ~*a; }`, where `i` is
`a` after `++a` and `todo` is `b - i`. sssort.c.inc.h:296. -/
def partUp (e : SsText) (d : Nat) : (todo i : Nat) → List Int → C (Nat × List Int)
  | 0, i, a => .ok (i, a)
  | todo + 1, i, a => do
    let z ← endsAt e d a i
    if z then
      let v ← rd a i
      let a ← wr a i (inv v)
      partUp e d todo (i + 1) a
    else .ok (i, a)

/-- `for(; (a < --b) && ((PA[*b] + depth) < (PA[*b + 1] + 1));) { }`, where `i` is `b` after
`--b` and `todo` is `i - a`. sssort.c.inc.h:297. -/
def partDown (e : SsText) (d : Nat) (a : List Int) : (todo i : Nat) → C Nat
  | 0, i => .ok i
  | todo + 1, i => do
    let z ← endsAt e d a i
    if z then .ok i else partDown e d a todo (i - 1)

/-- The loop of `ss_partition`; `i` is one more than `a`. sssort.c.inc.h:295-302. -/
def partLoop (e : SsText) (d : Nat) : (fuel i b : Nat) → List Int → C (Nat × List Int)
  | 0, _, _, _ => .error .timeout
  | fuel + 1, i, b, a => do
    let (i, a) ← partUp e d (b - i) i a
    let b ← partDown e d a (b - 1 - i) (b - 1)
    if b ≤ i then .ok (i, a)
    else
      let x ← rd a b
      let y ← rd a i
      let a ← wr a b y
      let a ← wr a i (inv x)
      partLoop e d fuel (i + 1) b a

/-- `ss_partition`. sssort.c.inc.h:291-305. -/
def ssPartition (e : SsText) (d first last : Nat) (a : List Int) : C (Nat × List Int) := do
  let (i, a) ← partLoop e d (last - first + 1) first last a
  let a ← invIf (decide (first < i)) first a
  .ok (i, a)

/-- `lg_table[i]`. sssort.c.inc.h:33-42. -/
def lgTable (i : Nat) : Int := if i = 0 then -1 else (Nat.log2 i : Nat)

/-- `ss_ilg`. sssort.c.inc.h:46-79. -/
def ssIlg (n : Nat) : Int :=
  if n &&& 0xff00 ≠ 0 then 8 + lgTable ((n >>> 8) &&& 0xff) else lgTable (n &&& 0xff)

/-- What `ss_mintrosort` has to do with the elements from `first` to `last`. -/
structure Frame where
  first : Nat
  last : Nat
  depth : Nat
  limit : Int

/-- `STACK_PUSH` on a stack of `SS_MISORT_STACKSIZE` elements; the top is the first element of
the list. divsufsort_private.h:149-154. -/
def pushFrame (f : Frame) (s : List Frame) : C (List Frame) :=
  if s.length < 16 then .ok (f :: s) else .error .oob

/-- A frame, the stack and the array. -/
structure MiState where
  f : Frame
  s : List Frame
  a : List Int

/-- The first group of more than one element with the same character in a sorted segment: its
start, its end and the character. `i` is `a`, `todo` is `last - a`. sssort.c.inc.h:335-341. -/
def findGroup (e : SsText) (d : Nat) (a : List Int) : (todo first i v : Nat) → C (Nat × Nat × Nat)
  | 0, first, i, v => .ok (first, i, v)
  | todo + 1, first, i, v => do
    let x ← keyAt e d a i
    if x ≠ v then
      if 1 < i - first then .ok (first, i, v) else findGroup e d a todo i (i + 1) x
    else findGroup e d a todo first (i + 1) v

/-- `if(c) { first = ss_partition(PA, first, last, depth); }`. -/
def partIf (c : Bool) (e : SsText) (d first last : Nat) (a : List Int) : C (Nat × List Int) :=
  if c then ssPartition e d first last a else .ok (first, a)

/-- What follows on a sorted segment. sssort.c.inc.h:334-361. -/
def sortedStep (e : SsText) (f : Frame) (s : List Frame) (a : List Int) : C MiState := do
  let v ← keyAt e f.depth a f.first
  let (first, i, v) ← findGroup e f.depth a (f.last - (f.first + 1)) f.first (f.first + 1) v
  let u ← keyAt e (f.depth - 1) a first
  let (first, a) ← partIf (decide (u < v)) e f.depth first i a
  if i - first ≤ f.last - i then
    if 1 < i - first then
      let s ← pushFrame ⟨i, f.last, f.depth, -1⟩ s
      .ok ⟨⟨first, i, f.depth + 1, ssIlg (i - first)⟩, s, a⟩
    else .ok ⟨⟨i, f.last, f.depth, -1⟩, s, a⟩
  else
    if 1 < f.last - i then
      let s ← pushFrame ⟨first, i, f.depth + 1, ssIlg (i - first)⟩ s
      .ok ⟨⟨i, f.last, f.depth, -1⟩, s, a⟩
    else .ok ⟨⟨first, i, f.depth + 1, ssIlg (i - first)⟩, s, a⟩

/-- `for(b = first; (++b < last) && ((x = Td[PA[*b]]) == v);) { }`, where `i` is `b` after `++b`
and `todo` is `last - i`. sssort.c.inc.h:369. -/
def eqUp (e : SsText) (d v : Nat) (a : List Int) : (todo i : Nat) → C Nat
  | 0, i => .ok i
  | todo + 1, i => do
    let x ← keyAt e d a i
    if x = v then eqUp e d v a todo (i + 1) else .ok i

/-- `for(; (++b < n) && ((x = Td[PA[*b]]) <= v);) { if(x == v) { SWAP(*b, *a); ++a; } }`, where
`i` is `b` after `++b`, `p` is `a` and `todo` is `n - i`: `a`, `b` and the array.
sssort.c.inc.h:371-373, 383-385. -/
def leUp (e : SsText) (d v : Nat) : (todo p i : Nat) → List Int → C (Nat × Nat × List Int)
  | 0, p, i, a => .ok (p, i, a)
  | todo + 1, p, i, a => do
    let x ← keyAt e d a i
    if x ≤ v then
      if x = v then
        let a ← swapAt i p a
        leUp e d v todo (p + 1) (i + 1) a
      else leUp e d v todo p (i + 1) a
    else .ok (p, i, a)

/-- `for(c = last; (b < --c) && ((x = Td[PA[*c]]) == v);) { }`, where `i` is `c` after `--c` and
`todo` is `i - b`. sssort.c.inc.h:375. -/
def eqDown (e : SsText) (d v : Nat) (a : List Int) : (todo i : Nat) → C Nat
  | 0, i => .ok i
  | todo + 1, i => do
    let x ← keyAt e d a i
    if x = v then eqDown e d v a todo (i - 1) else .ok i

/-- `for(; (b < --c) && ((x = Td[PA[*c]]) >= v);) { if(x == v) { SWAP(*c, *d); --d; } }`, where
`i` is `c` after `--c`, `q` is `d` and `todo` is `i - b`: `d`, `c` and the array.
sssort.c.inc.h:377-379, 386-388. -/
def geDown (e : SsText) (d v : Nat) : (todo q i : Nat) → List Int → C (Nat × Nat × List Int)
  | 0, q, i, a => .ok (q, i, a)
  | todo + 1, q, i, a => do
    let x ← keyAt e d a i
    if v ≤ x then
      if x = v then
        let a ← swapAt i q a
        geDown e d v todo (q - 1) (i - 1) a
      else geDown e d v todo q (i - 1) a
    else .ok (q, i, a)

/-- The indices `a`, `b`, `c` and `d` and the array. -/
structure Split where
  p : Nat
  b : Nat
  c : Nat
  q : Nat
  a : List Int

/-- `a = b`, and the loop that follows if `b < last` and `x < v`. sssort.c.inc.h:370-374. -/
def splitUp (e : SsText) (d v last b : Nat) (a : List Int) : C (Nat × Nat × List Int) :=
  if b < last then do
    let x ← keyAt e d a b
    if x < v then leUp e d v (last - (b + 1)) b (b + 1) a else .ok (b, b, a)
  else .ok (b, b, a)

/-- `d = c`, and the loop that follows if `b < c` and `x > v`. sssort.c.inc.h:376-380. -/
def splitDown (e : SsText) (d v b c : Nat) (a : List Int) : C (Nat × Nat × List Int) :=
  if b < c then do
    let x ← keyAt e d a c
    if x > v then geDown e d v (c - 1 - b) c (c - 1) a else .ok (c, c, a)
  else .ok (c, c, a)

/-- `for(; b < c;) { SWAP(*b, *c); ... }`. sssort.c.inc.h:381-389. -/
def splitLoop (e : SsText) (d v : Nat) : (fuel : Nat) → Split → C Split
  | 0, s => if s.b < s.c then .error .timeout else .ok s
  | fuel + 1, s =>
    if s.b < s.c then do
      let a ← swapAt s.b s.c s.a
      let (p, b, a) ← leUp e d v (s.c - (s.b + 1)) s.p (s.b + 1) a
      let (q, c, a) ← geDown e d v (s.c - 1 - b) s.q (s.c - 1) a
      splitLoop e d v fuel ⟨p, b, c, q, a⟩
    else .ok s

/-- `for(; 0 < n; --n, ++a, ++b) { t = *a, *a = *b, *b = t; }`. sssort.c.inc.h:395, 397,
452-457. -/
def blockswap : (n i j : Nat) → List Int → C (List Int)
  | 0, _, _, a => .ok a
  | n + 1, i, j, a => do
    let a ← swapAt i j a
    blockswap n (i + 1) (j + 1) a

/-- The three segments are pushed, the largest first, but the last. sssort.c.inc.h:402-430. -/
def pushThree (f : Frame) (limit : Int) (x b c : Nat) (s : List Frame) (a : List Int) : C MiState :=
  let lo : Frame := ⟨f.first, x, f.depth, limit⟩
  let mid : Frame := ⟨b, c, f.depth + 1, ssIlg (c - b)⟩
  let hi : Frame := ⟨c, f.last, f.depth, limit⟩
  if x - f.first ≤ f.last - c then
    if f.last - c ≤ c - b then do
      let s ← pushFrame mid s
      let s ← pushFrame hi s
      .ok ⟨lo, s, a⟩
    else if x - f.first ≤ c - b then do
      let s ← pushFrame hi s
      let s ← pushFrame mid s
      .ok ⟨lo, s, a⟩
    else do
      let s ← pushFrame hi s
      let s ← pushFrame lo s
      .ok ⟨mid, s, a⟩
  else
    if x - f.first ≤ c - b then do
      let s ← pushFrame mid s
      let s ← pushFrame lo s
      .ok ⟨hi, s, a⟩
    else if f.last - c ≤ c - b then do
      let s ← pushFrame lo s
      let s ← pushFrame mid s
      .ok ⟨hi, s, a⟩
    else do
      let s ← pushFrame lo s
      let s ← pushFrame hi s
      .ok ⟨mid, s, a⟩

/-- The partition around the character `v`, which the first element has.
sssort.c.inc.h:369-389. -/
def splitAround (e : SsText) (d v first last : Nat) (a : List Int) : C Split := do
  let b ← eqUp e d v a (last - (first + 1)) (first + 1)
  let (p, b, a) ← splitUp e d v last b a
  let c ← eqDown e d v a (last - 1 - b) (last - 1)
  let (q, c, a) ← splitDown e d v b c a
  splitLoop e d v (last - first) ⟨p, b, c, q, a⟩

/-- What follows if the first characters differ. `x` is `a` and `c` is `c` after the swaps.
sssort.c.inc.h:391-430. -/
def splitStep (e : SsText) (f : Frame) (limit : Int) (v : Nat) (r : Split) (s : List Frame) : C MiState := do
  let n := min (r.p - f.first) (r.b - r.p)
  let a ← blockswap n f.first (r.b - n) r.a
  let n := min (r.q + 1 - r.b) (f.last - r.q - 1)
  let a ← blockswap n r.b (f.last - n) a
  let x := f.first + (r.b - r.p)
  let c := f.last - (r.q + 1 - r.b)
  let u ← keyAt e (f.depth - 1) a x
  let (b, a) ← partIf (decide (u < v)) e f.depth x c a
  pushThree f limit x b c s a

/-- What follows if the first characters are all the same. sssort.c.inc.h:431-438. -/
def sameStep (e : SsText) (f : Frame) (limit : Int) (v : Nat) (s : List Frame) (a : List Int) : C MiState := do
  let u ← keyAt e (f.depth - 1) a f.first
  let (first, a) ← partIf (decide (u < v)) e f.depth f.first f.last a
  .ok ⟨⟨first, f.last, f.depth + 1, if u < v then ssIlg (f.last - first) else limit + 1⟩, s, a⟩

/-- What follows if the limit is not reached. sssort.c.inc.h:363-438. -/
def pivotStep (e : SsText) (f : Frame) (limit : Int) (s : List Frame) (a : List Int) : C MiState := do
  let i ← ssPivot e f.depth f.first f.last a
  let v ← keyAt e f.depth a i
  let a ← swapAt f.first i a
  let r ← splitAround e f.depth v f.first f.last a
  if r.p ≤ r.q then splitStep e f limit v r s else sameStep e f limit v s r.a

/-- `if(c) { ss_heapsort(...); }`. -/
def heapIf (c : Bool) (e : SsText) (f : Frame) (a : List Int) : C (List Int) :=
  if c then ssHeapsort e f.depth f.first (f.last - f.first) a else .ok a

/-- One step for a segment of more than `SS_INSERTIONSORT_THRESHOLD` elements.
sssort.c.inc.h:332-438. -/
def mintroStep (e : SsText) (f : Frame) (s : List Frame) (a : List Int) : C MiState := do
  let a ← heapIf (decide (f.limit = 0)) e f a
  if f.limit - 1 < 0 then sortedStep e f s a else pivotStep e f (f.limit - 1) s a

/-- `if(1 < (last - first)) { ss_insertionsort(T, PA, first, last, depth); }`.
sssort.c.inc.h:326. -/
def insIf (e : SsText) (f : Frame) (a : List Int) : C (List Int) :=
  if 1 < f.last - f.first then ssInsertionsort e f.first f.last f.depth a else .ok a

/-- The loop of `ss_mintrosort`. sssort.c.inc.h:322-439. -/
def mintroLoop (e : SsText) : (fuel : Nat) → Frame → List Frame → List Int → C (List Int)
  | 0, _, _, _ => .error .timeout
  | fuel + 1, f, s, a =>
    if f.last - f.first ≤ 8 then do
      let a ← insIf e f a
      match s with
      | [] => .ok a
      | g :: s => mintroLoop e fuel g s a
    else do
      let r ← mintroStep e f s a
      mintroLoop e fuel r.f r.s r.a

/-- `ss_mintrosort`. There are no more steps than `fuel`, as each makes a segment smaller or
the depth greater, which is at most the length of the text. sssort.c.inc.h:310-441. -/
def ssMintrosort (e : SsText) (first last d : Nat) (a : List Int) : C (List Int) :=
  mintroLoop e (4 * ((last - first) * (e.t.length + 1)) + 1) ⟨first, last, d, ssIlg (last - first)⟩ [] a

end Dss

end Detools
