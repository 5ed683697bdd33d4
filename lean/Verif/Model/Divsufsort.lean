import Verif.Model.Sais
/-
Model of divsufsort, the default suffix array construction.
detools/libdivsufsort/divsufsort.c.inc.h, divsufsort_private.h, detools/suffix_array.c.

As in Model/Sais the text is a list of characters, the suffix array a list of 32-bit
integers, and an access outside of an array is undefined behaviour. Simplifications common to
all definitions:

* sssort and trsort are parameters: what they leave in the suffix array.
* A scan of the text reads the character after the current one again, where the code has it
  in `c1`.
* Bucket elements are integers without bounds, as none is greater than n.
* Allocations do not fail (if one does the code returns -2, and the Python function returns
  NULL without setting an exception). Assertions are not modelled (the code is built with
  NDEBUG, and the theorems imply them). There is no OpenMP.
-/
namespace Detools

namespace Dss
open Sais

/-- An integer used as an index. -/
def idx (i : Int) : C Nat := if i < 0 then .error .oob else .ok i.toNat

/-- `++a[i]`. -/
def incr (a : List Int) (i : Nat) : C (List Int) := do
  let v ← rd a i
  wr a i (v + 1)

/-- The index of `BUCKET_B(c0, c1)`. divsufsort_private.h:183. -/
def bIx (c0 c1 : Nat) : Nat := (c1 <<< 8) ||| c0

/-- The index of `BUCKET_BSTAR(c0, c1)`, in the same array. divsufsort_private.h:184. -/
def sIx (c0 c1 : Nat) : Nat := (c0 <<< 8) ||| c1

/-- The arrays `SA`, `bucket_A` and `bucket_B`, and `m`. -/
structure Scan where
  sa : List Int
  m : Nat
  a : List Int
  b : List Int

/-- The types of the suffixes from the end to the start: counts of the first one or two
characters of each type, and the positions of type B* at the end of the suffix array.
Position `i` was dealt with last and is of type A or B. divsufsort.c.inc.h:60-73. -/
def countLoop (t : List Nat) : (i : Nat) → (typeA : Bool) → Scan → C Scan
  | 0, _, s => .ok s
  | i + 1, true, s => do
    let c1 ← rd t (i + 1)
    let c0 ← rd t i
    if c0 ≥ c1 then
      let a ← incr s.a c0
      countLoop t i true ⟨s.sa, s.m, a, s.b⟩
    else
      let b ← incr s.b (sIx c0 c1)
      let m ← dec s.m
      let sa ← st s.sa m i
      countLoop t i false ⟨sa, m, s.a, b⟩
  | i + 1, false, s => do
    let c1 ← rd t (i + 1)
    let c0 ← rd t i
    if c0 ≤ c1 then
      let b ← incr s.b (bIx c0 c1)
      countLoop t i false ⟨s.sa, s.m, s.a, b⟩
    else
      let a ← incr s.a c0
      countLoop t i true ⟨s.sa, s.m, a, s.b⟩

/-- The loop over `c1`: end points of the B* buckets. divsufsort.c.inc.h:85-89. -/
def startsInner (c0 : Nat) : (todo c1 : Nat) → (i j : Int) → List Int → C (Int × Int × List Int)
  | 0, _, i, j, b => .ok (i, j, b)
  | todo + 1, c1, i, j, b => do
    let v ← rd b (sIx c0 c1)
    let b ← wr b (sIx c0 c1) (j + v)
    let w ← rd b (bIx c0 c1)
    startsInner c0 todo (c1 + 1) (i + w) (j + v) b

/-- The loop over `c0`: start points of the buckets. divsufsort.c.inc.h:81-90. -/
def startsOuter : (todo c0 : Nat) → (i j : Int) → (a b : List Int) → C (List Int × List Int)
  | 0, _, _, _, a, b => .ok (a, b)
  | todo + 1, c0, i, j, a, b => do
    let v ← rd a c0
    let a ← wr a c0 (i + j)
    let w ← rd b (bIx c0 c0)
    let (i, j, b) ← startsInner c0 (255 - c0) (c0 + 1) (i + v + w) j b
    startsOuter todo (c0 + 1) i j a b

/-- The suffix array and the buckets. -/
structure SaBB where
  sa : List Int
  b : List Int

/-- B* suffix number `r` goes to the bucket of its first two characters. `pab` is where `PAb`
is in the suffix array. divsufsort.c.inc.h:96-97. -/
def placeStar (t : List Nat) (pab r : Nat) (s : SaBB) : C SaBB := do
  let p ← rd s.sa (pab + r)
  let p ← idx p
  let c0 ← rd t p
  let c1 ← rd t (p + 1)
  let v ← rd s.b (sIx c0 c1)
  let b ← wr s.b (sIx c0 c1) (v - 1)
  let i ← idx (v - 1)
  let sa ← st s.sa i r
  .ok ⟨sa, b⟩

/-- The B* suffixes sorted by their first two characters, the last one last.
divsufsort.c.inc.h:94-100. -/
def placeStars (t : List Nat) (m : Nat) (s : SaBB) : C SaBB := do
  let s ← downLoop (placeStar t (t.length - m)) (m - 1) s
  placeStar t (t.length - m) (m - 1) s

/-- A B* suffix at `p` goes to its rank, which is in `ISAb[j]`; it is marked if the suffix
before it is of type A: `i` is the next position before it that is not of type B, -1 if there
is none. divsufsort.c.inc.h:167. -/
def setStar (m j p : Nat) (i : Int) (sa : List Int) : C (List Int) := do
  let r ← rd sa (m + j)
  let r ← idx r
  st sa r (if p = 0 ∨ 1 < (p : Int) - i then (p : Int) else inv p)

/-- The sorted order of the B* suffixes. Position `i` was dealt with last; `star` is the last
B* position if it is of type B. divsufsort.c.inc.h:162-169. -/
def setLoop (t : List Nat) (m : Nat) : (i : Nat) → (star : Option Nat) → (j : Nat) → List Int → C (List Int)
  | 0, none, _, sa => .ok sa
  | 0, some p, j, sa => do
    let j ← dec j
    setStar m j p (-1) sa
  | i + 1, none, j, sa => do
    let c1 ← rd t (i + 1)
    let c0 ← rd t i
    if c0 ≥ c1 then setLoop t m i none j sa
    else setLoop t m i (some i) j sa
  | i + 1, some p, j, sa => do
    let c1 ← rd t (i + 1)
    let c0 ← rd t i
    if c0 ≤ c1 then setLoop t m i (some p) j sa
    else
      let j ← dec j
      let sa ← setStar m j p i sa
      setLoop t m i none j sa

/-- Moves the B* suffixes of a bucket to their places: `SA[i] = SA[k]` while `j <= k`.
`todo` is how many elements there are from `j` to `k`. divsufsort.c.inc.h:180-182. -/
def moveStars : (todo : Nat) → (i k : Int) → List Int → C (Int × Int × List Int)
  | 0, i, k, sa => .ok (i, k, sa)
  | todo + 1, i, k, sa => do
    let k' ← idx k
    let i' ← idx i
    let v ← rd sa k'
    let sa ← st sa i' v
    moveStars todo (i - 1) (k - 1) sa

/-- The loop over `c1`, from 255 to `c0 + 1`; `c0 + todo` is `c1`.
divsufsort.c.inc.h:175-183. -/
def moveInner (c0 : Nat) : (todo : Nat) → (i k : Int) → SaBB → C (Int × Int × SaBB)
  | 0, i, k, s => .ok (i, k, s)
  | todo + 1, i, k, s => do
    let c1 := c0 + (todo + 1)
    let w ← rd s.b (bIx c0 c1)
    let b ← wr s.b (bIx c0 c1) i
    let j ← rd b (sIx c0 c1)
    let (i, k, sa) ← moveStars (k - j + 1).toNat (i - w) k s.sa
    moveInner c0 todo i k ⟨sa, b⟩

/-- The loop over `c0`, from 254 to 0; `todo` is one more than `c0`.
divsufsort.c.inc.h:173-186. -/
def moveOuter (a : List Int) : (todo : Nat) → (k : Int) → SaBB → C SaBB
  | 0, _, s => .ok s
  | c0 + 1, k, s => do
    let v ← rd a (c0 + 1)
    let (i, k, s) ← moveInner c0 (255 - c0) (v - 1) k s
    let w ← rd s.b (bIx c0 c0)
    let b ← wr s.b (sIx c0 (c0 + 1)) (i - w + 1)
    let b ← wr b (bIx c0 c0) i
    moveOuter a c0 k ⟨s.sa, b⟩

/-- The place for the next type B suffix, `k`, cached for the character `c2` (none: -1).
divsufsort.c.inc.h:208. -/
structure Cursor where
  k : Int
  c2 : Option Nat

/-- `if(c0 != c2) { if(0 <= c2) { BUCKET_B(c2, c1) = k; } k = BUCKET_B(c2 = c0, c1); }`.
divsufsort.c.inc.h:218-221. -/
def loadB (c0 c1 : Nat) (cur : Cursor) (b : List Int) : C (Cursor × List Int) :=
  if cur.c2 = some c0 then .ok (cur, b)
  else do
    let b ← match cur.c2 with
      | some c2 => wr b (bIx c2 c1) cur.k
      | none => .ok b
    let k ← rd b (bIx c0 c1)
    .ok (⟨k, some c0⟩, b)

/-- `(0 < s) && (T[s - 1] > c0)`. divsufsort.c.inc.h:217. -/
def largerBefore (t : List Nat) (p c0 : Nat) : C Bool :=
  if 0 < p then do
    let x ← rd t (p - 1)
    .ok (decide (x > c0))
  else .ok false

/-- The scan of the bucket of `c1` from right to left, from `j` on; `todo` elements are left.
divsufsort.c.inc.h:207-228. -/
def scanB (t : List Nat) (c1 : Nat) : (todo : Nat) → (j : Int) → Cursor → SaBB → C SaBB
  | 0, _, _, s => .ok s
  | todo + 1, j, cur, s => do
    let j' ← idx j
    let v ← rd s.sa j'
    let sa ← st s.sa j' (inv v)
    if 0 < v then
      let p := v.toNat - 1
      let c0 ← rd t p
      let pred ← largerBefore t p c0
      let (cur, b) ← loadB c0 c1 cur s.b
      let k ← idx cur.k
      let sa ← st sa k (if pred then inv p else p)
      scanB t c1 todo (j - 1) ⟨cur.k - 1, cur.c2⟩ ⟨sa, b⟩
    else scanB t c1 todo (j - 1) cur ⟨sa, s.b⟩

/-- The type B suffixes from those of type B*; `todo` is one more than `c1`.
divsufsort.c.inc.h:202-230. -/
def scanBs (t : List Nat) (a : List Int) : (todo : Nat) → SaBB → C SaBB
  | 0, s => .ok s
  | c1 + 1, s => do
    let i ← rd s.b (sIx c1 (c1 + 1))
    let v ← rd a (c1 + 1)
    let s ← scanB t c1 (v - i).toNat (v - 1) ⟨0, none⟩ s
    scanBs t a c1 s

/-- The suffix array, `bucket_A`, and the place for the next type A suffix, cached for the
character `c2`. -/
structure SaA where
  sa : List Int
  a : List Int
  k : Int
  c2 : Nat

/-- `(s == 0) || (T[s - 1] < c0)`. divsufsort.c.inc.h:241. -/
def firstOrSmallerBefore (t : List Nat) (p c0 : Nat) : C Bool :=
  if p = 0 then .ok true
  else do
    let x ← rd t (p - 1)
    .ok (decide (x < c0))

/-- `if(c0 != c2) { BUCKET_A(c2) = k; k = BUCKET_A(c2 = c0); }`.
divsufsort.c.inc.h:242-245. -/
def loadA (c0 : Nat) (s : SaA) : C SaA :=
  if c0 = s.c2 then .ok s
  else do
    let a ← wr s.a s.c2 s.k
    let k ← rd a c0
    .ok ⟨s.sa, a, k, c0⟩

/-- One step of the scan from left to right: the type A suffix before the one found.
divsufsort.c.inc.h:238-251. -/
def scanAStep (t : List Nat) (i : Nat) (s : SaA) : C SaA := do
  let v ← rd s.sa i
  if 0 < v then
    let p := v.toNat - 1
    let c0 ← rd t p
    let pred ← firstOrSmallerBefore t p c0
    let s ← loadA c0 s
    let k ← idx s.k
    let sa ← st s.sa k (if pred then inv p else p)
    .ok ⟨sa, s.a, s.k + 1, s.c2⟩
  else
    let sa ← st s.sa i (inv v)
    .ok ⟨sa, s.a, s.k, s.c2⟩

/-- The type A suffixes from those of type B. divsufsort.c.inc.h:234-252. -/
def scanA (t : List Nat) (a sa : List Int) : C (List Int) := do
  let c2 ← rd t (t.length - 1)
  let x ← rd t (t.length - 2)
  let k ← rd a c2
  let k' ← idx k
  let last : Int := (t.length - 1 : Nat)
  let sa ← st sa k' (if x < c2 then inv last else last)
  let s ← upLoop (scanAStep t) t.length 0 ⟨sa, a, k + 1, c2⟩
  .ok s.sa

/-- `sssort` and `trsort`. The first is given the text, `m`, the first and the last index (the
latter excluded) in the suffix array of the numbers to sort, and whether the first is that of
the last B* suffix. Its other arguments follow: `PAb` is the last `m` elements of the suffix
array, the buffer those between the first and the last `m`, the depth is 2. The second is given
`m`; `ISAb` is the `m` elements from index `m` on, the depth is 1. Both change the suffix
array. sssort.c.inc.h:745-815, trsort.c.inc.h:553-586, as called at divsufsort.c.inc.h:137-138,
159. -/
structure Sorters where
  ss : List Nat → (m i j : Nat) → (last : Bool) → List Int → C (List Int)
  tr : (m : Nat) → List Int → C (List Int)

/-- `if(1 < (j - i)) { sssort(...) }`. divsufsort.c.inc.h:136-139. -/
def ssBucket (o : Sorters) (t : List Nat) (m : Nat) (i j : Int) (sa : List Int) : C (List Int) :=
  if 1 < j - i then do
    let i' ← idx i
    let v ← rd sa i'
    o.ss t m i' j.toNat (decide (v = (m : Int) - 1)) sa
  else .ok sa

/-- The loop over `c1`, from 255 to `c0 + 1`; `c0 + todo` is `c1`.
divsufsort.c.inc.h:134-140. -/
def ssInner (o : Sorters) (t : List Nat) (m : Nat) (b : List Int) (c0 : Nat) : (todo : Nat) → (j : Int) → List Int → C (Int × List Int)
  | 0, j, sa => .ok (j, sa)
  | todo + 1, j, sa => do
    let i ← rd b (sIx c0 (c0 + (todo + 1)))
    let sa ← ssBucket o t m i j sa
    ssInner o t m b c0 todo i sa

/-- The loop over `c0`, from 254 while there are elements before `j`; `todo` is one more than
`c0`. divsufsort.c.inc.h:133-141. -/
def ssOuter (o : Sorters) (t : List Nat) (m : Nat) (b : List Int) : (todo : Nat) → (j : Int) → List Int → C (List Int)
  | 0, j, sa => if 0 < j then .error .oob else .ok sa
  | c0 + 1, j, sa =>
    if 0 < j then do
      let (j, sa) ← ssInner o t m b c0 (255 - c0) j sa
      ssOuter o t m b c0 j sa
    else .ok sa

/-- `do { ISAb[SA[i]] = i; } while((0 <= --i) && (0 <= SA[i]))`, given `i + 1`, returning the
new `i + 1`. `SA[i]` is not negative at first. divsufsort.c.inc.h:148. -/
def rankSingles (m : Nat) : (n : Nat) → List Int → C (Nat × List Int)
  | 0, sa => .ok (0, sa)
  | i + 1, sa => do
    let v ← rd sa i
    if 0 ≤ v then
      let sa ← st sa (m + v.toNat) i
      rankSingles m i sa
    else .ok (i + 1, sa)

/-- `do { ISAb[SA[i] = ~SA[i]] = j; } while(SA[--i] < 0); ISAb[SA[i]] = j;`, given `i + 1`,
returning the new `i`. `SA[i]` is negative at first. divsufsort.c.inc.h:153-154. -/
def rankGroup (m j : Nat) : (n : Nat) → List Int → C (Nat × List Int)
  | 0, _ => .error .oob
  | i + 1, sa => do
    let v ← rd sa i
    if v < 0 then
      let sa ← st sa i (inv v)
      let r ← idx (inv v)
      let sa ← st sa (m + r) j
      rankGroup m j i sa
    else do
      let sa ← st sa (m + v.toNat) j
      .ok (i, sa)

/-- The ranks of the B* substrings, for the elements before `n`, that is `i + 1`. `fuel` is not
less than `n`. divsufsort.c.inc.h:145-156. -/
def rankLoop (m : Nat) : (fuel n : Nat) → List Int → C (List Int)
  | _, 0, sa => .ok sa
  | 0, _, _ => .error .oob
  | fuel + 1, i + 1, sa => do
    let v ← rd sa i
    if 0 ≤ v then
      let (n, sa) ← rankSingles m (i + 1) sa
      let sa ← st sa n ((n : Int) - 1 - i)
      if n ≤ 1 then .ok sa
      else
        let (n, sa) ← rankGroup m (n - 1) n sa
        rankLoop m fuel n sa
    else
      let (n, sa) ← rankGroup m i (i + 1) sa
      rankLoop m fuel n sa

/-- From the B* suffixes in the buckets of their first two characters to their ranks.
divsufsort.c.inc.h:132-159. -/
def sortStars (o : Sorters) (t : List Nat) (m : Nat) (p : SaBB) : C (List Int) := do
  let sa ← ssOuter o t m p.b 255 m p.sa
  let sa ← rankLoop m m m sa
  o.tr m sa

/-- `sort_typeBstar`: the suffix array, the buckets and `m`. divsufsort.c.inc.h:35-190. -/
def sortTypeBstar (o : Sorters) (t : List Nat) (sa : List Int) : C Scan := do
  let c ← rd t (t.length - 1)
  let a ← incr (List.replicate 256 0) c
  let s ← countLoop t (t.length - 1) true ⟨sa, t.length, a, List.replicate 65536 0⟩
  let m := t.length - s.m
  let (a, b) ← startsOuter 256 0 0 0 s.a s.b
  if 0 < m then
    let p ← placeStars t m ⟨s.sa, b⟩
    let sa ← sortStars o t m p
    let sa ← setLoop t m (t.length - 1) none m sa
    let b ← wr p.b (bIx 255 255) t.length
    let p ← moveOuter a 255 (m - 1) ⟨sa, b⟩
    .ok ⟨p.sa, m, a, p.b⟩
  else .ok ⟨s.sa, m, a, b⟩

/-- `construct_SA`. divsufsort.c.inc.h:192-253. -/
def constructSa (t : List Nat) (s : Scan) : C (List Int) :=
  if 0 < s.m then do
    let r ← scanBs t s.a 255 ⟨s.sa, s.b⟩
    scanA t s.a r.sa
  else scanA t s.a s.sa

end Dss

open Dss Sais in
/-- `divsufsort`, given what is in the suffix array before. divsufsort.c.inc.h:331-358. -/
def divsufsort (o : Sorters) (data : Bytes) (sa : List Int) : C (List Int) :=
  let t := data.map UInt8.toNat
  match t with
  | [] => .ok sa
  | [_] => wr sa 0 0
  | [x, y] => do
    let m := if x < y then 1 else 0
    let sa ← wr sa (m ^^^ 1) 0
    wr sa m 1
  | t => do
    let s ← sortTypeBstar o t sa
    constructSa t s

/-- `suffix_array.divsufsort`: the position after the data, then the result of `divsufsort`, in
an array with `sa` in it. detools/suffix_array.c:39-93, 110-113. -/
def divsufsortArray (o : Dss.Sorters) (sa : List Int) (data : Bytes) : C (List Nat) :=
  if 2 ^ 31 ≤ data.length then .error .overflow else do
    let sa ← divsufsort o data sa
    .ok (data.length :: sa.map Int.toNat)

end Detools
