import Verif.Model.Sssort
/-
Model of the merging functions of `sssort` and of `sssort` itself.
detools/libdivsufsort/sssort.c.inc.h, divsufsort_private.h.

What Model/Sssort says of simplifications holds here as well. A pointer that is moved to before
the element it is compared with, such as `b < first` after `b--`, is replaced by how many
elements are left.
-/
namespace Detools

namespace Dss
open Sais

/-! ### The square root -/

/-- `sqq_table`. sssort.c.inc.h:87-104. -/
def sqqTable : List Nat := [
  0,  16,  22,  27,  32,  35,  39,  42,  45,  48,  50,  53,  55,  57,  59,  61,
 64,  65,  67,  69,  71,  73,  75,  76,  78,  80,  81,  83,  84,  86,  87,  89,
 90,  91,  93,  94,  96,  97,  98,  99, 101, 102, 103, 104, 106, 107, 108, 109,
110, 112, 113, 114, 115, 116, 117, 118, 119, 120, 121, 122, 123, 124, 125, 126,
128, 128, 129, 130, 131, 132, 133, 134, 135, 136, 137, 138, 139, 140, 141, 142,
143, 144, 144, 145, 146, 147, 148, 149, 150, 150, 151, 152, 153, 154, 155, 155,
156, 157, 158, 159, 160, 160, 161, 162, 163, 163, 164, 165, 166, 167, 167, 168,
169, 170, 170, 171, 172, 173, 173, 174, 175, 176, 176, 177, 178, 178, 179, 180,
181, 181, 182, 183, 183, 184, 185, 185, 186, 187, 187, 188, 189, 189, 190, 191,
192, 192, 193, 193, 194, 195, 195, 196, 197, 197, 198, 199, 199, 200, 201, 201,
202, 203, 203, 204, 204, 205, 206, 206, 207, 208, 208, 209, 209, 210, 211, 211,
212, 212, 213, 214, 214, 215, 215, 216, 217, 217, 218, 218, 219, 219, 220, 221,
221, 222, 222, 223, 224, 224, 225, 225, 226, 226, 227, 227, 228, 229, 229, 230,
230, 231, 231, 232, 232, 233, 234, 234, 235, 235, 236, 236, 237, 237, 238, 238,
239, 240, 240, 241, 241, 242, 242, 243, 243, 244, 244, 245, 245, 246, 246, 247,
247, 248, 248, 249, 249, 250, 250, 251, 251, 252, 252, 253, 253, 254, 254, 255]

/-- `e`, which is the number of the highest bit of `x`, or -1. `x` is less than 2^20, so the
case of `x & 0xff000000` does not occur. sssort.c.inc.h:112-118. -/
def isqrtExp (x : Nat) : Int :=
  if x / 65536 ≠ 0 then 16 + lgTable (x / 65536 % 256)
  else if x / 256 % 256 ≠ 0 then 8 + lgTable (x / 256 % 256)
  else lgTable (x % 256)

/-- `(y + 1 + x / y) >> 1`. -/
def newton (x y : Nat) : C Nat := if y = 0 then .error .divZero else .ok ((y + 1 + x / y) / 2)

/-- `ss_isqrt`. `e` is less than 20, so the second Newton step is not made.
sssort.c.inc.h:106-131. -/
def ssIsqrt (x : Nat) : C Nat :=
  if 1024 * 1024 ≤ x then .ok 1024
  else
    let e := isqrtExp x
    if 16 ≤ e then do
      let y ← rd sqqTable (x >>> ((e.toNat - 6) - e.toNat % 2))
      let y ← newton x (y <<< (e.toNat / 2 - 7))
      .ok (if x < y * y then y - 1 else y)
    else if 8 ≤ e then do
      let y ← rd sqqTable (x >>> ((e.toNat - 6) - e.toNat % 2))
      let y := (y >>> (7 - e.toNat / 2)) + 1
      .ok (if x < y * y then y - 1 else y)
    else do
      let y ← rd sqqTable x
      .ok (y >>> 4)

/-! ### Rotation -/

/-- `*a-- = *b, *b-- = *a` for `todo` elements, where `x` is `a` and `y` is one more than `b`:
the last `a` and the array. sssort.c.inc.h:470-471. -/
def rotDown : (todo x y : Nat) → List Int → C (Nat × List Int)
  | 0, x, _, a => .ok (x, a)
  | todo + 1, x, y, a => do
    let v ← rd a (y - 1)
    let a ← wr a x v
    let w ← rd a (x - 1)
    let a ← wr a (y - 1) w
    rotDown todo (x - 1) (y - 1) a

/-- `*a++ = *b, *b++ = *a` for `todo` elements. sssort.c.inc.h:483-484. -/
def rotUp : (todo x y : Nat) → List Int → C (Nat × List Int)
  | 0, x, _, a => .ok (x, a)
  | todo + 1, x, y, a => do
    let v ← rd a y
    let a ← wr a x v
    let w ← rd a (x + 1)
    let a ← wr a y w
    rotUp todo (x + 1) (y + 1) a

/-- The loop of `ss_rotate`. A pass of the inner loops ends when `b` has reached `first` or
`last`. The inner loop goes on as long as the longer part is the same one. The outer loop would
do the same, so here each pass is left for the outer loop. sssort.c.inc.h:465-494. -/
def rotLoop : (fuel first middle last : Nat) → List Int → C (List Int)
  | 0, _, _, _, _ => .error .timeout
  | fuel + 1, first, middle, last, a =>
    if 0 < middle - first ∧ 0 < last - middle then
      if middle - first = last - middle then blockswap (middle - first) first middle a
      else if middle - first < last - middle then do
        let t ← rd a (last - 1)
        let (x, a) ← rotDown (middle - first) (last - 1) middle a
        let a ← wr a x t
        rotLoop fuel first middle x a
      else do
        let t ← rd a first
        let (x, a) ← rotUp (last - middle) first middle a
        let a ← wr a x t
        rotLoop fuel (x + 1) middle last a
    else .ok a

/-- `ss_rotate`. sssort.c.inc.h:461-495. -/
def ssRotate (first middle last : Nat) (a : List Int) : C (List Int) :=
  rotLoop (last - first + 1) first middle last a

/-! ### Merging in place -/

/-- `GETIDX(*p)`. sssort.c.inc.h:658. -/
def getIdx (a : List Int) (i : Nat) : C Nat := do
  let v ← rd a i
  idx (if 0 ≤ v then v else inv v)

/-- The binary search for the first element that is not less than number `p`: its index and the
last comparison that was not negative. sssort.c.inc.h:514-525. -/
def placeSearch (e : SsText) (d p : Nat) (a : List Int) : (fuel x len half : Nat) → (r : Int) → C (Nat × Int)
  | 0, _, _, _, _ => .error .timeout
  | fuel + 1, x, len, half, r =>
    if 0 < len then do
      let v ← getIdx a (x + half)
      let q ← ssCompare e d v p
      if q < 0 then
        let next := half - (1 - len % 2)
        placeSearch e d p a fuel (x + half + 1) next (next / 2) r
      else placeSearch e d p a fuel x half (half / 2) q
    else .ok (x, r)

/-- `while(*--last < 0) { }`. sssort.c.inc.h:534. -/
def skipBack (a : List Int) : (last : Nat) → C Nat
  | 0 => .error .oob
  | i + 1 => do
    let v ← rd a i
    if v < 0 then skipBack a i else .ok i

/-- `if(c) { while(*--last < 0) { } }`. -/
def skipBackIf (c : Bool) (a : List Int) (last : Nat) : C Nat := if c then skipBack a last else .ok last

/-- `if(a < middle) { ... }`: `middle`, `last` and the array. sssort.c.inc.h:526-530. -/
def placeStep (x middle last : Nat) (r : Int) (a : List Int) : C (Nat × Nat × List Int) :=
  if x < middle then do
    let a ← invIf (decide (r = 0)) x a
    let a ← ssRotate x middle last a
    .ok (x, last - (middle - x), a)
  else .ok (middle, last, a)

/-- The loop of `ss_inplacemerge`. sssort.c.inc.h:511-536. -/
def inplaceLoop (e : SsText) (d first : Nat) : (fuel middle last : Nat) → List Int → C (List Int)
  | 0, _, _, _ => .error .timeout
  | fuel + 1, middle, last, a => do
    let v ← rd a (last - 1)
    let p ← getIdx a (last - 1)
    let (x, r) ← placeSearch e d p a (middle - first + 1) first (middle - first) ((middle - first) / 2) (-1)
    let (middle', last, a) ← placeStep x middle last r a
    if x < middle ∧ first = middle' then .ok a
    else
      let last ← skipBackIf (decide (v < 0)) a (last - 1)
      if middle' = last then .ok a else inplaceLoop e d first fuel middle' last a

/-- `ss_inplacemerge`. sssort.c.inc.h:502-537. -/
def ssInplacemerge (e : SsText) (first middle last d : Nat) (a : List Int) : C (List Int) :=
  inplaceLoop e d first (last - middle) middle last a

/-! ### Merging with a buffer -/

/-- Where a merge is, if it has not returned, and the array. -/
abbrev MergeAt := Option (Nat × Nat) × List Int

/-- `do { *a++ = *b; if(bufend <= b) { *bufend = t; return; } *b++ = *a; } while(*b < 0)`; `x`
is `a` and `todo` is `bufend - b`. sssort.c.inc.h:558-562, 574-578. -/
def fwdBuf (t : Int) : (todo x b : Nat) → List Int → C MergeAt
  | 0, x, b, a => do
    let v ← rd a b
    let a ← wr a x v
    let a ← wr a b t
    .ok (none, a)
  | todo + 1, x, b, a => do
    let v ← rd a b
    let a ← wr a x v
    let w ← rd a (x + 1)
    let a ← wr a b w
    let u ← rd a (b + 1)
    if u < 0 then fwdBuf t todo (x + 1) (b + 1) a else .ok (some (x + 1, b + 1), a)

/-- `while(b < bufend) { *a++ = *b, *b++ = *a; } *a = *b, *b = t;`; `todo` is `bufend - b`.
sssort.c.inc.h:567-568, 583-584. -/
def fwdTail (t : Int) : (todo x b : Nat) → List Int → C (List Int)
  | 0, x, b, a => do
    let v ← rd a b
    let a ← wr a x v
    wr a b t
  | todo + 1, x, b, a => do
    let v ← rd a b
    let a ← wr a x v
    let w ← rd a (x + 1)
    let a ← wr a b w
    fwdTail t todo (x + 1) (b + 1) a

/-- `do { *a++ = *c, *c++ = *a; if(last <= c) { ... return; } } while(*c < 0)`; `todo` is
`last - c - 1` and `left` is `bufend - b`. sssort.c.inc.h:564-571, 580-587. -/
def fwdArr (t : Int) (left b : Nat) : (todo x c : Nat) → List Int → C MergeAt
  | 0, x, c, a => do
    let v ← rd a c
    let a ← wr a x v
    let w ← rd a (x + 1)
    let a ← wr a c w
    let a ← fwdTail t left (x + 1) b a
    .ok (none, a)
  | todo + 1, x, c, a => do
    let v ← rd a c
    let a ← wr a x v
    let w ← rd a (x + 1)
    let a ← wr a c w
    let u ← rd a (c + 1)
    if u < 0 then fwdArr t left b todo (x + 1) (c + 1) a else .ok (some (x + 1, c + 1), a)

/-- The loop of `ss_mergeforward`. sssort.c.inc.h:555-589. -/
def fwdLoop (e : SsText) (d bufend last : Nat) (t : Int) : (fuel x b c : Nat) → List Int → C (List Int)
  | 0, _, _, _, _ => .error .timeout
  | fuel + 1, x, b, c, a => do
    let v ← getNo a b
    let w ← getNo a c
    let r ← ssCompare e d v w
    if r < 0 then
      match ← fwdBuf t (bufend - b) x b a with
      | (none, a) => .ok a
      | (some (x, b), a) => fwdLoop e d bufend last t fuel x b c a
    else if 0 < r then
      match ← fwdArr t (bufend - b) b (last - c - 1) x c a with
      | (none, a) => .ok a
      | (some (x, c), a) => fwdLoop e d bufend last t fuel x b c a
    else do
      let a ← invIf true c a
      match ← fwdBuf t (bufend - b) x b a with
      | (none, a) => .ok a
      | (some (x, b), a) =>
        match ← fwdArr t (bufend - b) b (last - c - 1) x c a with
        | (none, a) => .ok a
        | (some (x, c), a) => fwdLoop e d bufend last t fuel x b c a

/-- `ss_mergeforward`. sssort.c.inc.h:545-590. -/
def ssMergeforward (e : SsText) (first middle last buf d : Nat) (a : List Int) : C (List Int) := do
  let a ← blockswap (middle - first) buf first a
  let t ← rd a first
  fwdLoop e d (buf + (middle - first) - 1) last t (last - first) first buf middle a

/-- `do { *a-- = *b, *b-- = *a; } while(*b < 0)`; `x` is `a` and `y` is `b`.
sssort.c.inc.h:615, 622, 632, 636. -/
def bwdNeg : (x y : Nat) → List Int → C (Nat × Nat × List Int)
  | _, 0, _ => .error .oob
  | x, y + 1, a => do
    let v ← rd a (y + 1)
    let a ← wr a x v
    let w ← rd a (x - 1)
    let a ← wr a (y + 1) w
    let u ← rd a y
    if u < 0 then bwdNeg (x - 1) y a else .ok (x - 1, y, a)

/-- `if(x & 1) { do { *a-- = *b, *b-- = *a; } while(*b < 0); x ^= 1; }`. The bit is set exactly
if `*b` is negative, so here it is computed from that. The same for `x & 2` and `*c`. -/
def bwdNegIf (x y : Nat) (a : List Int) : C (Nat × Nat × List Int) := do
  let v ← rd a y
  if v < 0 then bwdNeg x y a else .ok (x, y, a)

/-- The elements of a group are moved from the buffer. The first of them is complemented if `c`.
sssort.c.inc.h:615-618, 632-635. -/
def bwdBuf (c : Bool) (t : Int) (buf x b : Nat) (a : List Int) : C MergeAt := do
  let (x, b, a) ← bwdNegIf x b a
  let v ← rd a b
  let a ← wr a x (if c then inv v else v)
  if b ≤ buf then
    let a ← wr a buf t
    .ok (none, a)
  else
    let w ← rd a (x - 1)
    let a ← wr a b w
    .ok (some (x - 1, b - 1), a)

/-- `while(buf < b) { *a-- = *b, *b-- = *a; } *a = *b, *b = t;`; `todo` is `b - buf`.
sssort.c.inc.h:625-626, 639-640. -/
def bwdTail (t : Int) : (todo x b : Nat) → List Int → C (List Int)
  | 0, x, b, a => do
    let v ← rd a b
    let a ← wr a x v
    wr a b t
  | todo + 1, x, b, a => do
    let v ← rd a b
    let a ← wr a x v
    let w ← rd a (x - 1)
    let a ← wr a b w
    bwdTail t todo (x - 1) (b - 1) a

/-- The elements of a group are moved from the left part. sssort.c.inc.h:622-628, 636-642. -/
def bwdArr (t : Int) (first buf b x c : Nat) (a : List Int) : C MergeAt := do
  let (x, c, a) ← bwdNegIf x c a
  let v ← rd a c
  let a ← wr a x v
  let w ← rd a (x - 1)
  let a ← wr a c w
  if c ≤ first then
    let a ← bwdTail t (b - buf) (x - 1) b a
    .ok (none, a)
  else .ok (some (x - 1, c - 1), a)

/-- The loop of `ss_mergebackward`. `p1` and `p2` are computed when they are needed: what they
are computed from does not change before. sssort.c.inc.h:612-648. -/
def bwdLoop (e : SsText) (d first buf : Nat) (t : Int) : (fuel x b c : Nat) → List Int → C (List Int)
  | 0, _, _, _, _ => .error .timeout
  | fuel + 1, x, b, c, a => do
    let v ← getIdx a b
    let w ← getIdx a c
    let r ← ssCompare e d v w
    if 0 < r then
      match ← bwdBuf false t buf x b a with
      | (none, a) => .ok a
      | (some (x, b), a) => bwdLoop e d first buf t fuel x b c a
    else if r < 0 then
      match ← bwdArr t first buf b x c a with
      | (none, a) => .ok a
      | (some (x, c), a) => bwdLoop e d first buf t fuel x b c a
    else do
      match ← bwdBuf true t buf x b a with
      | (none, a) => .ok a
      | (some (x, b), a) =>
        match ← bwdArr t first buf b x c a with
        | (none, a) => .ok a
        | (some (x, c), a) => bwdLoop e d first buf t fuel x b c a

/-- `ss_mergebackward`. sssort.c.inc.h:595-649. -/
def ssMergebackward (e : SsText) (first middle last buf d : Nat) (a : List Int) : C (List Int) := do
  let a ← blockswap (last - middle) buf middle a
  let t ← rd a (last - 1)
  bwdLoop e d first buf t (last - first) (last - 1) (buf + (last - middle) - 1) (middle - 1) a

/-! ### Divide and conquer -/

/-- The three bits of `check` and of `next`. -/
structure Bits where
  b1 : Bool
  b2 : Bool
  b4 : Bool

/-- An element of the stack, or the current `first`, `middle`, `last` and `check`. -/
structure Part where
  first : Nat
  middle : Nat
  last : Nat
  check : Bits

/-- `if(c && (ss_compare(T, PA + GETIDX(*(p - 1)), PA + *p, depth) == 0))`. -/
def sameAsBefore (c : Bool) (e : SsText) (d p : Nat) (a : List Int) : C Bool :=
  if c then do
    let v ← getIdx a (p - 1)
    let w ← getNo a p
    let r ← ssCompare e d v w
    .ok (decide (r = 0))
  else .ok false

/-- `MERGE_CHECK`. sssort.c.inc.h:659-668. -/
def mergeCheck (e : SsText) (d : Nat) (f : Part) (a : List Int) : C (List Int) := do
  let c ← sameAsBefore (!f.check.b1 && f.check.b2) e d f.first a
  let a ← invIf (f.check.b1 || c) f.first a
  let c ← sameAsBefore f.check.b4 e d f.last a
  invIf c f.last a

/-- The binary search for `m`. sssort.c.inc.h:694-702. -/
def swapSearch (e : SsText) (d middle : Nat) (a : List Int) : (fuel m len half : Nat) → C Nat
  | 0, _, _, _ => .error .timeout
  | fuel + 1, m, len, half =>
    if 0 < len then do
      let v ← getIdx a (middle + m + half)
      let w ← getIdx a (middle - m - half - 1)
      let r ← ssCompare e d v w
      if r < 0 then
        let next := half - (1 - len % 2)
        swapSearch e d middle a fuel (m + half + 1) next (next / 2)
      else swapSearch e d middle a fuel m half (half / 2)
    else .ok m

/-- `for(; *r < 0; ++r) { }`; `todo` is how many elements are left in the array.
sssort.c.inc.h:714. -/
def skipUp (a : List Int) : (todo r : Nat) → C Nat
  | 0, _ => .error .oob
  | todo + 1, r => do
    let v ← rd a r
    if v < 0 then skipUp a todo (r + 1) else .ok r

/-- What is found at `rm`: `l`, `r`, `next` and the array. sssort.c.inc.h:707-717. -/
def swapNext (f : Part) (lm rm : Nat) (a : List Int) : C (Nat × Nat × Bits × List Int) :=
  if rm < f.last then do
    let v ← rd a rm
    if v < 0 then
      let a ← wr a rm (inv v)
      if f.first < lm then
        let l ← skipBack a f.middle
        .ok (l, f.middle, ⟨true, false, true⟩, a)
      else .ok (f.middle, f.middle, ⟨true, false, false⟩, a)
    else if f.first < lm then
      let r ← skipUp a (a.length - f.middle) f.middle
      .ok (f.middle, r, ⟨false, true, false⟩, a)
    else .ok (f.middle, f.middle, ⟨false, false, false⟩, a)
  else .ok (f.middle, f.middle, ⟨false, false, false⟩, a)

/-- `STACK_PUSH`. sssort.c.inc.h:655-658, divsufsort_private.h:154-159. -/
def pushPart (f : Part) (s : List Part) : C (List Part) := if s.length < 32 then .ok (f :: s) else .error .oob

/-- The two parts: one is pushed and the other is next. sssort.c.inc.h:719-726. -/
def swapPush (f : Part) (lm rm l r : Nat) (next : Bits) (s : List Part) : C (Part × List Part) :=
  if l - f.first ≤ f.last - r then do
    let s ← pushPart ⟨r, rm, f.last, ⟨next.b1, next.b2, f.check.b4⟩⟩ s
    .ok (⟨f.first, lm, l, ⟨f.check.b1, f.check.b2, next.b4⟩⟩, s)
  else do
    let flip := next.b2 && decide (r = f.middle)
    let next : Bits := ⟨next.b1, next.b2 ^^ flip, next.b4 ^^ flip⟩
    let s ← pushPart ⟨f.first, lm, l, ⟨f.check.b1, f.check.b2, next.b4⟩⟩ s
    .ok (⟨r, rm, f.last, ⟨next.b1, next.b2, f.check.b4⟩⟩, s)

/-- `if(c) { ss_mergebackward(...); }`. -/
def bwdIf (c : Bool) (e : SsText) (d buf : Nat) (f : Part) (a : List Int) : C (List Int) :=
  if c then ssMergebackward e f.first f.middle f.last buf d a else .ok a

/-- `if(c) { ss_mergeforward(...); }`. -/
def fwdIf (c : Bool) (e : SsText) (d buf : Nat) (f : Part) (a : List Int) : C (List Int) :=
  if c then ssMergeforward e f.first f.middle f.last buf d a else .ok a

/-- What follows if there is something to swap. sssort.c.inc.h:704-733. -/
def swapStep (f : Part) (m : Nat) (s : List Part) (a : List Int) : C (Part × List Part × List Int) := do
  let a ← blockswap m (f.middle - m) f.middle a
  let (l, r, next, a) ← swapNext f (f.middle - m) (f.middle + m) a
  let (g, s) ← swapPush f (f.middle - m) (f.middle + m) l r next s
  .ok (g, s, a)

/-- One step: none if the part is merged, or the part that is next, and the stack.
sssort.c.inc.h:676-733. -/
def swapmergeStep (e : SsText) (d buf bufsize : Nat) (f : Part) (s : List Part) (a : List Int) : C (Option (Part × List Part) × List Int) :=
  if f.last - f.middle ≤ bufsize then do
    let a ← bwdIf (decide (f.first < f.middle) && decide (f.middle < f.last)) e d buf f a
    let a ← mergeCheck e d f a
    .ok (none, a)
  else if f.middle - f.first ≤ bufsize then do
    let a ← fwdIf (decide (f.first < f.middle)) e d buf f a
    let a ← mergeCheck e d f a
    .ok (none, a)
  else do
    let len := min (f.middle - f.first) (f.last - f.middle)
    let m ← swapSearch e d f.middle a (len + 1) 0 len (len / 2)
    if 0 < m then
      let (g, s, a) ← swapStep f m s a
      .ok (some (g, s), a)
    else
      let c ← sameAsBefore true e d f.middle a
      let a ← invIf c f.middle a
      let a ← mergeCheck e d f a
      .ok (none, a)

/-- The loop of `ss_swapmerge`. sssort.c.inc.h:675-734. -/
def swapmergeLoop (e : SsText) (d buf bufsize : Nat) : (fuel : Nat) → Part → List Part → List Int → C (List Int)
  | 0, _, _, _ => .error .timeout
  | fuel + 1, f, s, a => do
    match ← swapmergeStep e d buf bufsize f s a with
    | (some (g, s), a) => swapmergeLoop e d buf bufsize fuel g s a
    | (none, a) =>
      match s with
      | [] => .ok a
      | g :: s => swapmergeLoop e d buf bufsize fuel g s a

/-- `ss_swapmerge`. sssort.c.inc.h:654-736. -/
def ssSwapmerge (e : SsText) (first middle last buf bufsize d : Nat) (a : List Int) : C (List Int) :=
  swapmergeLoop e d buf bufsize (2 * (last - first)) ⟨first, middle, last, ⟨false, false, false⟩⟩ [] a

/-! ### sssort -/

/-- `for(b = a, k = SS_BLOCKSIZE, j = i; j & 1; b -= k, k <<= 1, j >>= 1) { ss_swapmerge(...); }`.
The difference of pointers `b - k` is not checked: what is read there would be. `j` halves, so
`fuel` need not be more than `i + 1`. sssort.c.inc.h:780-782. -/
def mergeUp (e : SsText) (curbuf cursize d : Nat) : (fuel b k j : Nat) → List Int → C (List Int)
  | 0, _, _, _, _ => .error .timeout
  | fuel + 1, b, k, j, a =>
    if j % 2 = 1 then do
      let a ← ssSwapmerge e (b - k) b (b + k) curbuf cursize d a
      mergeUp e curbuf cursize d fuel (b - k) (2 * k) (j / 2) a
    else .ok a

/-- The loop over the blocks: `a`, `i` and the array. sssort.c.inc.h:771-783. -/
def blockLoop (e : SsText) (middle last buf bufsize d : Nat) : (fuel x i : Nat) → List Int → C (Nat × Nat × List Int)
  | 0, _, _, _ => .error .timeout
  | fuel + 1, x, i, a =>
    if 1024 < middle - x then do
      let a ← ssMintrosort e x (x + 1024) d a
      let own := decide (last - (x + 1024) ≤ bufsize)
      let a ← mergeUp e (if own then buf else x + 1024) (if own then bufsize else last - (x + 1024)) d (i + 1) x 1024 i a
      blockLoop e middle last buf bufsize d fuel (x + 1024) (i + 1) a
    else .ok (x, i, a)

/-- `for(k = SS_BLOCKSIZE; i != 0; k <<= 1, i >>= 1) { if(i & 1) { ss_swapmerge(...); a -= k; } }`.
sssort.c.inc.h:789-794. -/
def mergeRest (e : SsText) (middle buf bufsize d : Nat) : (fuel x k i : Nat) → List Int → C (List Int)
  | 0, _, _, _, _ => .error .timeout
  | fuel + 1, x, k, i, a =>
    if i ≠ 0 then
      if i % 2 = 1 then do
        let a ← ssSwapmerge e (x - k) x middle buf bufsize d a
        mergeRest e middle buf bufsize d fuel (x - k) (2 * k) (i / 2) a
      else mergeRest e middle buf bufsize d fuel x (2 * k) (i / 2) a
    else .ok a

/-- `if(limit != 0) { ss_mintrosort(...); ss_inplacemerge(...); }`. sssort.c.inc.h:795-802. -/
def mergeLimit (e : SsText) (first middle last limit d : Nat) (a : List Int) : C (List Int) :=
  if limit ≠ 0 then do
    let a ← ssMintrosort e middle last d a
    ssInplacemerge e first middle last d a
  else .ok a

/-- `limit`. It is not set if the buffer is large. sssort.c.inc.h:763-770. -/
def ssLimit (n bufsize : Nat) : C Nat :=
  if bufsize < 1024 ∧ bufsize < n then do
    let limit ← ssIsqrt n
    .ok (if bufsize < limit then (if 1024 < limit then 1024 else limit) else 0)
  else .ok 0

/-- The sorting of the elements from `first` to `last`. sssort.c.inc.h:762-803. -/
def ssSortMain (e : SsText) (first last buf bufsize d : Nat) (a : List Int) : C (List Int) := do
  let limit ← ssLimit (last - first) bufsize
  let middle := last - limit
  let buf := if limit = 0 then buf else middle
  let bufsize := if limit = 0 then bufsize else limit
  let (x, i, a) ← blockLoop e middle last buf bufsize d (last - first + 1) first 0 a
  let a ← ssMintrosort e x middle d a
  let a ← mergeRest e middle buf bufsize d (i + 1) x 1024 i a
  mergeLimit e first middle last limit d a

/-- `ss_compare(T, &(PAi[0]), PA + s, depth)`, where `PAi` is `PA[r]` and `n - 2`.
sssort.c.inc.h:141-156, 807-809. -/
def lastCompare (e : SsText) (d x s : Nat) : C Int := do
  let x2 ← e.pos s
  let y2 ← e.pos (s + 1)
  ssCmp e.t (y2 + 2) (e.t.length - (x + d)) (x + d) (x2 + d)

/-- The loop that makes room for the last B* suffix, which starts at `x`: the last `a`; `todo`
is `last - a`. sssort.c.inc.h:808-812. -/
def lastLoop (e : SsText) (d x : Nat) : (todo p : Nat) → List Int → C (Nat × List Int)
  | 0, p, a => .ok (p, a)
  | todo + 1, p, a => do
    let v ← rd a p
    if v < 0 then
      let a ← wr a (p - 1) v
      lastLoop e d x todo (p + 1) a
    else
      let s ← idx v
      let r ← lastCompare e d x s
      if 0 < r then
        let a ← wr a (p - 1) v
        lastLoop e d x todo (p + 1) a
      else .ok (p, a)

/-- The insertion of the last B* suffix. sssort.c.inc.h:805-814. -/
def insertLast (e : SsText) (first last d : Nat) (a : List Int) : C (List Int) := do
  let v ← rd a (first - 1)
  let r ← idx v
  let x ← e.pos r
  let (p, a) ← lastLoop e d x (last - first) first a
  wr a (p - 1) v

/-- `sssort`. sssort.c.inc.h:747-816. -/
def ssSort (e : SsText) (first last buf bufsize d : Nat) (lastsuffix : Bool) (a : List Int) : C (List Int) :=
  if lastsuffix then do
    let a ← ssSortMain e (first + 1) last buf bufsize d a
    insertLast e (first + 1) last d a
  else ssSortMain e first last buf bufsize d a

/-- `sssort` as it is called by `sort_typeBstar`: `PA` is the last `m` elements, the buffer is
the elements before them from `m` on. divsufsort.c.inc.h:133-139. -/
def callSsSort (t : List Nat) (m i j : Nat) (last : Bool) (sa : List Int) : C (List Int) := do
  let a ← ssSort ⟨t, sa.drop (t.length - m)⟩ i j m (t.length - 2 * m) 2 last (sa.take (t.length - m))
  .ok (a ++ sa.drop (t.length - m))

end Dss

end Detools
