import Verif.Model.Varint
/-
Model of the bsdiff algorithm in detools/bsdiff.c.

The C `int32_t` variables are modelled as `Int`; `int32s` lists the values the
code computes in that type. Every array read is an explicit partial operation.
`none` stands for undefined behaviour (a read or write outside a buffer, signed
overflow), for a size that does not fit the `int32_t` it is cast to, and for a
negative size passed to the Python C API.
-/
namespace Detools

/-- The values are computed as `int32_t`: `none` is an overflow. -/
def int32s (xs : List Int) : Option Unit :=
  if ∀ x ∈ xs, -2 ^ 31 ≤ x ∧ x < 2 ^ 31 then some () else none

/-- A C array read `p[i]`; `none` is an access outside the buffer. -/
def rd (l : Bytes) (i : Int) : Option UInt8 :=
  if i < 0 then none else l[i.toNat]?

/-- `matchlen`: length of the common prefix. The pointer and size pairs are
given as the remaining buffers. detools/bsdiff.c:35-49. -/
def matchlen : Bytes → Bytes → Nat
  | a :: as, b :: bs => if a = b then matchlen as bs + 1 else 0
  | _, _ => 0

/-- `memcmp(a, b, MIN(|a|, |b|)) < 0`. detools/bsdiff.c:86. -/
def memcmpLt : Bytes → Bytes → Bool
  | a :: as, b :: bs => if a = b then memcmpLt as bs else a < b
  | _, _ => false

/-- `from_p + sa_p[x]` together with `from_size - sa_p[x]`: the suffix of the
from data at the x-th suffix array entry. detools/bsdiff.c:64-71, 86. -/
def suffixAt (sa : List Nat) (fr : Bytes) (x : Nat) : Option (Nat × Bytes) :=
  match sa[x]? with
  | none => none
  | some p => if p ≤ fr.length then some (p, fr.drop p) else none

/-- `search`: binary search in the suffix array, returning the match length and
`*pos_p`. `fuel` bounds the recursion depth. Its `int32_t` values are between 0 and
`from_size`, which the caller casts. detools/bsdiff.c:51-91. -/
def search (sa : List Nat) (fr to : Bytes) :
    (fuel : Nat) → (begin_ end_ : Nat) → Option (Nat × Nat)
  | 0, _, _ => none
  | fuel + 1, begin_, end_ =>
    if end_ - begin_ < 2 then do
      let (pb, sb) ← suffixAt sa fr begin_
      let (pe, se) ← suffixAt sa fr end_
      let x := matchlen sb to
      let y := matchlen se to
      if x > y then some (x, pb) else some (y, pe)
    else do
      let x := begin_ + (end_ - begin_) / 2
      let (_, s) ← suffixAt sa fr x
      if memcmpLt s to then search sa fr to fuel x end_
      else search sa fr to fuel begin_ x

/-- One test `(i + last_offset < from_size) && (from_p[i + last_offset] == to_p[i])`.
detools/bsdiff.c:345-346, 355-356. -/
def offsetMatch (fr to : Bytes) (lastOffset i : Int) : Option Bool := do
  int32s [i + lastOffset]
  if i + lastOffset < fr.length then
    let a ← rd fr (i + lastOffset)
    let b ← rd to i
    some (a == b)
  else some false

/-- `for (; scsc < scan + len; scsc++)`, run for `n` iterations.
detools/bsdiff.c:344-349. -/
def scoreLoop (fr to : Bytes) (lastOffset : Int) :
    (n : Nat) → (scsc score : Int) → Option Int
  | 0, _, score => some score
  | n + 1, scsc, score => do
    let m ← offsetMatch fr to lastOffset scsc
    let score := if m then score + 1 else score
    int32s [score, scsc + 1]
    scoreLoop fr to lastOffset n (scsc + 1) score

/-- The variables of `create_patch_loop` changed by the inner scan loop. -/
structure Scan where
  scan : Int
  len : Int
  pos : Int
  score : Int
deriving DecidableEq, Repr

/-- `for (scsc = scan; scan < to_size; scan++) {...}`; `fuel` is at least the
number of bytes left to scan. (`from_score + 8` is asked to fit even where the first
half of the condition holds.) detools/bsdiff.c:334-359. -/
def scanLoop (sa : List Nat) (fr to : Bytes) (lastOffset : Int) :
    (fuel : Nat) → (scsc : Int) → Scan → Option Scan
  | 0, _, s => if s.scan < to.length then none else some s
  | fuel + 1, scsc, s =>
    if s.scan < to.length then do
      int32s [fr.length, to.length, to.length - s.scan]
      let (len, pos) ← search sa fr (to.drop s.scan.toNat) (fr.length + 1) 0 fr.length
      int32s [s.scan + len]
      let score ← scoreLoop fr to lastOffset (s.scan + len - scsc).toNat scsc s.score
      let scsc := max scsc (s.scan + len)
      int32s [score + 8]
      if ((len : Int) = score ∧ len ≠ 0) ∨ (len : Int) > score + 8 then
        some { scan := s.scan, len := len, pos := pos, score := score }
      else do
        let m ← offsetMatch fr to lastOffset s.scan
        let score := if m then score - 1 else score
        int32s [score, s.scan + 1]
        scanLoop sa fr to lastOffset fuel scsc
          { scan := s.scan + 1, len := len, pos := pos, score := score }
    else some s

/-- The forward extension loop computing `diff_size`; `fuel` bounds the
iterations, the final test of the condition included. detools/bsdiff.c:208-219. -/
def forwardLoop (fr to : Bytes) (scan lastScan lastPos : Int) :
    (fuel : Nat) → (i s sf diffSize : Int) → Option Int
  | 0, _, _, _, _ => none
  | fuel + 1, i, s, sf, diffSize => do
    int32s [lastScan + i]
    if lastScan + i < scan then
      int32s [lastPos + i]
    if lastScan + i < scan ∧ lastPos + i < fr.length then
      let a ← rd fr (lastPos + i)
      let b ← rd to (lastScan + i)
      let s := if a = b then s + 1 else s
      let i := i + 1
      int32s [s, i, s * 2, s * 2 - i, sf * 2, sf * 2 - diffSize]
      if s * 2 - i > sf * 2 - diffSize then forwardLoop fr to scan lastScan lastPos fuel i s s i
      else forwardLoop fr to scan lastScan lastPos fuel i s sf diffSize
    else some diffSize

/-- The backward extension loop computing `lenb`. detools/bsdiff.c:227-236. -/
def backwardLoop (fr to : Bytes) (scan pos lastScan : Int) :
    (fuel : Nat) → (i s sb lenb : Int) → Option Int
  | 0, _, _, _, _ => none
  | fuel + 1, i, s, sb, lenb => do
    int32s [lastScan + i]
    if scan ≥ lastScan + i ∧ pos ≥ i then
      int32s [pos - i, scan - i]
      let a ← rd fr (pos - i)
      let b ← rd to (scan - i)
      let s := if a = b then s + 1 else s
      int32s [s, s * 2, s * 2 - i, sb * 2, sb * 2 - lenb, i + 1]
      if s * 2 - i > sb * 2 - lenb then backwardLoop fr to scan pos lastScan fuel (i + 1) s s i
      else backwardLoop fr to scan pos lastScan fuel (i + 1) s sb lenb
    else some lenb

/-- The overlap loop computing `lens`, run for `n` iterations; `a`, `b` index the
to and from data of the forward match, `c`, `d` those of the backward match.
detools/bsdiff.c:246-260. -/
def overlapLoop (fr to : Bytes) (a b c d : Int) :
    (n : Nat) → (i s ss lens : Int) → Option Int
  | 0, _, _, _, lens => some lens
  | n + 1, i, s, ss, lens => do
    int32s [a + i, b + i, c + i, d + i]
    let ta ← rd to (a + i)
    let fb ← rd fr (b + i)
    let tc ← rd to (c + i)
    let fd ← rd fr (d + i)
    let s := if ta = fb then s + 1 else s
    int32s [s]
    let s := if tc = fd then s - 1 else s
    int32s [s, i + 1]
    if s > ss then overlapLoop fr to a b c d n (i + 1) s s (i + 1)
    else overlapLoop fr to a b c d n (i + 1) s ss lens

/-- One diff/extra/adjustment triple, as appended to the chunk list by
`write_diff_extra_and_adjustment`. -/
structure Op where
  diff : Bytes
  extra : Bytes
  adjustment : Int
deriving DecidableEq, Repr

/-- The five chunks appended for one triple: `append_buffer` twice and
`append_size`. detools/bsdiff.c:148-173, 271, 285, 292. -/
def Op.chunks (op : Op) : List Bytes :=
  [packSize op.diff.length, op.diff, packSize op.extra.length, op.extra, packSize op.adjustment]

/-- `debuf_p[i] = to_p[last_scan + i] - from_p[last_pos + i]` for `n` iterations.
detools/bsdiff.c:267-269. -/
def diffBytes (fr to : Bytes) (lastScan lastPos : Int) : (n : Nat) → (i : Int) → Option Bytes
  | 0, _ => some []
  | n + 1, i => do
    int32s [lastScan + i, lastPos + i, i + 1]
    let t ← rd to (lastScan + i)
    let f ← rd fr (lastPos + i)
    let rest ← diffBytes fr to lastScan lastPos n (i + 1)
    some ((t - f) :: rest)

/-- `debuf_p[i] = to_p[extra_pos + i]` for `n` iterations. detools/bsdiff.c:281-283. -/
def extraBytes (to : Bytes) (extraPos : Int) : (n : Nat) → (i : Int) → Option Bytes
  | 0, _ => some []
  | n + 1, i => do
    int32s [extraPos + i, i + 1]
    let t ← rd to (extraPos + i)
    let rest ← extraBytes to extraPos n (i + 1)
    some (t :: rest)

/-- Backward extension: `lenb`. detools/bsdiff.c:221-237. -/
def backwardExtend (fr to : Bytes) (scan pos lastScan : Int) : Option Int :=
  if scan < to.length then
    backwardLoop fr to scan pos lastScan ((scan - lastScan).toNat + 1) 1 0 0 0
  else some 0

/-- Overlap resolution: the final `diff_size` and `lenb`. detools/bsdiff.c:239-264. -/
def resolveOverlap (fr to : Bytes) (scan pos lastScan lastPos diffSize lenb : Int) :
    Option (Int × Int) := do
  let overlap := (lastScan + diffSize) - (scan - lenb)
  int32s [lastScan + diffSize, scan - lenb, overlap]
  if overlap > 0 then
    int32s [lastScan + diffSize - overlap, lastPos + diffSize, lastPos + diffSize - overlap, pos - lenb]
    let lens ← overlapLoop fr to (lastScan + diffSize - overlap) (lastPos + diffSize - overlap)
      (scan - lenb) (pos - lenb) overlap.toNat 0 0 0 0
    int32s [lens - overlap, diffSize + (lens - overlap), lenb - lens]
    some (diffSize + (lens - overlap), lenb - lens)
  else some (diffSize, lenb)

/-- Filling the scratch buffer: a negative size, a write beyond the buffer or a
read outside the data is a fault. -/
def fillDebuf (debufSize : Nat) (size : Int) (fill : Nat → Option Bytes) : Option Bytes :=
  if size < 0 ∨ size > debufSize then none else fill size.toNat

/-- `write_diff_extra_and_adjustment`: the triple and the new values of
`*last_scan_p`, `*last_pos_p`, `*last_offset_p`. `debufSize` is the size of the
scratch buffer. detools/bsdiff.c:175-303. -/
def writeDiffExtraAdjustment (fr to : Bytes) (debufSize : Nat) (scan pos lastScan lastPos : Int) :
    Option (Op × Int × Int × Int) := do
  let diffSize ← forwardLoop fr to scan lastScan lastPos ((scan - lastScan).toNat + 1) 0 0 0 0
  let lenb ← backwardExtend fr to scan pos lastScan
  let (diffSize, lenb) ← resolveOverlap fr to scan pos lastScan lastPos diffSize lenb
  let diff ← fillDebuf debufSize diffSize (fun n => diffBytes fr to lastScan lastPos n 0)
  let extraPos := lastScan + diffSize
  let extraSize := scan - lenb - extraPos
  int32s [extraPos, scan - lenb, extraSize]
  let extra ← fillDebuf debufSize extraSize (fun n => extraBytes to extraPos n 0)
  let adjustment := (pos - lenb) - (lastPos + diffSize)
  int32s [pos - lenb, lastPos + diffSize, adjustment, pos - scan]
  some ({ diff := diff, extra := extra, adjustment := adjustment },
    scan - lenb, pos - lenb, pos - scan)

/-- The variables of `create_patch_loop`. -/
structure Loop where
  scan : Int := 0
  len : Int := 0
  pos : Int := 0
  lastScan : Int := 0
  lastPos : Int := 0
  lastOffset : Int := 0
deriving DecidableEq, Repr

/-- `while (scan < to_size) {...}` of `create_patch_loop`. detools/bsdiff.c:330-378. -/
def createLoop (sa : List Nat) (fr to : Bytes) (debufSize : Nat) :
    (fuel : Nat) → Loop → Option (List Op)
  | 0, s => if s.scan < to.length then none else some []
  | fuel + 1, s =>
    if s.scan < to.length then do
      let scan0 := s.scan + s.len
      int32s [scan0]
      let r ← scanLoop sa fr to s.lastOffset to.length scan0
        { scan := scan0, len := s.len, pos := s.pos, score := 0 }
      if r.len ≠ r.score ∨ r.scan = to.length then do
        let (op, lastScan, lastPos, lastOffset) ←
          writeDiffExtraAdjustment fr to debufSize r.scan r.pos s.lastScan s.lastPos
        let ops ← createLoop sa fr to debufSize fuel
          { scan := r.scan, len := r.len, pos := r.pos,
            lastScan := lastScan, lastPos := lastPos, lastOffset := lastOffset }
        some (op :: ops)
      else
        createLoop sa fr to debufSize fuel
          { s with scan := r.scan, len := r.len, pos := r.pos }
    else some []

/-- The triples produced by `create_patch_loop`. detools/bsdiff.c:305-381. -/
def createOps (sa : List Nat) (fr to : Bytes) (debufSize : Nat) : Option (List Op) :=
  createLoop sa fr to debufSize (to.length + 2) {}

/-- `bsdiff.create_patch(suffix_array, from_data, to_data, de_data)`: the list of
chunks. detools/bsdiff.c:476-530. -/
def bsdiffCreatePatch (sa : List Nat) (fr to : Bytes) (debufSize : Nat) : Option (List Bytes) :=
  (createOps sa fr to debufSize).map (fun ops => ops.flatMap Op.chunks)

/-- `bsdiff.add_bytes`. detools/bsdiff.c:566-622. -/
def addBytes (a b : Bytes) : Except PyErr Bytes :=
  if a.length ≠ b.length then .error (.builtin "ValueError: Lengths must be equal.")
  else .ok (List.zipWith (· + ·) a b)

end Detools
