import Verif.Model.Bsdiff
/-
Model of what the extension modules take and give back: buffers of their arguments, Python
objects, memory and a temporary file. Any call of CPython, `malloc`, or of a stream can fail.
detools/bsdiff.c:130-145, 383-622, detools/suffix_array.c:37-97, detools/sais/sais.c:485-775,
detools/libdivsufsort/divsufsort.c.inc.h:331-358, detools/hdiffpatch.cpp. What is computed
is modelled in `Model/Bsdiff`, `Sais`, `Divsufsort` and `HDiffModule`, and here a parameter.
The references of the arguments are borrowed.
-/
namespace Detools.Ext

/-- What an extension must not do: release a buffer that is not held, use an object that
is gone, close a file that is not open, free what is not allocated. -/
inductive Misuse where
  | notHeld | gone | notOpen | notAllocated
deriving DecidableEq, Repr

abbrev P (α : Type) := Except Misuse α

/-- An object: its references, the objects in it if it is a list, its bytes if it has any. -/
structure Obj where
  refs : Nat
  items : List Nat
  data : Bytes
deriving DecidableEq, Repr

/-- What is held: the buffers (by argument), the objects (`none` once gone), the blocks of
memory, the number of open files; and whether an exception is set. `calls` counts the calls
that can fail, `refused` is that a call of malloc failed. -/
structure State where
  calls : Nat := 0
  views : List Nat := []
  objs : List (Option Obj) := []
  blocks : List Nat := []
  files : Nat := 0
  raised : Bool := false
  refused : Bool := false
deriving DecidableEq, Repr

/-- Which calls succeed, by number. -/
abbrev Luck := Nat → Bool

/-- A call of CPython: it sets an exception if it fails. -/
def call (A : Luck) (s : State) : Bool × State :=
  (A s.calls, { s with calls := s.calls + 1, raised := s.raised || !A s.calls })

/-- `PyErr_SetString` and `PyErr_Format`. -/
def raise (s : State) : State := { s with raised := true }

/-- `PyObject_GetBuffer` of an argument. -/
def getBuffer (A : Luck) (s : State) (arg : Nat) : Bool × State :=
  match call A s with
  | (true, s) => (true, { s with views := arg :: s.views })
  | (false, s) => (false, s)

/-- `PyBuffer_Release` -/
def release (s : State) (arg : Nat) : P State :=
  if arg ∈ s.views then .ok { s with views := s.views.erase arg } else .error .notHeld

/-- `PyList_New`, `PyBytes_FromStringAndSize`, `PyByteArray_FromStringAndSize`. -/
def new (A : Luck) (s : State) (data : Bytes) : Option Nat × State :=
  match call A s with
  | (true, s) => (some s.objs.length, { s with objs := s.objs ++ [some ⟨1, [], data⟩] })
  | (false, s) => (none, s)

/-- An object that is used. -/
def get (s : State) (i : Nat) : P Obj :=
  match s.objs[i]? with
  | some (some o) => .ok o
  | _ => .error .gone

/-- `PyList_Append` -/
def append (A : Luck) (s : State) (l i : Nat) : P (Bool × State) := do
  let lo ← get s l
  let o ← get s i
  match call A s with
  | (false, s) => .ok (false, s)
  | (true, s) =>
    .ok (true, { s with objs := (s.objs.set l (some { lo with items := lo.items ++ [i] })).set i (some { o with refs := o.refs + 1 }) })

/-- One reference less to an object that holds no others. -/
def drop (objs : List (Option Obj)) (i : Nat) : P (List (Option Obj)) :=
  match objs[i]? with
  | some (some o) => .ok (objs.set i (if o.refs > 1 then some { o with refs := o.refs - 1 } else none))
  | _ => .error .gone

/-- One reference less to each of the objects of a list that is gone. -/
def dropAll : List Nat → List (Option Obj) → P (List (Option Obj))
  | [], objs => .ok objs
  | i :: is, objs => do
    let objs ← drop objs i
    dropAll is objs

/-- `Py_DECREF`. The objects in a list hold no others. -/
def decref (s : State) (i : Nat) : P State := do
  let o ← get s i
  if o.refs > 1 then .ok { s with objs := s.objs.set i (some { o with refs := o.refs - 1 }) }
  else do
    let objs ← dropAll o.items (s.objs.set i none)
    .ok { s with objs := objs }

/-- `PyByteArray_Resize` -/
def resize (A : Luck) (s : State) (i n : Nat) : P (Bool × State) := do
  let o ← get s i
  match call A s with
  | (false, s) => .ok (false, s)
  | (true, s) => .ok (true, { s with objs := s.objs.set i (some { o with data := List.replicate n 0 }) })

/-- Write the bytes of a byte array. -/
def fill (s : State) (i : Nat) (data : Bytes) : P State := do
  let o ← get s i
  .ok { s with objs := s.objs.set i (some { o with data := data }) }

/-- `malloc`: the block. No exception is set. -/
def malloc (A : Luck) (s : State) : Option Nat × State :=
  if A s.calls then (some s.calls, { s with calls := s.calls + 1, blocks := s.calls :: s.blocks })
  else (none, { s with calls := s.calls + 1, refused := true })

/-- `free` -/
def free (s : State) : Option Nat → P State
  | none => .ok s
  | some b => if b ∈ s.blocks then .ok { s with blocks := s.blocks.erase b } else .error .notAllocated

/-- What a function returns: an object, NULL, or it does not return, as the process ended. -/
inductive Ret where
  | obj (i : Nat)
  | null
  | ended
deriving DecidableEq, Repr

/-! ### bsdiff.c -/

/-- `append_bytes`. detools/bsdiff.c:130-145. -/
def appendBytes (A : Luck) (s : State) (l : Nat) (data : Bytes) : P (Bool × State) :=
  match new A s data with
  | (none, s) => .ok (false, s)
  | (some b, s) => do
    let (ok, s) ← append A s l b
    let s ← decref s b
    .ok (ok, s)

/-- The calls of `append_bytes` that `create_patch_loop` makes, until one fails.
`append_size` calls it with the bytes of the size. detools/bsdiff.c:147-173, 296-381. -/
def appendAll (A : Luck) (l : Nat) : List Bytes → State → P (Bool × State)
  | [], s => .ok (true, s)
  | d :: ds, s => do
    let (ok, s) ← appendBytes A s l d
    if ok then appendAll A l ds s else .ok (false, s)

/-- `m_pack_size` of a value with these bytes. detools/bsdiff.c:383-411. -/
def packSize (A : Luck) (packed : Bytes) : P (Ret × State) :=
  match call A {} with
  | (false, s) => .ok (.null, s)
  | (true, s) =>
    match new A s packed with
    | (none, s) => .ok (.null, s)
    | (some b, s) => .ok (.obj b, s)

/-- `PyObject_GetBuffer` of arguments in order; if one fails those before are released, the
last one first, as by the labels `err3`, `err2` and `err1`. detools/bsdiff.c:436-474. -/
def getBuffers (A : Luck) : (held args : List Nat) → State → P (Bool × State)
  | _, [], s => .ok (true, s)
  | held, a :: args, s =>
    match getBuffer A s a with
    | (true, s) => getBuffers A (a :: held) args s
    | (false, s) => do
      let s ← held.foldlM release s
      .ok (false, s)

/-- `parse_args`, `parse_add_bytes_args` and `parse_create_patch_args` for `n` arguments with
buffers. detools/bsdiff.c:413-474, 532-564, detools/hdiffpatch.cpp:33-74. -/
def parseArgs (A : Luck) (n : Nat) : P (Bool × State) :=
  match call A {} with
  | (false, s) => .ok (false, s)
  | (true, s) => getBuffers A [] (List.range n) s

/-- `m_create_patch`, where `chunks` are the bytes the loop appends.
detools/bsdiff.c:476-530. -/
def createPatch (A : Luck) (chunks : List Bytes) : P (Ret × State) := do
  let (ok, s) ← parseArgs A 4
  if !ok then .ok (.null, s)
  else
    match new A s [] with
    | (none, s) => do
      let s ← [0, 1, 2, 3].foldlM release s
      .ok (.null, s)
    | (some l, s) => do
      let (ok, s) ← appendAll A l chunks s
      if ok then do
        let s ← [0, 1, 2, 3].foldlM release s
        .ok (.obj l, s)
      else do
        let s ← decref s l
        let s ← [0, 1, 2, 3].foldlM release s
        .ok (.null, s)

/-- `m_add_bytes`: if the lengths are not equal it returns at once.
detools/bsdiff.c:566-622. -/
def addBytes (A : Luck) (a b : Bytes) : P (Ret × State) := do
  let (ok, s) ← parseArgs A 2
  if !ok then .ok (.null, s)
  else if a.length ≠ b.length then .ok (.null, raise s)
  else
    match new A s [0] with
    | (none, s) => do
      let s ← [0, 1].foldlM release s
      .ok (.null, s)
    | (some i, s) => do
      let (ok, s) ← resize A s i a.length
      if ok then do
        let s ← fill s i (List.zipWith (· + ·) a b)
        let s ← [0, 1].foldlM release s
        .ok (.obj i, s)
      else do
        let s ← decref s i
        let s ← [0, 1].foldlM release s
        .ok (.null, s)

/-! ### suffix_array.c -/

/-- One call of `sais_main`: the sizes that decide where its arrays are, and whether it calls
itself (`name < m`). -/
structure Level where
  k : Nat
  fs : Nat
  n : Nat
  m : Nat
  reduces : Bool

/-- The arrays of `sais_main`, `none` if they are in the unused part of the suffix array, and
the bits 1, 2, 4 and 16 of `flags`. -/
structure Arrays where
  c : Option Nat := none
  b : Option Nat := none
  f1 : Bool := false
  f2 : Bool := false
  f4 : Bool := false
  f16 : Bool := false

/-- The bit 16, set after the arrays are allocated. detools/sais/sais.c:554-560. -/
def Level.bit16 (v : Level) (f1 : Bool) : Bool :=
  decide (v.n ≤ 0x3fffffff ∧ 2 ≤ v.n / v.k) && f1 && decide (¬ v.k * 2 ≤ v.fs - v.k)

/-- The allocation of the arrays; `none` is the return value -2.
detools/sais/sais.c:513-560. -/
def arrays (A : Luck) (v : Level) (s : State) : P (Option Arrays × State) :=
  if v.k ≤ 256 then
    match malloc A s with
    | (none, s) => .ok (none, s)
    | (some c, s) =>
      if v.k ≤ v.fs then .ok (some { c := some c, f1 := true, f16 := v.bit16 true }, s)
      else
        match malloc A s with
        | (none, s) => do
          let s ← free s (some c)
          .ok (none, s)
        | (some b, s) => .ok (some { c := some c, b := some b, f1 := true, f2 := true, f16 := v.bit16 true }, s)
  else if v.k ≤ v.fs then
    if v.k ≤ v.fs - v.k then .ok (some {}, s)
    else if v.k ≤ 1024 then
      match malloc A s with
      | (none, s) => .ok (none, s)
      | (some b, s) => .ok (some { b := some b, f2 := true }, s)
    else .ok (some {}, s)
  else
    match malloc A s with
    | (none, s) => .ok (none, s)
    | (some c, s) => .ok (some { c := some c, f4 := true }, s)

/-- Free the array `p` if the bit is set. -/
def freeIf (bit : Bool) (s : State) (p : Option Nat) : P State := if bit then free s p else .ok s

/-- The array of `lms_sort_2`; the return value is whether it could be had.
detools/sais/sais.c:598-635. -/
def sortArray (A : Luck) (v : Level) (a : Arrays) (s : State) : P (Bool × State) :=
  if 1 < v.m ∧ a.f16 then
    match malloc A s with
    | (none, s) => do
      let s ← freeIf (a.f1 || a.f4) s a.c
      let s ← freeIf a.f2 s a.b
      .ok (false, s)
    | (some d, s) => do
      let s ← free s (some d)
      .ok (true, s)
  else .ok (true, s)

/-- The arrays after the call of `sais_main` by itself: those that were freed are allocated
again. detools/sais/sais.c:711-726. -/
def arraysAgain (A : Luck) (a : Arrays) (s : State) : P (Option Arrays × State) :=
  if a.f4 then
    match malloc A s with
    | (none, s) => .ok (none, s)
    | (some c, s) => .ok (some { a with c := some c }, s)
  else if a.f2 then
    match malloc A s with
    | (none, s) => do
      let s ← freeIf a.f1 s a.c
      .ok (none, s)
    | (some b, s) => .ok (some { a with b := some b }, s)
  else .ok (some a, s)

/-- `sais_main`; the levels below are those of the calls of itself. The bits 2 and 4 are never
both set. detools/sais/sais.c:485-775. -/
def saisMain (A : Luck) : List Level → State → P (Int × State)
  | [], s => .ok (0, s)
  | v :: below, s => do
    let (a, s) ← arrays A v s
    match a with
    | none => .ok (-2, s)
    | some a => do
      let (ok, s) ← sortArray A v a s
      if !ok then .ok (-2, s)
      else if v.reduces then do
        let s ← freeIf a.f4 s a.c
        let s ← freeIf a.f2 s a.b
        let (res, s) ← saisMain A below s
        if res ≠ 0 then do
          let s ← freeIf a.f1 s a.c
          .ok (-2, s)
        else do
          let (a, s) ← arraysAgain A a s
          match a with
          | none => .ok (-2, s)
          | some a => do
            let s ← freeIf (a.f1 || a.f4) s a.c
            let s ← freeIf a.f2 s a.b
            .ok (0, s)
      else do
        let s ← freeIf (a.f1 || a.f4) s a.c
        let s ← freeIf a.f2 s a.b
        .ok (0, s)

/-- `divsufsort` for three bytes or more.
detools/libdivsufsort/divsufsort.c.inc.h:343-357. -/
def divsufsort (A : Luck) (s : State) : P (Int × State) := do
  let (a, s) := malloc A s
  let (b, s) := malloc A s
  let err : Int := if a.isSome ∧ b.isSome then 0 else -2
  let s ← free s b
  let s ← free s a
  .ok (err, s)

/-- `create`: `None` is returned, or NULL if a buffer cannot be had or the algorithm fails.
`None` is object 0 of the result. detools/suffix_array.c:37-97. -/
def createSuffixArray (A : Luck) (algorithm : State → P (Int × State)) : P (Ret × State) := do
  let (ok, s) ← parseArgs A 2
  if !ok then .ok (.null, s)
  else do
    let (res, s) ← algorithm s
    if res ≠ 0 then do
      let s ← release s 1
      let s ← release s 0
      .ok (.null, s)
    else do
      let s ← release s 0
      let s ← release s 1
      .ok (.obj 0, { s with objs := s.objs ++ [some ⟨1, [], []⟩] })

/-! ### hdiffpatch.cpp -/

/-- `create_patch_suffix_array`: `none` is a C++ exception, which is caught.
detools/hdiffpatch.cpp:76-102. -/
def patchSuffixArray (A : Luck) (diff : Option Bytes) (s : State) : P (Ret × State) :=
  match diff with
  | none => .ok (.null, raise s)
  | some d =>
    match new A s d with
    | (none, s) => .ok (.null, s)
    | (some i, s) => .ok (.obj i, s)

/-- `hpatch_TFileStreamOutput_close` -/
def close (s : State) : P State := if s.files = 0 then .error .notOpen else .ok { s with files := s.files - 1 }

/-- A call of the C library: no exception is set if it fails. -/
def stdio (A : Luck) (s : State) : Bool × State := (A s.calls, { s with calls := s.calls + 1 })

/-- `create_patch_match_blocks`: `none` is a C++ exception, which is not caught. The
temporary file is open. detools/hdiffpatch.cpp:104-176. -/
def patchMatchBlocks (A : Luck) (diff : Option Bytes) (s : State) : P (Ret × State) :=
  let s := { s with files := s.files + 1 }
  match diff with
  | none => .ok (.ended, s)
  | some d =>
    match new A s [0] with
    | (none, s) => do
      let s ← close s
      .ok (.null, s)
    | (some i, s) => do
      let (ok, s) ← resize A s i d.length
      if !ok then do
        let s ← close s
        let s ← decref s i
        .ok (.null, s)
      else
        match stdio A s with
        | (false, s) => do
          let s ← close (raise s)
          let s ← decref s i
          .ok (.null, s)
        | (true, s) =>
          match stdio A s with
          | (ok, s) => do
            let s ← fill s i d
            let s ← close s
            if !ok then do
              let s ← decref (raise s) i
              .ok (.null, s)
            else .ok (.obj i, s)

/-- `m_create_patch` of the hdiffpatch module; `blocks` is `match_block_size != 0`.
detools/hdiffpatch.cpp:185-226. -/
def hdiffCreate (A : Luck) (blocks : Bool) (diff : Option Bytes) : P (Ret × State) := do
  let (ok, s) ← parseArgs A 2
  if !ok then .ok (.null, s)
  else do
    let (r, s) ← if blocks then patchMatchBlocks A diff s else patchSuffixArray A diff s
    if r = .ended then .ok (r, s)
    else do
      let s ← release s 0
      let s ← release s 1
      .ok (r, s)

/-- `m_apply_patch` of the hdiffpatch module, whose arguments are bytes objects. `header` is
the size of the to-data if the library reads the patch and it is for from-data of this size,
`to` is what the library puts out, `none` if it fails. `get_patch_mem_cache` calls malloc
until it succeeds, which is the one call here. detools/hdiffpatch.cpp:228-372. -/
def hdiffApply (A : Luck) (header : Option Nat) (to : Option Bytes) : P (Ret × State) :=
  match call A {} with
  | (false, s) => .ok (.null, s)
  | (true, s) =>
    match call A s with
    | (false, s) => .ok (.null, s)
    | (true, s) =>
      match call A s with
      | (false, s) => .ok (.null, s)
      | (true, s) =>
        match header with
        | none => .ok (.null, s)
        | some n =>
          match new A s [0] with
          | (none, s) => .ok (.null, s)
          | (some i, s) => do
            let (ok, s) ← resize A s i n
            if !ok then .ok (.null, s)
            else
              let (p, s) := malloc (fun _ => true) s
              match to with
              | none => .ok (.ended, s)
              | some d => do
                let s ← fill s i d
                let s ← free s p
                .ok (.obj i, s)

end Detools.Ext
