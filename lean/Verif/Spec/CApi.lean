import Verif.Model.CSequential
/-
Vocabulary for statements about the low level C API: histories of calls and what the
callbacks saw.
-/
namespace Detools

variable [Build]

/-- The compressions of the build: none, CRLE, heatshrink and, where it is built in,
LZMA. -/
def BuiltIn (c : Nat) : Prop := c = 0 ∨ c = 2 ∨ c = 4 ∨ (c = 1 ∧ Build.lzma ≠ none)

/-- Calls of the low level API on one object. -/
inductive Call where
  | process (piece : Bytes)
  | finalize

/-- In a build with LZMA nothing is called after finalize, as c/detools.h:482-483 asks
("call once after all data has been processed"): finalize frees the buffers of the LZMA
decoder, a second call would free them again. Without LZMA any history is allowed. -/
def AsDocumented (calls : List Call) : Prop :=
  Build.lzma = none ∨ ∀ pre post, calls = pre ++ .finalize :: post → post = []

/-- Run calls in order, whatever they return; the return values in order. -/
def runCalls (E : SeqEnv σ) : ApplyPatch → World σ → List Call → C (List Int × ApplyPatch × World σ)
  | s, w, [] => .ok ([], s, w)
  | s, w, .process p :: cs => do
    let (res, s, w) ← applyPatchProcess E s w p
    let (rs, s, w) ← runCalls E s w cs
    .ok (res :: rs, s, w)
  | s, w, .finalize :: cs => do
    let (res, s, w) ← applyPatchFinalize E s w
    let (rs, s, w) ← runCalls E s w cs
    .ok (res :: rs, s, w)

/-- The return value of a callback. -/
def Ev.res : Ev → Int
  | .read _ r => r
  | .seek _ r => r
  | .write _ r => r

/-- The bytes passed to `to_write`. -/
def Ev.data : Ev → Bytes
  | .write d _ => d
  | _ => []

/-- The number of bytes moved by a callback. -/
def Ev.count : Ev → Nat
  | .write d _ => d.length
  | .read n _ => n
  | .seek .. => 0

/-- Everything passed to `to_write`, oldest first (the trace is newest first). -/
def written (trace : List Ev) : Bytes := trace.reverse.flatMap Ev.data

/-- Everything given to process in a history. -/
def fedBytes : List Call → Bytes
  | [] => []
  | .process p :: cs => p ++ fedBytes cs
  | .finalize :: cs => fedBytes cs

/-- What every later call returns once the object has failed. -/
def afterFailure : Call → Int
  | .process p => if p = [] then 0 else ALREADY_FAILED
  | .finalize => ALREADY_FAILED

/-- Return values of the calls: process at most 0, finalize negative. -/
def Rejecting : List Call → List Int → Prop
  | [], [] => True
  | .process _ :: cs, r :: rs => r ≤ 0 ∧ Rejecting cs rs
  | .finalize :: cs, r :: rs => r < 0 ∧ Rejecting cs rs
  | _, _ => False

end Detools
