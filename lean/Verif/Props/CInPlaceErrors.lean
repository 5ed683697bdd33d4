import Verif.Proofs.CInPlaceErrorCalls
import Verif.Props.CInPlace
/-
C63: the error codes of the in-place C API name what is wrong. `E` is arbitrary but for the
values of its memory callbacks: 0 or negative, as c/detools.h asks, and not ALREADY_DONE
(C42_already_done). `IPMeans` and `IPHeaderFault` are in Spec/CInPlaceErrors.
-/
namespace Detools

attribute [local instance] noLzma

/-- C63. After any history of calls, process returns 0 or a negative value, which is explained
by the bytes given so far, by the last callback of this call, or by an earlier negative
value: BAD_PATCH_TYPE only for a patch of another type, BAD_COMPRESSION only for a compression
not built in, STEP_SET_FAILED only if the step callback failed, and so on. -/
theorem C63_process [Build] (E : MemEnv σ) (hE : ∀ res, E.Returns res → res ≤ 0 ∧ res ≠ ALREADY_DONE) (patchSize : Nat) (arg : σ) (pre : List Call)
    (piece : Bytes) (_hdoc : AsDocumented (pre ++ [.process piece])) {rs s w r s' w'}
    (h : runInPlaceCalls E (inPlaceInit patchSize) { arg := arg } pre = .ok (rs, s, w)) (hr : inPlaceProcess E s w piece = .ok (r, s', w')) :
    r = 0 ∨ (r < 0 ∧ ((∃ made, w'.trace = made ++ w.trace ∧ IPMeans (fedBytes pre ++ piece) made (.process piece) r) ∨
      (r = ALREADY_FAILED ∧ ∃ q ∈ rs, q < 0))) := by
  obtain ⟨k1, k2, k3, -⟩ := (eCalls (E := E) hE pre (EInv.start patchSize) (.inr (.inr rfl))).2 h
  rw [List.nil_append] at k1
  obtain ⟨-, -, -, g⟩ := (eProcess hE k1 k2).2 hr
  refine g.imp id fun g => ⟨g.1, g.2.imp id fun g => ⟨g.1, (k3 g.2).resolve_left fun h => by cases h⟩⟩

/-- C63. Likewise for finalize, and if it returns no negative value it returns the size of the
to-data in the header. -/
theorem C63_finalize [Build] (E : MemEnv σ) (hE : ∀ res, E.Returns res → res ≤ 0 ∧ res ≠ ALREADY_DONE) (patchSize : Nat) (arg : σ) (pre : List Call)
    (_hdoc : AsDocumented (pre ++ [.finalize])) {rs s w r s' w'}
    (h : runInPlaceCalls E (inPlaceInit patchSize) { arg := arg } pre = .ok (rs, s, w)) (hr : inPlaceFinalize E s w = .ok (r, s', w')) :
    (0 ≤ r ∧ ∃ c body, FullIPHead (fedBytes pre) c r.toNat body ∧ BuiltIn c) ∨
    (r < 0 ∧ ((∃ made, w'.trace = made ++ w.trace ∧ IPMeans (fedBytes pre) made .finalize r) ∨ (r = ALREADY_FAILED ∧ ∃ q ∈ rs, q < 0))) := by
  obtain ⟨k1, k2, k3, -⟩ := (eCalls (E := E) hE pre (EInv.start patchSize) (.inr (.inr rfl))).2 h
  rw [List.nil_append] at k1
  obtain ⟨-, -, -, g⟩ := (eFinalize hE k1 k2).2 hr
  refine g.imp id fun g => ⟨g.1, g.2.imp id fun g => ⟨g.1, (k3 g.2).resolve_left fun h => by cases h⟩⟩

/-- C63. In the other direction: a patch with a fault in its header is refused with the error
for that fault, however it is cut into pieces: it is the first value that is not 0. The
calls return, and no callback is made: the memory is as it was. -/
theorem C63_header_faults [Build] (E : MemEnv σ) (hE : ∀ res, E.Returns res → res ≤ 0 ∧ res ≠ ALREADY_DONE) (patchSize : Nat) (arg : σ)
    (pieces : List Bytes) {e : Int} (hf : IPHeaderFault pieces.flatten e) :
    ∃ rs s, runInPlaceCalls E (inPlaceInit patchSize) { arg := arg } (pieces.map .process ++ [.finalize]) = .ok (rs, s, { arg := arg }) ∧
      rs.find? (· != 0) = some e :=
  ip_faulty_returns hE hf pieces (List.nil_append _).symm (EInv.start patchSize) (.inr (.inr rfl)) (fun h => by cases h)

/-- The error codes of the low level in-place API. -/
def inPlaceErrors : List Int :=
  [NOT_IMPLEMENTED, BAD_PATCH_TYPE, BAD_COMPRESSION, LZMA_DECODE, CORRUPT_PATCH, IO_FAILED, SHORT_HEADER, NOT_ENOUGH_PATCH_DATA,
    ALREADY_FAILED, CORRUPT_PATCH_OVERFLOW, CORRUPT_PATCH_CRLE_KIND, HEATSHRINK_HEADER, STEP_SET_FAILED, STEP_GET_FAILED]

/-- A memory callback returned this value. -/
def MEv.Gave : MEv → Int → Prop
  | .read _ _ r, v | .write _ _ r, v | .erase _ _ r, v => r = v
  | _, _ => False

theorem ipMeans_codes [Build] {f : Bytes} {made : List MEv} {c : Call} {r : Int} (h : IPMeans f made c r) :
    r ∈ inPlaceErrors ∨ ∃ ev earlier, made = ev :: earlier ∧ ev.Gave r := by
  cases h with
  | refused h =>
    refine .inl ?_
    cases h with
    | type => decide
    | headerSize => decide
    | compression => decide
    | body _ _ _ h =>
      rcases h with rfl | rfl | rfl | h
      · decide
      · decide
      · decide
      · cases h <;> decide
  | callback _ _ _ h1 h =>
    subst h1
    cases h with
    | read => exact .inr ⟨_, _, rfl, rfl⟩
    | write => exact .inr ⟨_, _, rfl, rfl⟩
    | erase => exact .inr ⟨_, _, rfl, rfl⟩
    | stepSet => exact .inl (by decide)
    | stepGet => exact .inl (by decide)
    | dataRead => exact .inl (by decide)
    | dataWrite => exact .inl (by decide)
    | dataStep => exact .inl (by decide)
  | empty => exact .inl (by decide)
  | unfinished => exact .inl (by decide)
  | leftOver => exact .inl (by decide)

/-- C63. No other error code is ever returned, but for the value of the last memory callback. -/
theorem C63_codes [Build] (E : MemEnv σ) (hE : ∀ res, E.Returns res → res ≤ 0 ∧ res ≠ ALREADY_DONE) (patchSize : Nat) (arg : σ) (pre : List Call)
    (piece : Bytes) (hdoc : AsDocumented (pre ++ [.process piece])) {rs s w r s' w'}
    (h : runInPlaceCalls E (inPlaceInit patchSize) { arg := arg } pre = .ok (rs, s, w))
    (hr : inPlaceProcess E s w piece = .ok (r, s', w') ∨ inPlaceFinalize E s w = .ok (r, s', w')) (hneg : r < 0) :
    r ∈ inPlaceErrors ∨ ∃ ev earlier, w'.trace = ev :: earlier ∧ ev.Gave r := by
  have hdoc2 : AsDocumented (pre ++ [.finalize]) := by
    refine hdoc.imp id fun hd => ?_
    intro pre' post hq
    cases hpost : post with
    | nil => rfl
    | cons a as =>
      obtain ⟨x, l, hx⟩ : ∃ x l, post = l ++ [x] := ⟨_, _, (List.dropLast_concat_getLast (l := post) (by rw [hpost]; simp)).symm⟩
      rw [hx, ← List.cons_append, ← List.append_assoc] at hq
      have := (List.append_inj' hq rfl).1
      have hq2 := hd pre' (l ++ [.process piece]) (by rw [this]; simp)
      simp at hq2
  have fin : ∀ {c : Call}, ((∃ made, w'.trace = made ++ w.trace ∧ IPMeans (match c with | .process p => fedBytes pre ++ p | .finalize => fedBytes pre) made c r) ∨
      (r = ALREADY_FAILED ∧ ∃ q ∈ rs, q < 0)) → r ∈ inPlaceErrors ∨ ∃ ev earlier, w'.trace = ev :: earlier ∧ ev.Gave r := by
    rintro c (⟨made, g1, g2⟩ | ⟨g, _⟩)
    · rcases ipMeans_codes g2 with k | ⟨ev, earlier, k1, k2⟩
      · exact .inl k
      · exact .inr ⟨ev, earlier ++ w.trace, by rw [g1, k1]; rfl, k2⟩
    · rw [g]; exact .inl (by decide)
  rcases hr with hr | hr
  · rcases C63_process E hE patchSize arg pre piece hdoc h hr with k | k
    · omega
    · exact fin (c := .process piece) k.2
  · rcases C63_finalize E hE patchSize arg pre hdoc2 h hr with k | k
    · omega
    · exact fin (c := .finalize) k.2

-- The callbacks of a flash memory that may lose power return 0 or -1.
example (P : Power) (steps : Bool) : ∀ res, (flashEnv P steps).Returns res → res ≤ 0 ∧ res ≠ ALREADY_DONE := by
  rintro res (⟨a, addr, n, rfl⟩ | ⟨a, addr, d, rfl⟩ | ⟨a, addr, n, rfl⟩) <;> (simp only [flashEnv, flashRead, flashWrite, flashErase]; (repeat' split) <;> simp [ALREADY_DONE])

-- Each code is returned, except LZMA_DECODE, which needs LZMA, in a build without.
def ipExampleReturns (limit : Option Nat) (steps : Bool) (patchSize : Nat) (calls : List Call) : C (List Int) :=
  (runInPlaceCalls (flashEnv { limit := limit } steps) (inPlaceInit patchSize) (powerOn { mem := [1, 2, 3, 4] }) calls).map (·.1)

example : ipExampleReturns none false 0 [.finalize] = .ok [SHORT_HEADER] := by decide +kernel
example : ipExampleReturns none false 9 [.process [0x00], .process [0x01], .finalize] = .ok [BAD_PATCH_TYPE, ALREADY_FAILED, ALREADY_FAILED] := by decide +kernel
example : ipExampleReturns none false 9 [.process [0x13, 4, 2], .process [2, 2, 1]] = .ok [0, BAD_COMPRESSION] := by decide +kernel
example : ipExampleReturns none false 9 [.process [0x10, 4, 2, 0x80, 0x80, 0x80], .finalize, .process [0x80, 0x80]] =
    .ok [0, NOT_ENOUGH_PATCH_DATA, CORRUPT_PATCH_OVERFLOW] := by decide +kernel
example : ipExampleReturns none false 9 [.process [0x10, 4, 2, 2, 2, 1, 1]] = .ok [NOT_IMPLEMENTED] := by decide +kernel
example : ipExampleReturns none false 9 [.process [0x10, 4, 2, 2, 2, 1, 0, 2]] = .ok [CORRUPT_PATCH] := by decide +kernel
example : ipExampleReturns none false 9 [.process [0x12, 4, 2, 2, 2, 1, 1, 1, 0, 2]] = .ok [CORRUPT_PATCH_CRLE_KIND] := by decide +kernel
example : ipExampleReturns none false 9 [.process [0x14, 4, 2, 2, 2, 1], .process [0x45]] = .ok [0, HEATSHRINK_HEADER] := by decide +kernel
-- Power is lost while the memory is moved, in a segment, and at a step.
example : ipExampleReturns (some 1) false 11 [.process [0x10, 4, 2, 2, 2, 1], .process [0]] = .ok [-1, ALREADY_FAILED] := by decide +kernel
example : ipExampleReturns (some 3) false 11 [.process [0x10, 4, 2, 2, 2, 1], .process [0, 0, 1, 9, 0], .finalize] = .ok [0, IO_FAILED, ALREADY_FAILED] := by decide +kernel
example : ipExampleReturns (some 2) true 11 [.process [0x10, 4, 2, 2, 2, 1], .process [0]] = .ok [STEP_SET_FAILED, ALREADY_FAILED] := by decide +kernel

-- A case of each fault of a header.
example : IPHeaderFault [[], [0x03], [0x01]].flatten BAD_PATCH_TYPE := .type rfl (by decide)
example : IPHeaderFault [[0x10, 4, 0x80], [0x80, 0xff, 0x80, 0x01]].flatten CORRUPT_PATCH_OVERFLOW :=
  .tooLong (rest := [0x80, 0x80, 0xff, 0x80, 0x01]) ⟨0x10, _, [4], rfl, by decide, by decide, 4, 1, _, by decide +kernel, by decide, rfl, rfl⟩ ⟨by decide, by decide⟩
example : IPHeaderFault [[0x13, 4, 2], [2, 2, 1]].flatten BAD_COMPRESSION :=
  .compression (c := 3) (n := 1) (body := []) ⟨0x13, [4, 2, 2, 2, 1], 4, 2, 2, 2, rfl, by decide, rfl,
    4, 1, [2, 2, 2, 1], by decide +kernel, by decide, rfl, 2, 1, [2, 2, 1], by decide +kernel, by decide, rfl,
    2, 1, [2, 1], by decide +kernel, by decide, rfl, 2, 1, [1], by decide +kernel, by decide, rfl, 1, 1, [], by decide +kernel, by decide, rfl, rfl⟩ (by
    rintro (h | h | h | ⟨h, _⟩) <;> cases h)
example : IPHeaderFault [[0x10, 4], [0x80]].flatten NOT_ENOUGH_PATCH_DATA :=
  .unfinished (rest := [0x80]) ⟨0x10, _, [4], rfl, by decide, by decide, 4, 1, _, by decide +kernel, by decide, rfl, rfl⟩ ⟨by decide, by decide⟩

end Detools
