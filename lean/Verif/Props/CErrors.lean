import Verif.Proofs.CSeqErrors
/-
C61: the error codes of the sequential C API name what is wrong. `E` is arbitrary: the
callbacks may return anything. `Explained`, `Means` and `HeaderFault` are in Spec/CErrors.
-/
namespace Detools

attribute [local instance] noLzma

/-- C61. After any history of calls, with any callbacks, each return value is explained by
the bytes given so far: BAD_PATCH_TYPE only for a patch of another type, BAD_COMPRESSION only
for a compression not built in, CORRUPT_PATCH_CRLE_KIND only for a CRLE patch with an unknown
kind of segment, and so on; ALREADY_FAILED only after a negative value. -/
theorem C61_explained [Build] (E : SeqEnv σ) (patchSize : Nat) (arg : σ) (calls : List Call) (_hdoc : AsDocumented calls) {rs s w}
    (h : runCalls E (applyPatchInit patchSize) { arg := arg } calls = .ok (rs, s, w)) : Explained False [] calls rs :=
  (runCalls_errs E calls (ErrInv.start patchSize) (.inr (.inr rfl)) h).mono fun h => by cases h

/-- C61. In the other direction: a patch with a fault in its header is refused with the error
for that fault, however it is cut into pieces: it is the first value that is not 0. The
calls return, and no callback is made. -/
theorem C61_header_faults [Build] (E : SeqEnv σ) (patchSize : Nat) (arg : σ) (pieces : List Bytes) {e : Int} (hf : HeaderFault pieces.flatten e) :
    ∃ rs s, runCalls E (applyPatchInit patchSize) { arg := arg } (pieces.map .process ++ [.finalize]) = .ok (rs, s, { arg := arg }) ∧
      rs.find? (· != 0) = some e := by
  have hfed : ∀ pieces : List Bytes, fedBytes (pieces.map .process ++ [.finalize]) = pieces.flatten := by
    intro pieces
    induction pieces with
    | nil => rfl
    | cons p ps ih => simpa [fedBytes] using ih
  have hq : QuietInv { arg := arg } [] (applyPatchInit patchSize) { arg := arg } := ⟨ErrInv.start patchSize, .inl rfl⟩
  have hbad : ∀ {f x : Bytes}, pieces.flatten = f ++ x → ¬ ∃ c n body, SeqHead f c n body ∧ BuiltIn c := by
    rintro f x hx ⟨c, n, body, k1, k2⟩
    exact (hf.head hx k1).2 k2
  cases hr : runCalls E (applyPatchInit patchSize) { arg := arg } (pieces.map .process ++ [.finalize]) with
  | error u =>
    exfalso
    rcases runCalls_cause (E := E) (P := QuietInv { arg := arg }) (fun h => h.errs.inv) (fun h ho => h.once ho) (fun p po h ha => h.chunk p po ha)
      _ hq (.inr (.inr rfl)) hr with k | ⟨f', later, s', w', q1, q2, q3⟩
    · rcases runCalls_ok E (pieces.map .process ++ [.finalize]) (HS.start patchSize) (HW.start patchSize arg) with (g | g) | ⟨_, _, _, g, _⟩
      · rw [g] at hr; cases hr; cases k
      · rw [g] at hr; cases hr; cases k
      · rw [g] at hr; cases hr
    · rw [hfed] at q1
      exact hbad (by simpa using q1) (q2.error q3)
  | ok o =>
    obtain ⟨rs, s, w⟩ := o
    have hx : Explained False [] (pieces.map .process ++ [.finalize]) rs :=
      (runCalls_errs E _ (ErrInv.start patchSize) (.inr (.inr rfl)) hr).mono fun h => by cases h
    have hq2 := runCalls_inv (E := E) (P := QuietInv { arg := arg }) (fun h => h.errs.inv) (fun h ho => h.once ho) (fun p po h ha => h.chunk p po ha)
      _ hq (.inr (.inr rfl)) hr
    rw [hfed] at hq2
    rcases hq2.quiet with k | k
    · subst k
      exact ⟨rs, s, rfl, faulty_returns hf pieces rfl hx⟩
    · exact absurd k (hbad (x := []) (by simp))

/-- The error codes of the low level sequential API. -/
def sequentialErrors : List Int :=
  [NOT_IMPLEMENTED, BAD_PATCH_TYPE, BAD_COMPRESSION, LZMA_DECODE, CORRUPT_PATCH, IO_FAILED, SHORT_HEADER, NOT_ENOUGH_PATCH_DATA,
    ALREADY_FAILED, CORRUPT_PATCH_OVERFLOW, CORRUPT_PATCH_CRLE_KIND, HEATSHRINK_HEADER]

theorem refused_codes [Build] {f : Bytes} {r : Int} (h : Refused f r) : r ∈ sequentialErrors := by
  cases h with
  | type => decide
  | headerSize => decide
  | compression => decide
  | body _ _ _ h =>
    rcases h with rfl | rfl | rfl | rfl | h
    · decide
    · decide
    · decide
    · decide
    · cases h <;> decide

theorem means_codes [Build] {f : Bytes} {c : Call} {r : Int} (h : Means f c r) : r ∈ sequentialErrors := by
  cases h with
  | refused h => exact refused_codes h
  | empty => decide
  | unfinished => decide
  | leftOver => decide

theorem explained_codes [Build] : ∀ {calls : List Call} {rs : List Int} {p : Prop} {f : Bytes}, Explained p f calls rs → ∀ r ∈ rs, 0 ≤ r ∨ r ∈ sequentialErrors
  | [], [], _, _, _, r, hr => by cases hr
  | [], _ :: _, _, _, h, _, _ => h.elim
  | .process _ :: _, [], _, _, h, _, _ => h.elim
  | .finalize :: _, [], _, _, h, _, _ => h.elim
  | .process _ :: _, r :: _, _, _, h, r', hr => by
    rcases List.mem_cons.1 hr with rfl | hr
    · rcases h.1 with k | ⟨_, k | ⟨rfl, _⟩⟩
      · exact .inl (by omega)
      · exact .inr (means_codes k)
      · exact .inr (by decide)
    · exact explained_codes h.2 r' hr
  | .finalize :: _, r :: _, _, _, h, r', hr => by
    rcases List.mem_cons.1 hr with rfl | hr
    · rcases h.1 with k | ⟨_, k | ⟨rfl, _⟩⟩
      · exact .inl k.1
      · exact .inr (means_codes k)
      · exact .inr (by decide)
    · exact explained_codes h.2 r' hr

/-- C61. No other error code is ever returned: not INTERNAL_ERROR, ALREADY_DONE,
HEATSHRINK_SINK or HEATSHRINK_POLL, nor a file or step error (`malloc` and the start of the
LZMA decoder are taken to succeed). -/
theorem C61_codes [Build] (E : SeqEnv σ) (patchSize : Nat) (arg : σ) (calls : List Call) (hdoc : AsDocumented calls) {rs s w}
    (h : runCalls E (applyPatchInit patchSize) { arg := arg } calls = .ok (rs, s, w)) : ∀ r ∈ rs, 0 ≤ r ∨ r ∈ sequentialErrors :=
  explained_codes (C61_explained E patchSize arg calls hdoc h)

-- Each of them is returned, except LZMA_DECODE, which needs LZMA, in a build without.
def exampleReturns (patchSize : Nat) (calls : List Call) : C (List Int) :=
  (runCalls (fileEnv [1, 2, 3]) (applyPatchInit patchSize) { arg := {} } calls).map (·.1)

example : exampleReturns 0 [.finalize] = .ok [SHORT_HEADER] := by decide +kernel
example : exampleReturns 9 [.process [0x10], .process [0x01], .finalize] = .ok [BAD_PATCH_TYPE, ALREADY_FAILED, ALREADY_FAILED] := by decide +kernel
example : exampleReturns 9 [.process [0x03], .process [0x81], .process [0x01]] = .ok [0, 0, BAD_COMPRESSION] := by decide +kernel
example : exampleReturns 9 [.process [0x00, 0x80, 0x80, 0x80], .finalize, .process [0x80, 0x80]] =
    .ok [0, NOT_ENOUGH_PATCH_DATA, CORRUPT_PATCH_OVERFLOW] := by decide +kernel
example : exampleReturns 9 [.process [0x00, 0x01, 0x01]] = .ok [NOT_IMPLEMENTED] := by decide +kernel
example : exampleReturns 9 [.process [0x00, 0x01, 0x00, 0x02]] = .ok [CORRUPT_PATCH] := by decide +kernel
example : exampleReturns 9 [.process [0x00, 0x05, 0x00, 0x04, 0, 0, 0, 0]] = .ok [IO_FAILED] := by decide +kernel
example : exampleReturns 9 [.process [0x02, 0x01, 0x01, 0x01, 0x00, 0x02]] = .ok [CORRUPT_PATCH_CRLE_KIND] := by decide +kernel
example : exampleReturns 9 [.process [0x04, 0x01], .process [0x45]] = .ok [0, HEATSHRINK_HEADER] := by decide +kernel

-- A case of each fault of a header.
example : HeaderFault [[], [0x13], [0x01]].flatten BAD_PATCH_TYPE := .type rfl (by decide)
example : HeaderFault [[0x00, 0x80], [0x80, 0xff, 0x80, 0x01]].flatten CORRUPT_PATCH_OVERFLOW :=
  .tooLong rfl (by decide) ⟨by decide, by decide⟩
example : HeaderFault [[0x03], [0x81, 0x01]].flatten BAD_COMPRESSION :=
  .compression (c := 3) (n := 65) (body := []) ⟨0x03, [0x81, 0x01], 65, 2, rfl, by decide, rfl, by decide +kernel, by decide, by decide⟩ (by
    rintro (h | h | h | ⟨h, _⟩) <;> cases h)
example : HeaderFault [[0x00], [0x80]].flatten NOT_ENOUGH_PATCH_DATA := .unfinished rfl (by decide) ⟨by decide, by decide⟩

end Detools
