import Verif.Proofs.CSizeVal
/-
C15: the C size decoders against the Python decoder `unpack_size` (value, number of
bytes, rest) and the Python CRLE decoder.
-/
namespace Detools

attribute [local instance] noLzma

/-- C15, sizes in the body of a patch: whatever the pieces, the C decoder returns the
value of the Python decoder if the encoding has at most four bytes, and
CORRUPT_PATCH_OVERFLOW if it has more; it never computes an undefined shift. -/
theorem C15_body_size [Build] (pieces : List Bytes) (p o : Nat) (hp : p < 2 ^ 63) (ho : o + pieces.flatten.length < p) :
    ∃ res rest, feedBodySize (.raw p o) {} pieces = .ok (res, rest) ∧
      match unpackSizeWithLength pieces.flatten with
      | .ok (v, k, tail) =>
        if k ≤ 4 then res = .value v ∧ rest = tail else res = .fail CORRUPT_PATCH_OVERFLOW
      | .error _ =>
        if pieces.flatten.length ≤ 4 then res = .more else res = .fail CORRUPT_PATCH_OVERFLOW := by
  obtain ⟨⟨res, rest⟩, e, hm⟩ := feedBody_run hp pieces {} o (by intro h; cases h) ho
  refine ⟨res, rest, e, ?_⟩
  have hr := run_first sizeByte_sizes (fun v => rfl) pieces.flatten {} rfl
  cases hu : unpackSizeWithLength pieces.flatten with
  | error e =>
    rw [hu] at hr
    simp only at hr ⊢
    by_cases hk : pieces.flatten.length ≤ 4
    · rw [if_pos hk] at hr ⊢
      obtain ⟨a, ha⟩ := hr
      rw [ha] at hm
      cases hm; rfl
    · rw [if_neg hk] at hr ⊢
      rw [hr] at hm
      exact hm
  | ok q =>
    obtain ⟨v, k, tail⟩ := q
    rw [hu] at hr
    simp only at hr ⊢
    by_cases hk : k ≤ 4
    · rw [if_pos hk] at hr ⊢
      obtain ⟨a, sn, h1, h2⟩ := hr
      rw [h2] at hm
      cases hm
      exact ⟨by rw [← h1], rfl⟩
    · rw [if_neg hk] at hr ⊢
      rw [hr] at hm
      exact hm

/-- C15, the size in the header: as `C15_body_size`, but the sign is ignored. -/
theorem C15_header_size (pieces : List Bytes) :
    ∃ res rest, feedHeaderSize {} pieces = .ok (res, rest) ∧
      match unpackSizeWithLength pieces.flatten with
      | .ok (v, k, tail) =>
        if k ≤ 4 then res = .value v.natAbs ∧ rest = tail else res = .fail CORRUPT_PATCH_OVERFLOW
      | .error _ =>
        if pieces.flatten.length ≤ 4 then res = .more else res = .fail CORRUPT_PATCH_OVERFLOW := by
  obtain ⟨⟨res, rest⟩, e, hm⟩ := feedHeader_run pieces {} (by intro h; cases h)
  refine ⟨res, rest, e, ?_⟩
  have hr := run_first headerSizeByte_sizes (fun v => rfl) pieces.flatten {} rfl
  cases hu : unpackSizeWithLength pieces.flatten with
  | error e =>
    rw [hu] at hr
    simp only at hr ⊢
    by_cases hk : pieces.flatten.length ≤ 4
    · rw [if_pos hk] at hr ⊢
      obtain ⟨a, ha⟩ := hr
      rw [ha] at hm
      cases hm; rfl
    · rw [if_neg hk] at hr ⊢
      rw [hr] at hm
      exact hm
  | ok q =>
    obtain ⟨v, k, tail⟩ := q
    rw [hu] at hr
    simp only at hr ⊢
    by_cases hk : k ≤ 4
    · rw [if_pos hk] at hr ⊢
      obtain ⟨a, sn, h1, h2⟩ := hr
      rw [h2] at hm
      cases hm
      exact ⟨rfl, rfl⟩
    · rw [if_neg hk] at hr ⊢
      rw [hr] at hm
      exact hm

/-- C15, sizes in a CRLE stream, against the Python CRLE decoder (`none` when the
encoding is not complete). -/
theorem C15_crle_size (pieces : List Bytes) :
    ∃ res rest, feedCrleSize {} pieces = .ok (res, rest) ∧
      match crleUnpackSize 0 0 pieces.flatten with
      | some (v, tail) =>
        if pieces.flatten.length - tail.length ≤ 4 then res = .value v ∧ rest = tail
        else res = .fail CORRUPT_PATCH_OVERFLOW
      | none =>
        if pieces.flatten.length ≤ 4 then res = .more else res = .fail CORRUPT_PATCH_OVERFLOW := by
  obtain ⟨⟨res, rest⟩, e, hm⟩ := feedCrle_run pieces {} (by intro h; cases h)
  refine ⟨res, rest, e, ?_⟩
  have hr := usizeRun_val pieces.flatten ({} : USize).start rfl (by decide)
  have h0 : ({} : USize).start.value = 0 ∧ ({} : USize).start.offset = 0 := ⟨rfl, rfl⟩
  rw [h0.1, h0.2] at hr
  cases hu : crleUnpackSize 0 0 pieces.flatten with
  | none =>
    rw [hu] at hr
    simp only at hr ⊢
    by_cases hk : pieces.flatten.length ≤ 4
    · rw [if_pos (by omega)] at hr
      rw [if_pos hk]
      obtain ⟨a, ha⟩ := hr
      rw [ha] at hm
      cases hm; rfl
    · rw [if_neg (by omega)] at hr
      rw [if_neg hk]
      rw [hr] at hm
      exact hm
  | some q =>
    obtain ⟨v, tail⟩ := q
    rw [hu] at hr
    simp only at hr ⊢
    by_cases hk : pieces.flatten.length - tail.length ≤ 4
    · rw [if_pos (by omega)] at hr
      rw [if_pos hk]
      rw [hr] at hm
      cases hm
      exact ⟨rfl, rfl⟩
    · rw [if_neg (by omega)] at hr
      rw [if_neg hk]
      rw [hr] at hm
      exact hm

-- 1000 in two pieces and the byte that follows; -5; five bytes.
example : feedBodySize (.raw 9 0) {} [[0xa8], [0x0f, 7]] = .ok (.value 1000, [7]) := by decide +kernel
example : unpackSizeWithLength [0xa8, 0x0f, 7] = .ok (1000, 2, [7]) := by decide +kernel
example : feedBodySize (.raw 9 0) {} [[0x45]] = .ok (.value (-5), []) := by decide +kernel
/-- The header ignores the sign: the Python value is -5. -/
theorem C15_header_ignores_sign : feedHeaderSize {} [[0x45]] = .ok (.value 5, []) ∧
    unpackSizeWithLength [0x45] = .ok (-5, 1, []) := by decide +kernel
example : (feedBodySize (.raw 9 0) {} [[0x80, 0x80, 0x80], [0x80, 0x01]]).map (·.1) = .ok (.fail CORRUPT_PATCH_OVERFLOW) := by
  decide +kernel
example : feedCrleSize {} [[0xff, 0xff], [0xff, 0x7f, 3]] = .ok (.value (2 ^ 28 - 1), [3]) := by decide +kernel

end Detools
