import Verif.Proofs.SaisArray
import Verif.Proofs.Search
import Verif.Props.Sequential
/-
C51: the suffix array of the from-data.
-/
namespace Detools

/-- C51. For all data of less than 2 GiB, SA-IS stays inside its arrays, stores nothing that
does not fit in 32 bits, and gives the suffix array: all positions, the end included, each
once, in the order of the suffixes. -/
theorem C51_suffix_array (data : Bytes) (hlen : data.length < 2 ^ 31) : ∃ sa, saisArray data = .ok sa ∧ IsSuffixArray sa data :=
  saisArray_ok data hlen

/-- C51. The limit is where the length no longer fits in 32 bits. -/
theorem C51_limit (data : Bytes) : (∃ sa, saisArray data = .ok sa) ↔ data.length < 2 ^ 31 := by
  constructor
  · rintro ⟨sa, h⟩
    by_cases hlen : data.length < 2 ^ 31
    · exact hlen
    · unfold saisArray at h
      rw [if_pos (by omega)] at h
      cases h
  · intro h
    obtain ⟨sa, h1, _⟩ := saisArray_ok data h
    exact ⟨sa, h1⟩

/-- C51. Data has one suffix array: another correct construction gives the same one, so the
same patch. -/
theorem C51_unique (data : Bytes) (hlen : data.length < 2 ^ 31) (sa : List Nat) (h : IsSuffixArray sa data) : saisArray data = .ok sa := by
  obtain ⟨sb, h1, h2⟩ := saisArray_ok data hlen
  rw [h1, suffixArray_unique h h2]

/-- What `suffix_array_algorithm='sais'` selects. The positions in order stand for the suffix
array of 2 GiB and more, which the code cannot make; the theorems below are about less. -/
def saisLib (codec : Compression → PyCodec) : Lib where
  codec := codec
  suffixArray := fun data => match saisArray data with
    | .ok sa => sa
    | .error _ => List.range (data.length + 1)

theorem saisLib_isSuffixArray (codec : Compression → PyCodec) (data : Bytes) (hlen : data.length < 2 ^ 31) : IsSuffixArray ((saisLib codec).suffixArray data) data := by
  obtain ⟨sa, h1, h2⟩ := saisArray_ok data hlen
  show IsSuffixArray (match saisArray data with | .ok sa => sa | .error _ => List.range (data.length + 1)) data
  rw [h1]
  exact h2

/-- C51. All theorems that assume a suffix array in range hold with SA-IS. -/
theorem C51_in_range (codec : Compression → PyCodec) : SuffixArrayInRange (saisLib codec).suffixArray := fun data => by
  by_cases hlen : data.length < 2 ^ 31
  · have h := saisLib_isSuffixArray codec data hlen
    exact ⟨h.length, fun p hp => (h.all p).1 hp⟩
  · have e : (saisLib codec).suffixArray data = List.range (data.length + 1) := by
      show (match saisArray data with | .ok sa => sa | .error _ => List.range (data.length + 1)) = _
      unfold saisArray
      rw [if_pos (by omega)]
    rw [e]
    exact ⟨List.length_range, fun p hp => by have := List.mem_range.1 hp; omega⟩

/-- C51. C03 with SA-IS: nothing is assumed of the suffix array. -/
theorem C51_roundtrip (codec : Compression → PyCodec) (formats : Int → Option DataFormat) (c : Compression)
    (L : Lossless ((saisLib codec).codecOf c)) (fmt : Option DataFormat) (fr to : Bytes) (clamp : Bool) (hto : fr.length + to.length < 2 ^ 31)
    (hfmt : ∀ f, fmt = some f → f.number < 2 ^ 62 ∧ ReadsFormat formats f ∧ f.LosslessOn fr to) :
    ∃ patch, createSequential (saisLib codec) c fmt fr to = .ok patch ∧
      ∃ F, ∀ fuel, F ≤ fuel →
        applySequential (saisLib codec) formats fuel { data := fr, pos := 0, clampSeek := clamp } patch = ⟨to, .ok to.length⟩ :=
  C03_sequential_roundtrip (saisLib codec) (C51_in_range codec) formats c L fmt fr to clamp hto hfmt

theorem createChunks_sais (lib : Lib) (fr to : Bytes) (hsa : IsSuffixArray (lib.suffixArray fr) fr) (hlen : fr.length < 2 ^ 31) :
    createChunks lib fr to = createChunks (saisLib lib.codec) fr to := by
  unfold createChunks
  rw [suffixArray_unique hsa (saisLib_isSuffixArray lib.codec fr hlen)]

theorem createSequentialData_congr (lib lib' : Lib) (codec : PyCodec) (fmt : Option DataFormat) (fr to : Bytes)
    (h : createChunks lib fr to = createChunks lib' fr to)
    (hfmt : ∀ f r, fmt = some f → f.encode fr to = .ok r → createChunks lib r.1 r.2.1 = createChunks lib' r.1 r.2.1) :
    createSequentialData lib codec fmt fr to = createSequentialData lib' codec fmt fr to := by
  unfold createSequentialData
  generalize createChunks lib = f1 at *
  generalize createChunks lib' = f2 at *
  generalize pyPackSize = ps
  by_cases h0 : to.length = 0
  · rw [if_pos h0, if_pos h0]
  · rw [if_neg h0, if_neg h0]
    cases fmt with
    | none =>
      simp only []
      generalize ps 0 = z
      cases z with
      | error e => simp only [bind, Except.bind]
      | ok p =>
        show (f1 fr to >>= _) = (f2 fr to >>= _)
        rw [h]
    | some f =>
      simp only []
      cases he : f.encode fr to with
      | error e => simp only [bind, Except.bind]
      | ok r =>
        have h' := hfmt f r rfl he
        obtain ⟨fr', to', p⟩ := r
        simp only [bind, Except.bind]
        generalize ps p.length = z
        cases z with
        | error e => simp only [bind, Except.bind]
        | ok q =>
          simp only []
          generalize ps f.number = z
          cases z with
          | error e => simp only [bind, Except.bind]
          | ok w =>
            show (f1 fr' to' >>= _) = (f2 fr' to' >>= _)
            rw [show f1 fr' to' = f2 fr' to' from h']

/-- C51. The patch does not depend on how the suffix array is made: any correct construction
gives the same one. (With a data format, the suffix array is that of the encoded
from-data.) -/
theorem C51_same_patch (lib : Lib) (c : Compression) (fmt : Option DataFormat) (fr to : Bytes) (hlen : fr.length < 2 ^ 31) (hsa : IsSuffixArray (lib.suffixArray fr) fr)
    (hfmt : ∀ f r, fmt = some f → f.encode fr to = .ok r → r.1.length < 2 ^ 31 ∧ IsSuffixArray (lib.suffixArray r.1) r.1) :
    createSequential lib c fmt fr to = createSequential (saisLib lib.codec) c fmt fr to := by
  have hco : (saisLib lib.codec).codecOf c = lib.codecOf c := by cases c <;> rfl
  unfold createSequential
  rw [hco, createSequentialData_congr lib (saisLib lib.codec) (lib.codecOf c) fmt fr to (createChunks_sais lib fr to hsa hlen)
    (fun f r h1 h2 => createChunks_sais lib r.1 r.2.1 (hfmt f r h1 h2).2 (hfmt f r h1 h2).1)]

-- "banana"
example : saisArray [98, 97, 110, 97, 110, 97] = .ok [6, 5, 3, 1, 0, 4, 2] := by decide +kernel

-- "mmiissiissiippii": equal substrings, so the algorithm calls itself
example : saisArray [109, 109, 105, 105, 115, 115, 105, 105, 115, 115, 105, 105, 112, 112, 105, 105] =
    .ok [16, 15, 14, 10, 6, 2, 11, 7, 3, 1, 0, 13, 12, 9, 5, 8, 4] := by decide +kernel

example : Sais.saisMain 9 [1, 0, 1, 0, 1, 0, 1, 0] 2 0 = .ok [7, 5, 3, 1, 6, 4, 2, 0] ∧ Sais.useSort2 8 2 0 = true := by decide +kernel

example : createSequential (saisLib fun _ => noneCodec) .none none [1, 2, 3, 4, 5, 6, 7, 8, 9, 10, 11, 12] [1, 2, 3, 9, 5, 6, 7, 8, 9, 10, 11, 12, 13] =
    .ok [0, 13, 0, 12, 0, 0, 0, 5, 0, 0, 0, 0, 0, 0, 0, 0, 1, 13, 65] := by decide +kernel

end Detools
