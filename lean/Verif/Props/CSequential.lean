import Verif.Proofs.CAccept
import Verif.Proofs.CTransfer
import Verif.Props.PyFormat
/-
C08, C09, C16, C17 and C37 for the sequential C API reading and writing files.
`CAccepts` is in Spec/CFormat.lean; the format is in Spec/Records.lean.
-/
namespace Detools

attribute [local instance] noLzma

/-- C09. Success, the value returned by finalize and the bytes written do not depend on
how the patch is divided into pieces, except that a header selecting no compression
must not be split (see `C09_split_header_rejected`). Patches compressed with LZMA are
excluded. -/
theorem C09_chunk_independence [Build] (fr : Bytes) (hfr : fr.length < 2 ^ 31) (patchSize : Nat) (hP : patchSize < 2 ^ 63)
    (pieces pieces' : List Bytes) (hsame : pieces.flatten = pieces'.flatten)
    (hz : NotLzmaPatch pieces.flatten)
    (hw : HeaderInFirst patchSize pieces) (hw' : HeaderInFirst patchSize pieces') (n : Int) (out : Bytes) :
    CAccepts fr patchSize pieces n out ↔ CAccepts fr patchSize pieces' n out := by
  rw [caccepts_noLzma hz, caccepts_noLzma (hsame ▸ hz)]
  rw [caccepts_iff0 fr hfr patchSize hP pieces hw, caccepts_iff0 fr hfr patchSize hP pieces' hw', hsame]

/-- With CRLE and heatshrink there is no condition on the pieces. -/
theorem C09_chunk_independence_compressed [Build] (fr : Bytes) (hfr : fr.length < 2 ^ 31) (patchSize : Nat) (hP : patchSize < 2 ^ 63)
    (pieces pieces' : List Bytes) (hsame : pieces.flatten = pieces'.flatten)
    (hz : NotLzmaPatch pieces.flatten) (hc : ∀ b t, pieces.flatten = b :: t → b.toNat % 16 ≠ 0) (n : Int) (out : Bytes) :
    CAccepts fr patchSize pieces n out ↔ CAccepts fr patchSize pieces' n out := by
  refine C09_chunk_independence fr hfr patchSize hP pieces pieces' hsame hz ?_ ?_ n out
  · intro b t _ _ _ h1 h2
    exact absurd h2 (hc b t h1)
  · intro b t _ _ _ h1 h2
    exact absurd h2 (hc b t (hsame.trans h1))

/-- The same patch is accepted whole and rejected when its two byte header is split. -/
theorem C09_split_header_rejected :
    (applyPieces (fileEnv [1, 2, 3]) 10 { arg := {} } [[0x00, 4, 0, 2, 1, 1, 2, 9, 9, 0]]).map (fun r => (r.1, r.2.2.arg.out)) = .ok (4, [2, 3, 9, 9]) ∧
    (applyPieces (fileEnv [1, 2, 3]) 10 { arg := {} } [[0x00], [4, 0, 2, 1, 1, 2, 9, 9, 0]]).map (·.1) = .ok CORRUPT_PATCH := by
  constructor <;> decide +kernel

-- Divided elsewhere it is accepted.
example : (applyPieces (fileEnv [1, 2, 3]) 10 { arg := {} } [[], [0x00, 4], [0, 2, 1], [], [1, 2, 9, 9, 0]]).map (fun r => (r.1, r.2.2.arg.out)) = .ok (4, [2, 3, 9, 9]) := by
  decide +kernel

/-- C37, no compression: the C API accepts exactly the patches with a meaning within
its limits, with exactly that result. -/
theorem C37_c_accepts_exactly_none [Build] (fr : Bytes) (hfr : fr.length < 2 ^ 31) (pieces : List Bytes)
    (hlen : pieces.flatten.length < 2 ^ 62) (hw : HeaderInFirst pieces.flatten.length pieces)
    (toSize : Nat) (rest : Bytes) (hh : CHeader pieces.flatten 0 toSize rest) (n : Int) (out : Bytes) :
    CAccepts fr pieces.flatten.length pieces n out ↔ n = toSize ∧
      ((toSize = 0 ∧ rest = [] ∧ out = []) ∨ (0 < toSize ∧ CBodyMeans fr toSize rest out [])) := by
  rw [caccepts_noLzma (hh.notLzma (by decide)), caccepts_iff0 fr hfr _ (by omega) pieces hw]
  obtain ⟨l1, l2, l3⟩ := hh.rest_lt
  have hp : pieces.flatten.length - (pieces.flatten.length - rest.length) = rest.length := by omega
  have hbody := body_raw fr rest.length toSize l3 rest (by omega)
  constructor
  · rintro ⟨c, v, rest', r, res, h1, h2, h3, rfl, rfl⟩
    obtain ⟨rfl, rfl, rfl⟩ := hh.unique h1
    rw [hp, @init_zero noLzma] at h2
    cases h2
    obtain ⟨e, h⟩ := hbody.1 res h3
    refine ⟨by rw [e], ?_⟩
    rcases h with ⟨h1, h2, h3⟩ | ⟨h1, z, h2, h3⟩
    · exact .inl ⟨h1, List.length_eq_zero_iff.1 h2, h3⟩
    · have : z = [] := List.length_eq_zero_iff.1 (by omega)
      subst this
      exact .inr ⟨h1, h3⟩
  · rintro ⟨rfl, h⟩
    obtain ⟨res, g1, g2, g3⟩ := hbody.2 out (by
      rcases h with ⟨h1, h2, h3⟩ | ⟨h1, h2⟩
      · exact .inl ⟨h1, by rw [h2]; rfl, h3⟩
      · exact .inr ⟨h1, [], by simp, h2⟩)
    exact ⟨0, toSize, rest, .raw rest.length 0, res, hh, by rw [hp]; rfl, g1, by rw [g2], g3.symm⟩

/-- C37, CRLE: the same for a patch whose rest is a complete CRLE stream with sizes of
at most four bytes and no empty segment; here bytes may follow the last record
(`z`). -/
theorem C37_c_accepts_exactly_crle [Build] (fr : Bytes) (hfr : fr.length < 2 ^ 31) (pieces : List Bytes) (patchSize : Nat) (hP : patchSize < 2 ^ 63)
    (toSize : Nat) (rest body : Bytes) (hh : CHeader pieces.flatten 2 toSize rest) (hdec : CrleDec 0 rest body) (hsmall : CrleSmall 0 rest)
    (hlen : body.length < 2 ^ 62) (n : Int) (out : Bytes) :
    CAccepts fr patchSize pieces n out ↔ n = toSize ∧
      ((toSize = 0 ∧ out = []) ∨ (0 < toSize ∧ ∃ z, CBodyMeans fr toSize body out z)) := by
  have hw : HeaderInFirst patchSize pieces := by
    intro b t v len r h1 h2
    obtain ⟨b', t', _, _, g1, _, g3, _⟩ := hh
    rw [h1] at g1
    cases g1
    omega
  rw [caccepts_noLzma (hh.notLzma (by decide)), caccepts_iff0 fr hfr _ hP pieces hw]
  obtain ⟨l1, l2, l3⟩ := hh.rest_lt
  have hbody := body_crle fr toSize l3 rest body (hdec.out hsmall) hlen
  constructor
  · rintro ⟨c, v, rest', r, res, h1, h2, h3, rfl, rfl⟩
    obtain ⟨rfl, rfl, rfl⟩ := hh.unique h1
    rw [@init_two noLzma] at h2
    cases h2
    obtain ⟨e, h⟩ := hbody.1 res h3
    exact ⟨by rw [e], h⟩
  · rintro ⟨rfl, h⟩
    obtain ⟨res, g1, g2, g3⟩ := hbody.2 out h
    exact ⟨2, toSize, rest, .crle .idle, res, hh, rfl, g1, by rw [g2], g3.symm⟩

/-- The C API accepts only patches of type sequential with a compression of the build
(none, CRLE, heatshrink, and LZMA if built in) and a size of at most four bytes, and
returns that size. -/
theorem C26_c_accepts_only_known [Build] (fr : Bytes) (patchSize : Nat) (pieces : List Bytes) (n : Int) (out : Bytes)
    (h : CAccepts fr patchSize pieces n out) :
    ∃ c toSize rest, CHeader pieces.flatten c toSize rest ∧ BuiltIn c ∧ n = toSize :=
  caccepts_header h

/-- C37: what the C API accepts, `apply_patch` on a real file accepts with the same
result (no compression; the size in the header not negative). -/
theorem C37_python_agrees_none [Build] (lib : Lib) (formats : Int → Option DataFormat) (fr : Bytes) (hfr : fr.length < 2 ^ 31) (pieces : List Bytes)
    (hlen : pieces.flatten.length < 2 ^ 62) (hw : HeaderInFirst pieces.flatten.length pieces)
    (toSize : Nat) (rest : Bytes) (hh : Header pieces.flatten 0 toSize rest) (n : Int) (out : Bytes)
    (hacc : CAccepts fr pieces.flatten.length pieces n out) :
    ∃ F, ∀ fuel, F ≤ fuel →
      applySequential lib formats fuel { data := fr, pos := 0, clampSeek := false } pieces.flatten = ⟨out, .ok n⟩ := by
  obtain ⟨c', v', rest', hc', _⟩ := C26_c_accepts_only_known fr _ pieces n out hacc
  obtain ⟨b, t, len, h1, h2, h3, h4, h5⟩ := hh
  have hch : CHeader pieces.flatten 0 toSize rest := by
    obtain ⟨b', t', w, k, e, _, _, g1, g2, _⟩ := hc'
    rw [h1] at e
    cases e
    rw [h5] at g1
    cases g1
    exact ⟨b, t, toSize, len, h1, h2, h3, h5, g2, rfl⟩
  obtain ⟨rfl, hm⟩ := (C37_c_accepts_exactly_none fr hfr pieces hlen hw toSize rest hch n out).1 hacc
  have hP : Plain pieces.flatten := by
    rintro c s r ⟨b', t', len', k1, k2, k3, k4, k5⟩
    rw [h1] at k1
    cases k1
    rw [h5] at k5
    cases k5
    have hc0 : c = 0 := k3.symm.trans h3
    rcases hm with ⟨hz, _, _⟩ | ⟨hz, hb⟩
    · left; rw [hz]; rfl
    · right
      refine ⟨rest, .inl ⟨hc0, rfl⟩, fun d l b hu => ?_⟩
      obtain ⟨d', l', b', recs, u1, u2, _⟩ := hb
      rw [u1] at hu
      cases hu
      exact u2
  have := (C39_apply_accepts_exactly lib formats false fr pieces.flatten hP).1 toSize out
  apply this
  refine ⟨0, rest, ⟨b, t, len, h1, h2, h3, h4, h5⟩, ?_⟩
  rcases hm with ⟨hz, _, rfl⟩ | ⟨hz, hb⟩
  · exact .inl ⟨by omega, rfl⟩
  · refine .inr ⟨by omega, rest, .inl ⟨rfl, rfl⟩, ?_⟩
    obtain ⟨d', l', b', recs, u1, u2, u3, u4, u5, u6, u7⟩ := hb
    exact ⟨d', l', b', recs, u1, u2, u4, u7⟩

/-- C37, the other direction: a patch (no compression) that means `out` according to
the format, and whose integers are within the limits of the C API, is accepted by it
with the same result. Without to-data nothing may follow the header. -/
theorem C37_c_agrees_none [Build] (fr : Bytes) (hfr : fr.length < 2 ^ 31) (pieces : List Bytes)
    (hlen : pieces.flatten.length < 2 ^ 62) (hw : HeaderInFirst pieces.flatten.length pieces)
    (toSize : Nat) (out rest : Bytes) (hh : CHeader pieces.flatten 0 toSize rest) (hz : toSize = 0 → rest = [])
    (hm : PatchMeans false fr pieces.flatten toSize out)
    (hsmall : ∀ d len b recs z, unpackSizeWithLength rest = .ok (d, len, b) → Recs toSize b recs z →
      len ≤ 4 ∧ (∀ r ∈ recs, r.Small) ∧ ∀ q ∈ seeks 0 recs, q < 2 ^ 31) :
    CAccepts fr pieces.flatten.length pieces toSize out := by
  rw [C37_c_accepts_exactly_none fr hfr pieces hlen hw toSize rest hh]
  refine ⟨rfl, ?_⟩
  obtain ⟨c, rest', hh', hm⟩ := hm
  have hr : c = 0 ∧ rest' = rest := by
    obtain ⟨b, t, w, k, e, _, q, g1, g2, _⟩ := hh
    obtain ⟨b', t', k', e', _, q', _, g1'⟩ := hh'
    rw [e] at e'
    cases e'
    rw [g1] at g1'
    cases g1'
    exact ⟨q'.symm.trans q, rfl⟩
  obtain ⟨rfl, rfl⟩ := hr
  rcases hm with ⟨h0, rfl⟩ | ⟨h0, body, hp, d, l, b, recs, u1, u2, u3, u4⟩
  · have : toSize = 0 := by omega
    exact .inl ⟨this, hz this, rfl⟩
  · right
    rcases hp with ⟨_, rfl⟩ | ⟨hc, _⟩
    · obtain ⟨s1, s2, s3⟩ := hsmall d l b recs [] u1 u3
      exact ⟨by omega, d, l, b, recs, u1, u2, s1, u3, s2, s3, u4⟩
    · cases hc

/-- C37 for CRLE: a patch that means `out` according to the format, and whose integers
are within the limits of the C API, is accepted by it with the same result. -/
theorem C37_c_agrees_crle [Build] (fr : Bytes) (hfr : fr.length < 2 ^ 31) (pieces : List Bytes) (patchSize : Nat) (hP : patchSize < 2 ^ 63)
    (toSize : Nat) (out rest body : Bytes) (hh : CHeader pieces.flatten 2 toSize rest)
    (hdec : CrleDec 0 rest body) (hcs : CrleSmall 0 rest) (hlen : body.length < 2 ^ 62)
    (hm : PatchMeans false fr pieces.flatten toSize out)
    (hsmall : ∀ d len b recs z, unpackSizeWithLength body = .ok (d, len, b) → Recs toSize b recs z →
      len ≤ 4 ∧ (∀ r ∈ recs, r.Small) ∧ ∀ q ∈ seeks 0 recs, q < 2 ^ 31) :
    CAccepts fr patchSize pieces toSize out := by
  rw [C37_c_accepts_exactly_crle fr hfr pieces patchSize hP toSize rest body hh hdec hcs hlen]
  refine ⟨rfl, ?_⟩
  obtain ⟨c, rest', hh', hm⟩ := hm
  have hr : c = 2 ∧ rest' = rest := by
    obtain ⟨b, t, w, k, e, _, q, g1, g2, _⟩ := hh
    obtain ⟨b', t', k', e', _, q', _, g1'⟩ := hh'
    rw [e] at e'
    cases e'
    rw [g1] at g1'
    cases g1'
    exact ⟨q'.symm.trans q, rfl⟩
  obtain ⟨rfl, rfl⟩ := hr
  rcases hm with ⟨h0, rfl⟩ | ⟨h0, body', hp, d, l, b, recs, u1, u2, u3, u4⟩
  · exact .inl ⟨by omega, rfl⟩
  · right
    rcases hp with ⟨hc, _⟩ | ⟨_, hd⟩
    · cases hc
    · cases hd.unique hdec
      obtain ⟨s1, s2, s3⟩ := hsmall d l b recs [] u1 u3
      exact ⟨by omega, [], d, l, b, recs, u1, u2, s1, u3, s2, s3, u4⟩

/-- A patch both accept: the one of the examples above. -/
example : CHeader [0, 4, 0, 2, 1, 1, 2, 9, 9, 0] 0 4 [0, 2, 1, 1, 2, 9, 9, 0] ∧
    CBodyMeans [1, 2, 3] 4 [0, 2, 1, 1, 2, 9, 9, 0] [2, 3, 9, 9] [] := by
  refine ⟨⟨0, _, 4, 1, rfl, by decide, by decide, by decide, by decide, by decide⟩, ?_⟩
  refine ⟨0, 1, [2, 1, 1, 2, 9, 9, 0], [⟨2, [1, 1], 2, [9, 9], 0, 1, 1, 1⟩], by decide, by decide, by decide, ?_, ?_, ?_, by decide⟩
  · exact .record (b1 := [2, 9, 9, 0]) (b2 := [0]) (b3 := []) (by decide) (by decide) (by decide) (by decide) (by decide) (by decide)
      (by decide) (by decide) (.done (by decide))
  · intro r hr
    simp only [List.mem_singleton] at hr
    subst hr
    exact ⟨by decide, by decide, by decide, by decide, by decide⟩
  · intro q hq
    simp only [seeks, List.mem_singleton] at hq
    subst hq
    decide

/-- C08. A patch created in Python with compression none or CRLE is accepted by the C
API, divided in any way that does not split the header of an uncompressed patch, and
rebuilds exactly the to-data. From- and to-data are shorter than 2^27 bytes, and the
patch would be shorter than 2^28 bytes uncompressed (the C integer decoders take no
more). -/
theorem C08_c_applies_created [Build] (lib : Lib) (hsa : SuffixArrayInRange lib.suffixArray) (c : Compression) (hc : c = .none ∨ c = .crle)
    (fr to : Bytes) (hfr : fr.length < 2 ^ 27) (hto : to.length < 2 ^ 27)
    (plain : Bytes) (hplain : createSequential lib .none none fr to = .ok plain) (hsz : plain.length < 2 ^ 28)
    (patch : Bytes) (hcreate : createSequential lib c none fr to = .ok patch)
    (pieces : List Bytes) (hpieces : pieces.flatten = patch) (hw : HeaderInFirst patch.length pieces) (hpl : patch.length < 2 ^ 62) :
    CAccepts fr patch.length pieces to.length to := by
  subst hpieces
  obtain ⟨body, hbody, hbl, hn, hcr⟩ := created_c lib hsa fr to hfr hto plain hplain
  have hl0 : to = [] → to.length = 0 := fun h => by rw [h]; rfl
  have hl1 : to ≠ [] → 0 < to.length := fun h => List.length_pos_iff.2 h
  rcases hc with rfl | rfl
  · have hp := hn _ hcreate
    have hh := created_header .none to.length hto (if to = [] then [] else body)
    rw [show Compression.none.toNumber = 0 from rfl, ← hp] at hh
    rw [C37_c_accepts_exactly_none fr (by omega) pieces hpl hw to.length _ hh]
    refine ⟨rfl, ?_⟩
    by_cases hne : to = []
    · exact .inl ⟨hl0 hne, by rw [if_pos hne], hne⟩
    · rw [if_neg hne]
      exact .inr ⟨hl1 hne, hbody hne⟩
  · obtain ⟨rest, hp, hdec⟩ := hcr _ hcreate
    have hh := created_header .crle to.length hto (if to = [] then [] else rest)
    rw [show Compression.crle.toNumber = 2 from rfl, ← hp] at hh
    by_cases hne : to = []
    · rw [if_pos hne] at hh
      rw [C37_c_accepts_exactly_crle fr (by omega) pieces _ (by omega) to.length [] [] hh .done .done (by decide)]
      exact ⟨rfl, .inl ⟨hl0 hne, hne⟩⟩
    · rw [if_neg hne] at hh
      rw [C37_c_accepts_exactly_crle fr (by omega) pieces _ (by omega) to.length rest body hh (hdec hne).1 ((hdec hne).2 hsz) (by omega)]
      exact ⟨rfl, .inr ⟨hl1 hne, [], hbody hne⟩⟩

-- Created patches, applied by C in two pieces.
example : createSequential exampleLib .crle none [1, 2] [1, 2, 3] = .ok [2, 3, 0, 7, 0, 2, 0, 0, 1, 3, 0] ∧
    createSequential exampleLib .none none [1, 2] [1, 2, 3] = .ok [0, 3, 0, 2, 0, 0, 1, 3, 0] ∧
    (applyPieces (fileEnv [1, 2]) 11 { arg := {} } [[2], [3, 0, 7, 0, 2, 0], [0, 1, 3, 0]]).map (fun r => (r.1, r.2.2.arg.out)) = .ok (3, [1, 2, 3]) := by
  refine ⟨?_, ?_, ?_⟩ <;> decide +kernel

/-- C16, C. No strict prefix of a created patch (none or CRLE) is accepted, however it
is divided, whatever patch size was announced and whatever the from-data. -/
theorem C16_c_truncated [Build] (lib : Lib) (hsa : SuffixArrayInRange lib.suffixArray) (c : Compression) (hc : c = .none ∨ c = .crle)
    (fr to : Bytes) (hfr : fr.length < 2 ^ 27) (hto : to.length < 2 ^ 27)
    (plain : Bytes) (hplain : createSequential lib .none none fr to = .ok plain) (hsz : plain.length < 2 ^ 28)
    (patch : Bytes) (hcreate : createSequential lib c none fr to = .ok patch)
    (p z : Bytes) (hcut : patch = p ++ z) (hz : z ≠ [])
    (fr' : Bytes) (hfr' : fr'.length < 2 ^ 31) (pieces : List Bytes) (hpieces : pieces.flatten = p)
    (patchSize : Nat) (hP : patchSize < 2 ^ 63) (hw : HeaderInFirst patchSize pieces) (n : Int) (out : Bytes) :
    ¬ CAccepts fr' patchSize pieces n out := by
  intro hacc
  subst hpieces
  obtain ⟨body, hbody, hbl, hn, hcr⟩ := created_c lib hsa fr to hfr hto plain hplain
  have hnz : NotLzmaPatch pieces.flatten := by
    rcases hc with rfl | rfl
    · have hh := created_header .none to.length hto (if to = [] then [] else body)
      rw [show Compression.none.toNumber = 0 from rfl, ← hn _ hcreate, hcut] at hh
      exact hh.notLzma_prefix (by decide)
    · obtain ⟨rest, hp, _⟩ := hcr _ hcreate
      have hh := created_header .crle to.length hto (if to = [] then [] else rest)
      rw [show Compression.crle.toNumber = 2 from rfl, ← hp, hcut] at hh
      exact hh.notLzma_prefix (by decide)
  rw [caccepts_noLzma hnz] at hacc
  obtain ⟨c', v, rest', r, res, h1, h2, h3, _, _⟩ := (caccepts_iff0 fr' hfr' patchSize hP pieces hw n out).1 hacc
  have h1' := h1.prefix (z := z)
  rw [← hcut] at h1'
  obtain ⟨_, _, hv⟩ := h1.rest_lt
  have fin : ∀ q lost, body = q ++ lost → lost ≠ [] → to ≠ [] → ∀ out z', CBodyMeans fr' to.length q out z' → False := by
    intro q lost e hl hne out z' hb
    have e1 := hbody hne
    rw [e] at e1
    have := e1.rest_unique (hb.append lost)
    have := (List.append_eq_nil_iff.1 this.symm).2
    exact hl this
  rcases hc with rfl | rfl
  · have hh := created_header .none to.length hto (if to = [] then [] else body)
    rw [show Compression.none.toNumber = 0 from rfl, ← hn _ hcreate] at hh
    obtain ⟨rfl, rfl, hr⟩ := hh.unique h1'
    have hne : to ≠ [] := by
      intro he
      rw [if_pos he] at hr
      exact hz (List.append_eq_nil_iff.1 hr.symm).2
    rw [if_neg hne] at hr
    have hrl : rest'.length ≤ body.length := by rw [hr]; simp
    rw [@init_zero noLzma] at h2
    cases h2
    rcases ((body_raw fr' _ to.length hv rest' (by omega)).1 res h3).2 with ⟨h, _⟩ | ⟨_, z', _, hb⟩
    · exact hne (List.length_eq_zero_iff.1 h)
    · exact fin rest' z hr hz hne _ _ hb
  · obtain ⟨rest, hp, hdec⟩ := hcr _ hcreate
    have hh := created_header .crle to.length hto (if to = [] then [] else rest)
    rw [show Compression.crle.toNumber = 2 from rfl, ← hp] at hh
    obtain ⟨rfl, rfl, hr⟩ := hh.unique h1'
    have hne : to ≠ [] := by
      intro he
      rw [if_pos he] at hr
      exact hz (List.append_eq_nil_iff.1 hr.symm).2
    rw [if_neg hne] at hr
    obtain ⟨o, lost, k1, k2, k3⟩ := (hdec hne).1.out_cut ((hdec hne).2 hsz) rest' z hr hz
    have hol : o.length ≤ body.length := by rw [k1]; simp
    rw [@init_two noLzma] at h2
    cases h2
    rcases ((body_crle fr' to.length hv rest' o k3 (by omega)).1 res h3).2 with ⟨h, _⟩ | ⟨_, z', hb⟩
    · exact hne (List.length_eq_zero_iff.1 h)
    · exact fin o lost k1 k2 hne _ _ hb

example : (applyPieces (fileEnv [1, 2]) 11 { arg := {} } [[2], [3, 0, 7, 0, 2, 0], [0, 1, 3]]).map (·.1) = .ok NOT_ENOUGH_PATCH_DATA := by
  decide +kernel

/-- C17, C, no compression: a created patch is accepted only with its own size
announced; in particular, the patch followed by anything, with the total size
announced, is rejected. -/
theorem C17_c_trailing_none [Build] (lib : Lib) (hsa : SuffixArrayInRange lib.suffixArray)
    (fr to : Bytes) (hfr : fr.length < 2 ^ 27) (hto : to.length < 2 ^ 27)
    (patch : Bytes) (hcreate : createSequential lib .none none fr to = .ok patch)
    (z : Bytes) (hlen : (patch ++ z).length < 2 ^ 62)
    (fr' : Bytes) (hfr' : fr'.length < 2 ^ 31) (pieces : List Bytes) (hpieces : pieces.flatten = patch ++ z)
    (patchSize : Nat) (hP : patchSize < 2 ^ 63) (hne : patchSize ≠ patch.length) (hw : HeaderInFirst patchSize pieces) (n : Int) (out : Bytes) :
    ¬ CAccepts fr' patchSize pieces n out := by
  intro hacc
  obtain ⟨body, hbody, hbl, hn, _⟩ := created_c lib hsa fr to hfr hto patch hcreate
  have hh := (created_header .none to.length hto (if to = [] then [] else body)).prefix (z := z)
  rw [show Compression.none.toNumber = 0 from rfl, ← hn _ hcreate, ← hpieces] at hh
  rw [caccepts_noLzma (hh.notLzma (by decide))] at hacc
  obtain ⟨c', v, rest', r, res, h1, h2, h3, _, _⟩ := (caccepts_iff0 fr' hfr' patchSize hP pieces hw n out).1 hacc
  obtain ⟨rfl, rfl, rfl⟩ := hh.unique h1
  obtain ⟨l1, l2, hv⟩ := hh.rest_lt
  rw [hpieces] at l1 l2
  have hP2 : pieces.flatten.length - ((if to = [] then [] else body) ++ z).length ≤ patchSize := by
    obtain ⟨b, t, w, k, g1, _, g3, g4, g5, _⟩ := hh
    have := (hw b t w k _ g1 g3 g4 g5).1
    obtain ⟨q, e, h3, _⟩ := unpackSizeWithLength_consumes t w k _ g4
    have : pieces.flatten.length = 1 + k + ((if to = [] then [] else body) ++ z).length := by
      rw [g1, e]
      simp only [List.length_cons, List.length_append]
      omega
    omega
  have hpl : patch.length + z.length = (patch ++ z).length := by simp
  have hrl : ((if to = [] then [] else body) ++ z).length = (if to = [] then [] else body).length + z.length := by simp
  rw [@init_zero noLzma] at h2
  cases h2
  rw [hpieces] at h3 hP2
  rcases ((body_raw fr' _ to.length hv _ (by omega)).1 res h3).2 with ⟨h0, h, _⟩ | ⟨h0, z', h, hb⟩
  · have he : to = [] := List.length_eq_zero_iff.1 h0
    rw [if_pos he] at *
    simp only [List.length_nil] at *
    omega
  · have hne' : to ≠ [] := by
      intro he
      rw [he] at h0
      exact absurd h0 (by decide)
    rw [if_neg hne'] at *
    have := ((hbody hne').append z).rest_unique hb
    rw [List.nil_append] at this
    subst this
    omega

/-- C17 is false in C for CRLE: whatever follows a created patch is ignored. -/
theorem C17_c_trailing_crle_ignored [Build] (lib : Lib) (hsa : SuffixArrayInRange lib.suffixArray)
    (fr to : Bytes) (hfr : fr.length < 2 ^ 27) (hto : to.length < 2 ^ 27)
    (plain : Bytes) (hplain : createSequential lib .none none fr to = .ok plain) (hsz : plain.length < 2 ^ 28)
    (patch : Bytes) (hcreate : createSequential lib .crle none fr to = .ok patch) (hpl : patch.length < 2 ^ 62)
    (z : Bytes) (pieces : List Bytes) (hpieces : pieces.flatten = patch ++ z) (patchSize : Nat) (hP : patchSize < 2 ^ 63) :
    CAccepts fr patchSize pieces to.length to := by
  obtain ⟨_, _, _, _, hcr⟩ := created_c lib hsa fr to hfr hto plain hplain
  obtain ⟨rest, hp, _⟩ := hcr _ hcreate
  have hh := created_header .crle to.length hto (if to = [] then [] else rest)
  rw [show Compression.crle.toNumber = 2 from rfl, ← hp] at hh
  have hnw : ∀ (P : Nat) (q : Bytes) (qs : List Bytes), qs.flatten = patch ++ q → HeaderInFirst P qs := by
    intro P q qs hq b t v len r g1 g2
    obtain ⟨b', t', _, _, f1, _, f3, _⟩ := hh.prefix (z := q)
    rw [← hq, g1] at f1
    cases f1
    omega
  have h0 := C08_c_applies_created lib hsa .crle (.inr rfl) fr to hfr hto plain hplain hsz patch hcreate [patch] (by simp)
    (hnw _ [] _ (by simp)) hpl
  have hz1 := (hh.prefix (z := z)).notLzma (by decide)
  rw [caccepts_noLzma (by simpa using hh.notLzma (by decide)), caccepts_iff0 fr (by omega) _ (by omega) _ (hnw _ [] _ (by simp))] at h0
  rw [caccepts_noLzma (by rw [hpieces]; exact hz1), caccepts_iff0 fr (by omega) _ hP _ (hnw _ z _ hpieces), hpieces]
  obtain ⟨c, v, r', r, res, k1, k2, k3, k4, k5⟩ := h0
  rw [show [patch].flatten = patch by simp] at k1
  obtain ⟨rfl, rfl, rfl⟩ := hh.unique k1
  rw [@init_two noLzma] at k2
  exact ⟨2, _, _, r, res, k1.prefix, k2, k3.append z, k4, k5⟩

example : (applyPieces (fileEnv [1, 2]) 13 { arg := {} } [[2, 3, 0, 7, 0, 2, 0, 0, 1, 3, 0, 0xde, 0xad]]).map (fun r => (r.1, r.2.2.arg.out)) = .ok (3, [1, 2, 3]) ∧
    (applyPieces (fileEnv [1, 2]) 11 { arg := {} } [[0, 3, 0, 2, 0, 0, 1, 3, 0, 0xde, 0xad]]).map (·.1) = .ok CORRUPT_PATCH := by
  constructor <;> decide +kernel

end Detools
