import Verif.Proofs.HsAccept
import Verif.Props.CSequential
import Verif.Props.PyCompression
/-
C08, C16, C17 and C37 for heatshrink patches and the sequential C API. The bit format is
in Spec/Heatshrink.lean.
-/
namespace Detools

attribute [local instance] noLzma

theorem hs_not_split {pieces : List Bytes} {toSize : Nat} {rest : Bytes} (hh : CHeader pieces.flatten 4 toSize rest) (patchSize : Nat) :
    HeaderInFirst patchSize pieces := by
  intro b t v len r h1 h2
  obtain ⟨b', t', _, _, g1, _, g3, _⟩ := hh
  rw [h1] at g1
  cases g1
  omega

/-- C37, heatshrink: what follows the header must be the byte of the window and lookahead
sizes 8 and 7, then symbols; the patch ends between two of these symbols, and the rest is
ignored. Within its limits, the C API accepts exactly the patches with a meaning, with
exactly that result. -/
theorem C37_c_accepts_exactly_heatshrink [Build] (fr : Bytes) (hfr : fr.length < 2 ^ 31) (pieces : List Bytes) (patchSize : Nat) (hP : patchSize < 2 ^ 63)
    (hlen : pieces.flatten.length < 2 ^ 50) (toSize : Nat) (rest : Bytes) (hh : CHeader pieces.flatten 4 toSize rest) (n : Int) (out : Bytes) :
    CAccepts fr patchSize pieces n out ↔ n = toSize ∧
      ((toSize = 0 ∧ out = []) ∨
        (0 < toSize ∧ ∃ x syms used, rest = 0x44 :: x ∧ HsParses 8 7 (bytesBits x) syms ∧ used <+: syms ∧
          CBodyMeans fr toSize (hsExpand [] used) out [])) := by
  rw [caccepts_noLzma (hh.notLzma (by decide)), caccepts_iff0 fr hfr _ hP pieces (hs_not_split hh patchSize)]
  obtain ⟨l1, l2, l3⟩ := hh.rest_lt
  have hbody := body_hs fr toSize l3 rest (by omega)
  constructor
  · rintro ⟨c, v, rest', r, res, h1, h2, h3, rfl, rfl⟩
    obtain ⟨rfl, rfl, rfl⟩ := hh.unique h1
    cases h2
    obtain ⟨e, h⟩ := hbody.1 res h3
    exact ⟨by rw [e], h⟩
  · rintro ⟨rfl, h⟩
    obtain ⟨res, g1, g2, g3⟩ := hbody.2 out h
    exact ⟨4, toSize, rest, .heatshrink none, res, hh, rfl, g1, by rw [g2], g3.symm⟩

/-- A created heatshrink patch. -/
theorem created_hs {lib : Lib} (hsa : SuffixArrayInRange lib.suffixArray) (hlib : HsDefault lib)
    {fr to : Bytes} (hfr : fr.length < 2 ^ 27) (hto : to.length < 2 ^ 27)
    {patch : Bytes} (hcreate : createSequential lib .heatshrink none fr to = .ok patch) :
    ∃ x plain, patch = packHeader PATCH_TYPE_SEQUENTIAL 4 ++ packSize (to.length : Nat) ++ (if to = [] then [] else 0x44 :: x) ∧
      HsEncodes 8 7 x plain ∧ (to ≠ [] → CBodyMeans fr to.length plain to []) := by
  obtain ⟨L, hL, hc⟩ := hlib
  obtain ⟨ops, hops, hsm, hshape⟩ := created_shape_all lib hsa fr to (by omega)
  have hflat : (packSize 0 :: ops.flatMap Op.chunks).flatten = packSize 0 ++ encodeOps ops := flatten_cons_chunks _ _
  have henc := hL.writes 8 7 ⟨by decide, by decide, by decide, by decide⟩ (packSize 0 :: ops.flatMap Op.chunks)
  rw [hshape .heatshrink, show lib.codecOf .heatshrink = heatshrinkCodec L 8 7 from hc, heatshrink_run] at hcreate
  refine ⟨_, _, (Except.ok.inj hcreate).symm, henc, fun _ => ?_⟩
  rw [hflat]
  have := created_body fr to hfr hto hops hsm []
  simpa using this

/-- C08, heatshrink. A patch created in Python with the default parameters is accepted by
the C API, however it is divided, and rebuilds exactly the to-data; so is the patch with
anything after it (C17 is false in C for heatshrink), whatever patch size is announced. -/
theorem C08_c_applies_created_heatshrink [Build] (lib : Lib) (hsa : SuffixArrayInRange lib.suffixArray) (hlib : HsDefault lib)
    (fr to : Bytes) (hfr : fr.length < 2 ^ 27) (hto : to.length < 2 ^ 27)
    (patch : Bytes) (hcreate : createSequential lib .heatshrink none fr to = .ok patch)
    (z : Bytes) (hpl : (patch ++ z).length < 2 ^ 50) (pieces : List Bytes) (hpieces : pieces.flatten = patch ++ z)
    (patchSize : Nat) (hP : patchSize < 2 ^ 63) :
    CAccepts fr patchSize pieces to.length to := by
  obtain ⟨x, plain, hp, henc, hb⟩ := created_hs hsa hlib hfr hto hcreate
  have hh := (created_header .heatshrink to.length hto (if to = [] then [] else 0x44 :: x)).prefix (z := z)
  rw [show Compression.heatshrink.toNumber = 4 from rfl, ← hp, ← hpieces] at hh
  rw [← hpieces] at hpl
  rw [C37_c_accepts_exactly_heatshrink fr (by omega) pieces patchSize hP hpl to.length _ hh]
  refine ⟨rfl, ?_⟩
  by_cases hne : to = []
  · exact .inl ⟨by rw [hne]; rfl, hne⟩
  · rw [if_neg hne]
    obtain ⟨S0, h0, h1⟩ := henc.parses (by omega)
    obtain ⟨S, hS⟩ := hsParses_exists 8 7 _ (bytesBits (x ++ z)) (Nat.le_refl _)
    refine .inr ⟨List.length_pos_iff.2 hne, x ++ z, S, S0, rfl, hS, h0.prefix_of (by rw [← bytesBits_append]; exact hS), ?_⟩
    rw [h1]
    exact hb hne

/-- C16, C, heatshrink. No strict prefix of a created patch is accepted, however it is
divided, whatever patch size was announced and whatever the from-data. -/
theorem C16_c_truncated_heatshrink [Build] (lib : Lib) (hsa : SuffixArrayInRange lib.suffixArray) (hlib : HsDefault lib)
    (fr to : Bytes) (hfr : fr.length < 2 ^ 27) (hto : to.length < 2 ^ 27)
    (patch : Bytes) (hcreate : createSequential lib .heatshrink none fr to = .ok patch) (hpl : patch.length < 2 ^ 50)
    (p z : Bytes) (hcut : patch = p ++ z) (hz : z ≠ [])
    (fr' : Bytes) (hfr' : fr'.length < 2 ^ 31) (pieces : List Bytes) (hpieces : pieces.flatten = p)
    (patchSize : Nat) (hP : patchSize < 2 ^ 63) (hw : HeaderInFirst patchSize pieces) (n : Int) (out : Bytes) :
    ¬ CAccepts fr' patchSize pieces n out := by
  intro hacc
  subst hpieces
  obtain ⟨x, plain, hp, henc, hb⟩ := created_hs hsa hlib hfr hto hcreate
  have hh := created_header .heatshrink to.length hto (if to = [] then [] else 0x44 :: x)
  rw [show Compression.heatshrink.toNumber = 4 from rfl, ← hp] at hh
  rw [caccepts_noLzma (by rw [hcut] at hh; exact hh.notLzma_prefix (by decide))] at hacc
  obtain ⟨c', v, rest', r, res, h1, h2, h3, _, _⟩ := (caccepts_iff0 fr' hfr' patchSize hP pieces hw n out).1 hacc
  have h1' := h1.prefix (z := z)
  rw [← hcut] at h1'
  obtain ⟨l1, l2, hv⟩ := h1.rest_lt
  obtain ⟨rfl, rfl, hr⟩ := hh.unique h1'
  have hne : to ≠ [] := by
    intro he
    rw [if_pos he] at hr
    exact hz (List.append_eq_nil_iff.1 hr.symm).2
  rw [if_neg hne] at hr
  cases h2
  have hlp := congrArg List.length hcut
  rw [List.length_append] at hlp
  rcases ((body_hs fr' to.length hv rest' (by omega)).1 res h3).2 with ⟨h, _⟩ | ⟨_, x', S, S1, rfl, hS, hpre, hm⟩
  · exact hne (List.length_eq_zero_iff.1 h)
  · simp only [List.cons_append, List.cons.injEq, true_and] at hr
    subst hr
    obtain ⟨S0, lost, g1, g2, g3⟩ := henc.cut ⟨by decide, by decide, by decide, by decide⟩ hz
    cases g1.1.unique hS
    obtain ⟨z', hz'⟩ := hsExpand_prefix hpre
    have h2 := (hm.append z').append lost
    rw [hz', ← g2] at h2
    have := (hb hne).rest_unique h2
    exact g3 (List.append_eq_nil_iff.1 this.symm).2

-- The library of the example, a created patch, and C applying it in pieces, with
-- something after it, and a cut one.
example : HsDefault exampleLib2 := ⟨plainHs, plainHs_ok, rfl⟩

example : createSequential exampleLib2 .heatshrink none [1, 2] [1, 2, 3] = .ok [4, 3, 68, 128, 64, 160, 16, 8, 12, 14, 0] ∧
    (applyPieces (fileEnv [1, 2]) 11 { arg := {} } [[4], [3, 68, 128, 64], [160, 16, 8, 12, 14, 0, 99]]).map (fun r => (r.1, r.2.2.arg.out)) = .ok (3, [1, 2, 3]) ∧
    (applyPieces (fileEnv [1, 2]) 11 { arg := {} } [[4], [3, 68, 128, 64], [160, 16, 8, 12, 14]]).map (·.1) = .ok NOT_ENOUGH_PATCH_DATA := by
  refine ⟨?_, ?_, ?_⟩ <;> decide +kernel

end Detools
