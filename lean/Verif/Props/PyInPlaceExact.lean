import Verif.Proofs.PyInPlaceExact
import Verif.Props.PyInPlace
import Verif.Props.PyCompression
/-
C45: which in-place patches `apply_patch_in_place` accepts, and what they do to the
memory.

The meaning of a patch is specified in Spec/InPlaceMeans.lean (`InPlaceMeans`) without
reference to how patches are applied.
-/
namespace Detools

/-- The patches the first theorem is about: not compressed or CRLE compressed (a complete
stream without empty segments). -/
def PlainInPlace (patch : Bytes) : Prop :=
  ∀ c memory seg shift from_ toSize rest, InPlaceHead patch c memory seg shift from_ toSize rest →
    toSize ≤ 0 ∨ ∃ body, Payload c rest body

/-- C45. `apply_patch_in_place` accepts exactly the patches the format gives a meaning
for the memory at hand, and then leaves exactly the memory the format says and returns
the size in the header. Every other patch makes it raise an exception; the loops always
finish. -/
theorem C45_in_place_exactly (lib : Lib) (m patch : Bytes) (hp : PlainInPlace patch) :
    (∀ toSize m', InPlaceMeans m patch toSize m' → ∃ F, ∀ fuel, F ≤ fuel →
      applyInPlace lib fuel patch m = (m', .ok toSize)) ∧
    ((¬ ∃ toSize m', InPlaceMeans m patch toSize m') → ∃ F m' e, e ≠ .timeout ∧ ∀ fuel, F ≤ fuel →
      applyInPlace lib fuel patch m = (m', .error e)) := by
  cases hr : readHeaderInPlace patch with
  | error e =>
    refine ⟨?_, fun _ => applyInPlace_fails_header lib m hr⟩
    rintro toSize m' ⟨c, memory, seg, shift, from_, rest, hh, _⟩
    exfalso
    obtain ⟨c', hc'⟩ : ∃ c' : Compression, c'.toNumber = c := by
      obtain ⟨_, _, _, _, _, _, _, _, _, _, _, _, _, _, hle, _⟩ := hh
      match c, hle with
      | 0, _ => exact ⟨.none, rfl⟩
      | 1, _ => exact ⟨.lzma, rfl⟩
      | 2, _ => exact ⟨.crle, rfl⟩
      | 3, _ => exact ⟨.bz2, rfl⟩
      | 4, _ => exact ⟨.heatshrink, rfl⟩
      | 5, _ => exact ⟨.zstd, rfl⟩
      | 6, _ => exact ⟨.lz4, rfl⟩
      | n + 7, h => omega
    have := (readHeaderInPlace_iff patch ⟨c', memory, seg, shift, from_, toSize⟩ rest).2 (by rw [← hc'] at hh; exact hh)
    rw [hr] at this
    cases this
  | ok v =>
    obtain ⟨h, rest⟩ := v
    have hh := (readHeaderInPlace_iff _ _ _).1 hr
    have huniq : ∀ c' m0' s' sh' f' t' r', InPlaceHead patch c' m0' s' sh' f' t' r' →
        c' = h.compression.toNumber ∧ m0' = h.memorySize ∧ s' = h.segmentSize ∧ sh' = h.shiftSize ∧ f' = h.fromSize ∧ t' = h.toSize ∧ r' = rest := by
      rintro c' m0' s' sh' f' t' r' ⟨b, t0, t1, t2, t3, t4, n0, n1, n2, n3, n4, h1, h2, h3, h4, u0, u1, u2, u3, u4⟩
      obtain ⟨b', t0', t1', t2', t3', t4', n0', n1', n2', n3', n4', g1, g2, g3, g4, w0, w1, w2, w3, w4⟩ := hh
      rw [h1] at g1
      cases g1
      rw [u0] at w0; injection w0 with w0; injection w0 with a0 w0; injection w0 with _ w0; subst w0
      rw [u1] at w1; injection w1 with w1; injection w1 with a1 w1; injection w1 with _ w1; subst w1
      rw [u2] at w2; injection w2 with w2; injection w2 with a2 w2; injection w2 with _ w2; subst w2
      rw [u3] at w3; injection w3 with w3; injection w3 with a3 w3; injection w3 with _ w3; subst w3
      rw [u4] at w4; injection w4 with w4; injection w4 with a4 w4; injection w4 with _ w4
      exact ⟨h3.symm.trans g3, a0, a1, a2, a3, a4, w4⟩
    have hrun := fun fuel => applyInPlace_read lib fuel m hr
    by_cases h0 : h.toSize > 0
    · have D : ∀ body, Payload h.compression.toNumber rest body → ∃ L : Delivers (lib.codecOf h.compression).decomp,
          L.owes ((lib.codecOf h.compression).initDecomp rest.length) rest body := by
        intro body hpay
        rcases hpay with ⟨hc, rfl⟩ | ⟨hc, hdec⟩
        · have : h.compression = .none := by
            revert hc; generalize h.compression = c; cases c <;> simp [Compression.toNumber]
          rw [this]
          exact ⟨noneLossless.toDelivers, rfl, rfl⟩
        · have : h.compression = .crle := by
            revert hc; generalize h.compression = c; cases c <;> simp [Compression.toNumber]
          rw [this]
          exact ⟨crleLossless.toDelivers, rfl, body, rfl, hdec, 0, by simp [crleCodec, Lib.codecOf, crleSegment]⟩
      constructor
      · rintro t' m' ⟨c', m0', s', sh', f', r', h1, h2⟩
        obtain ⟨rfl, rfl, rfl, rfl, rfl, rfl, rfl⟩ := huniq _ _ _ _ _ _ _ h1
        rcases h2 with ⟨h, _⟩ | ⟨_, k1, k2, k3, body, hpay, k4⟩
        · omega
        · obtain ⟨L, hO⟩ := D body hpay
          rcases bodyInPlace_supply _ L.supply h r' body m hO with ⟨m2, r, st, file, _, g1, g2, F, hF⟩ | ⟨g1, _⟩
          · obtain ⟨rfl, rfl⟩ := k4.unique g1
            refine ⟨F, fun fuel hf => ?_⟩
            rw [hrun, if_pos h0, hF fuel hf, if_pos ((L.eof_iff g2).2 rfl)]
          · exact absurd k4 (g1 m' [] ⟨k1, k2, k3⟩)
      · intro hno
        rcases hp _ _ _ _ _ _ _ hh with h' | ⟨body, hpay⟩
        · omega
        · obtain ⟨L, hO⟩ := D body hpay
          rcases bodyInPlace_supply _ L.supply h rest body m hO with ⟨m2, r, st, file, ⟨k1, k2, k3⟩, g1, g2, F, hF⟩ | ⟨_, F, m', e, he, hF⟩
          · by_cases hre : r = []
            · subst hre
              exact absurd ⟨_, _, _, _, _, _, _, _, hh, .inr ⟨h0, k1, k2, k3, body, hpay, g1⟩⟩ hno
            · refine ⟨F, m2, .error "End of patch not found.", by simp, fun fuel hf => ?_⟩
              rw [hrun, if_pos h0, hF fuel hf, if_neg (fun hx => hre ((L.eof_iff g2).1 hx))]
          · exact ⟨F, m', e, he, fun fuel hf => by rw [hrun, if_pos h0]; exact hF fuel hf⟩
    · constructor
      · rintro t' m' ⟨c', m0', s', sh', f', r', h1, h2⟩
        obtain ⟨rfl, rfl, rfl, rfl, rfl, rfl, rfl⟩ := huniq _ _ _ _ _ _ _ h1
        rcases h2 with ⟨_, rfl⟩ | ⟨h, _⟩
        · exact ⟨0, fun fuel _ => by rw [hrun, if_neg h0]⟩
        · exact absurd h h0
      · intro hno
        exact absurd ⟨h.toSize, m, _, _, _, _, _, rest, hh, .inl ⟨by omega, rfl⟩⟩ hno

/-- C45. No strict prefix of a created in-place patch is accepted: it makes
`apply_patch_in_place` raise an exception, on any memory. -/
theorem C45_in_place_truncated (lib : Lib) (hsa : SuffixArrayInRange lib.suffixArray) (c : Compression) (hc : c = .none ∨ c = .crle)
    (memory seg : Nat) (minShift : Option Nat) (fr to patch p z : Bytes) (hseg : 0 < seg)
    (hsize : memory < 2 ^ 62 ∧ seg < 2 ^ 62 ∧ minShift.getD (2 * seg) < 2 ^ 62 ∧ fr.length + to.length < 2 ^ 31)
    (hcreate : createInPlace lib c memory seg (minShift.map Int.ofNat) none fr to = .ok patch)
    (hcut : patch = p ++ z) (hz : z ≠ []) (m : Bytes) :
    ∃ F m' e, e ≠ .timeout ∧ ∀ fuel, F ≤ fuel → applyInPlace lib fuel p m = (m', .error e) := by
  obtain ⟨z1, z2, z3, z4⟩ := hsize
  obtain ⟨hd1, hd2⟩ := (C35_multiples lib hsa c memory seg minShift fr to hseg ⟨z1, z2, z3, z4⟩).1.1 ⟨_, hcreate⟩
  obtain ⟨opss, g1, g2, g3, g4⟩ := createInPlace_all lib hsa memory seg minShift fr to hseg hd1 hd2 z1 z3 z4 z2
  rw [g1 c, Except.ok.injEq, hcut] at hcreate
  rcases prefix_cases hcreate hz with ⟨z', hz', h⟩ | ⟨p', rfl, hb⟩
  · obtain ⟨e, he⟩ := headerInPlace_cut c _ _ _ _ _ _ _ h hz'
    exact applyInPlace_fails_header lib m he
  · have hpos : to.length ≠ 0 := by
      intro h
      rw [if_pos h] at hb
      exact hz (List.append_eq_nil_iff.1 hb.symm).2
    rw [if_neg hpos] at hb
    have hene : encodeSegments opss ≠ [] := by
      intro h
      have h1 := (segments_count to.length seg hseg (by omega)).1
      cases opss with
      | nil => simp at g2; omega
      | cons a t => simp [encodeSegments, packSize_ne_nil] at h
    have goal : FailsM (fun fuel => applyInPlaceBody (lib.codecOf c) fuel ⟨c, memory, seg, (shiftOf memory seg (minShift.getD (2 * seg)) fr.length : Nat), fr.length, to.length⟩ p') m := by
      rcases hc with rfl | rfl
      · have hO := noneLossless.init [encodeSegments opss] (by simpa using hene)
        have hrun : noneCodec.comp.run [encodeSegments opss] = [encodeSegments opss].flatten := hO.1
        simp only [Lib.codecOf] at hb ⊢
        rw [hrun] at hb
        exact bodyInPlace_cut noneCodec noneLossless.toDelivers.supply _ _ _ _ seg _ rfl _ to hseg (by omega) opss g2 g3 p' p' z m (by simpa using hb) hz ⟨rfl, rfl⟩
      · have hdec := crle_go_dec [encodeSegments opss] {} (.inr (by simpa using hene))
        obtain ⟨o, lost, h1, h2, h3⟩ := hdec.cut p' z hb hz
        rw [show ({} : CrleC).data = [] from rfl, List.nil_append] at h1
        exact bodyInPlace_cut crleCodec crleStreamSupply _ _ _ _ seg _ rfl _ to hseg (by omega) opss g2 g3 p' o lost m (by simpa using h1) h2
          ⟨rfl, o, rfl, h3, 0, by simp [crleCodec, crleSegment]⟩
    obtain ⟨F, m', e, he, hF⟩ := goal
    refine ⟨F, m', e, he, fun fuel hf => ?_⟩
    rw [applyInPlace_read lib fuel m (readHeaderInPlace_ok _ _ _ _ _ _ _), if_pos (by simp only; omega)]
    exact hF fuel hf

/-- C45. The same for heatshrink. -/
theorem C45_in_place_truncated_heatshrink (lib : Lib) (hsa : SuffixArrayInRange lib.suffixArray) (L : HsLib) (hL : L.Ok)
    (w l : Nat) (hp : HsParams w l) (hlib : lib.codec .heatshrink = heatshrinkCodec L w l)
    (memory seg : Nat) (minShift : Option Nat) (fr to patch p z : Bytes) (hseg : 0 < seg)
    (hsize : memory < 2 ^ 62 ∧ seg < 2 ^ 62 ∧ minShift.getD (2 * seg) < 2 ^ 62 ∧ fr.length + to.length < 2 ^ 31)
    (hcreate : createInPlace lib .heatshrink memory seg (minShift.map Int.ofNat) none fr to = .ok patch)
    (hcut : patch = p ++ z) (hz : z ≠ []) (m : Bytes) :
    ∃ F m' e, e ≠ .timeout ∧ ∀ fuel, F ≤ fuel → applyInPlace lib fuel p m = (m', .error e) := by
  obtain ⟨z1, z2, z3, z4⟩ := hsize
  have hc : lib.codecOf .heatshrink = heatshrinkCodec L w l := hlib
  obtain ⟨hd1, hd2⟩ := (C35_multiples lib hsa .heatshrink memory seg minShift fr to hseg ⟨z1, z2, z3, z4⟩).1.1 ⟨_, hcreate⟩
  obtain ⟨opss, g1, g2, g3, g4⟩ := createInPlace_all lib hsa memory seg minShift fr to hseg hd1 hd2 z1 z3 z4 z2
  rw [g1 .heatshrink, Except.ok.injEq, hcut] at hcreate
  rcases prefix_cases hcreate hz with ⟨z', hz', h⟩ | ⟨p', rfl, hb⟩
  · obtain ⟨e, he⟩ := headerInPlace_cut .heatshrink _ _ _ _ _ _ _ h hz'
    exact applyInPlace_fails_header lib m he
  · have hpos : to.length ≠ 0 := by
      intro h
      rw [if_pos h] at hb
      exact hz (List.append_eq_nil_iff.1 hb.symm).2
    rw [if_neg hpos, hc, heatshrink_run] at hb
    have hene : encodeSegments opss ≠ [] := by
      intro h
      have h1 := (segments_count to.length seg hseg (by omega)).1
      cases opss with
      | nil => simp at g2; omega
      | cons a t => simp [encodeSegments, packSize_ne_nil] at h
    have henc := hL.writes w l hp [encodeSegments opss]
    rw [show [encodeSegments opss].flatten = encodeSegments opss by simp] at henc
    have goal : FailsM (fun fuel => applyInPlaceBody (heatshrinkCodec L w l) fuel ⟨.heatshrink, memory, seg, (shiftOf memory seg (minShift.getD (2 * seg)) fr.length : Nat), fr.length, to.length⟩ p') m := by
      cases p' with
      | nil =>
        exact bodyInPlace_cut _ (hsSupply hL w l) _ _ _ _ seg _ rfl _ to hseg (by omega) opss g2 g3 [] [] (encodeSegments opss) m rfl hene .empty
      | cons b p'' =>
        simp only [List.cons_append, List.cons.injEq] at hb
        obtain ⟨rfl, hb⟩ := hb
        rw [hb] at henc
        obtain ⟨S, lost, k1, k2, k3⟩ := henc.cut hp hz
        exact bodyInPlace_cut _ (hsSupply hL w l) _ _ _ _ seg _ rfl _ to hseg (by omega) opss g2 g3 _ _ lost m k2 k3 (.start hp k1)
    obtain ⟨F, m', e, he, hF⟩ := goal
    refine ⟨F, m', e, he, fun fuel hf => ?_⟩
    rw [applyInPlace_read lib fuel m (readHeaderInPlace_ok _ _ _ _ _ _ _), if_pos (by simp only; omega)]
    simp only [hc]
    exact hF fuel hf

/-- C45. With any codec that detects incomplete streams, no strict prefix of a created
in-place patch is ever accepted. -/
theorem C45_in_place_truncated_codec (lib : Lib) (hsa : SuffixArrayInRange lib.suffixArray) (c : Compression)
    (hc : DetectsTruncation (lib.codecOf c))
    (memory seg : Nat) (minShift : Option Nat) (fr to patch p z : Bytes) (hseg : 0 < seg)
    (hsize : memory < 2 ^ 62 ∧ seg < 2 ^ 62 ∧ minShift.getD (2 * seg) < 2 ^ 62 ∧ fr.length + to.length < 2 ^ 31)
    (hcreate : createInPlace lib c memory seg (minShift.map Int.ofNat) none fr to = .ok patch)
    (hcut : patch = p ++ z) (hz : z ≠ []) (m m' : Bytes) (fuel : Nat) (n : Int) :
    applyInPlace lib fuel p m ≠ (m', .ok n) := by
  obtain ⟨z1, z2, z3, z4⟩ := hsize
  obtain ⟨hd1, hd2⟩ := (C35_multiples lib hsa c memory seg minShift fr to hseg ⟨z1, z2, z3, z4⟩).1.1 ⟨_, hcreate⟩
  obtain ⟨opss, g1, g2, g3, g4⟩ := createInPlace_all lib hsa memory seg minShift fr to hseg hd1 hd2 z1 z3 z4 z2
  rw [g1 c, Except.ok.injEq, hcut] at hcreate
  rcases prefix_cases hcreate hz with ⟨z', hz', h⟩ | ⟨p', rfl, hb⟩
  · obtain ⟨e, he⟩ := headerInPlace_cut c _ _ _ _ _ _ _ h hz'
    intro hr
    unfold applyInPlace at hr
    obtain ⟨m1, a, h1, _⟩ := Mem.bind_res_ok hr
    rw [he] at h1
    cases h1
  · have hpos : to.length ≠ 0 := by
      intro h
      rw [if_pos h] at hb
      exact hz (List.append_eq_nil_iff.1 hb.symm).2
    rw [if_neg hpos] at hb
    have hene : encodeSegments opss ≠ [] := by
      intro h
      have h1 := (segments_count to.length seg hseg (by omega)).1
      cases opss with
      | nil => simp at g2; omega
      | cons a t => simp [encodeSegments, packSize_ne_nil] at h
    obtain ⟨inc, hinc⟩ := hc
    rw [applyInPlace_read lib fuel m (readHeaderInPlace_ok _ _ _ _ _ _ _), if_pos (by simp only; omega)]
    exact bodyInPlace_incomplete _ inc _ _ _ _ _ _ (hinc _ p' z (by simpa using hene) hb hz)

-- A patch that no tool makes: the second record reads what the first one has written.
example : PlainInPlace [16, 4, 4, 0, 2, 4, 0, 1, 1, 1, 9, 69, 2, 1, 1, 0, 0] ∧
    InPlaceMeans [1, 2, 3, 4, 5, 6] [16, 4, 4, 0, 2, 4, 0, 1, 1, 1, 9, 69, 2, 1, 1, 0, 0] 4 [6, 9, 7, 10, 5, 6] := by
  have hh : InPlaceHead [16, 4, 4, 0, 2, 4, 0, 1, 1, 1, 9, 69, 2, 1, 1, 0, 0] 0 4 4 0 2 4 [0, 1, 1, 1, 9, 69, 2, 1, 1, 0, 0] :=
    ⟨16, _, _, _, _, _, 1, 1, 1, 1, 1, rfl, by decide, by decide, by decide, by rfl, by rfl, by rfl, by rfl, by rfl⟩
  constructor
  · rintro c memory seg shift from_ toSize rest ⟨b, t0, t1, t2, t3, t4, n0, n1, n2, n3, n4, h1, h2, h3, h4, u0, u1, u2, u3, u4⟩
    cases h1
    simp only [show (16 : UInt8).toNat % 16 = 0 from rfl] at h3
    exact .inr ⟨_, .inl ⟨h3.symm, rfl⟩⟩
  · refine ⟨0, 4, 4, 0, 2, _, hh, .inr ⟨by decide, by decide, by decide, by decide, _, .inl ⟨rfl, rfl⟩, ?_⟩⟩
    refine .segment (d := 0) (len := 1) (b := [1, 1, 1, 9, 69, 2, 1, 1, 0, 0]) (b' := []) (m1 := [6, 9, 7, 10, 5, 6])
      (recs := [⟨1, [1], 1, [9], -5, 1, 1, 1⟩, ⟨2, [1, 1], 0, [], 0, 1, 1, 1⟩])
      (by decide) (by decide) ?_ (by decide) .done
    refine .record (b1 := [1, 9, 69, 2, 1, 1, 0, 0]) (b2 := [69, 2, 1, 1, 0, 0]) (b3 := [2, 1, 1, 0, 0]) (by decide) (by decide) (by decide) (by decide) (by decide) (by decide)
      (by decide) (by decide) ?_
    exact .record (b1 := [0, 0]) (b2 := [0]) (b3 := []) (by decide) (by decide) (by decide) (by decide) (by decide) (by decide)
      (by decide) (by decide) (.done (by decide))

example : applyInPlace exampleLib 40 [16, 4, 4, 0, 2, 4, 0, 1, 1, 1, 9, 69, 2, 1, 1, 0, 0] [1, 2, 3, 4, 5, 6] = ([6, 9, 7, 10, 5, 6], .ok 4) := by
  decide +kernel

-- The same patch with a byte too many, and on a memory that is too small.
example : applyInPlace exampleLib 40 [16, 4, 4, 0, 2, 4, 0, 1, 1, 1, 9, 69, 2, 1, 1, 0, 0, 0] [1, 2, 3, 4, 5, 6] =
    ([6, 9, 7, 10, 5, 6], .error (.error "End of patch not found.")) := by
  decide +kernel
example : applyInPlace exampleLib 40 [16, 4, 4, 0, 2, 4, 0, 1, 1, 1, 9, 69, 2, 1, 1, 0, 0] [1, 2, 3] =
    ([1, 2, 3], .error (.error "Expected memory size of at least ...")) := by
  decide +kernel

-- The created patch of the examples, cut in the last record: the memory is left half way.
example : applyInPlace exampleLib 40 (exampleInPlacePatch.take 26) [1, 2, 3, 4, 5, 255, 254, 253, 252, 251, 250, 249, 77] =
    ([1, 2, 3, 9, 4, 5, 1, 2, 3, 4, 5, 249, 77], .error (.error "Early end of patch data.")) := by
  decide +kernel

end Detools
