import Verif.Proofs.CInPlaceRun
import Verif.Proofs.CAccept
import Verif.Spec.DeviceFormat
import Verif.Proofs.PyCompression
/-
Created in-place patches on a device.
-/
namespace Detools

variable [Build]

/-- The update of a device. -/
@[reducible] def geoOf (memory seg shift : Nat) (fr to mem : Bytes) : Geo where
  M := memory
  S := seg
  H := shift
  F := fr.length
  D := mem.take (movedSegments memory seg shift fr.length * seg)
  frc := fr.take (memory - shift)
  to := to

omit [Build] in
theorem ceil_le {n m seg : Nat} (hseg : 0 < seg) (hm : seg ∣ m) (h : n ≤ m) : (n + seg - 1) / seg * seg ≤ m ∧ n ≤ (n + seg - 1) / seg * seg := by
  rcases Nat.eq_zero_or_pos n with h0 | h0
  · rw [h0, Nat.div_eq_of_lt (by omega)]; omega
  · obtain ⟨q, rfl⟩ := hm
    obtain ⟨_, k2, k3⟩ := segments_count n seg hseg h0
    refine ⟨?_, k3⟩
    have : (n + seg - 1) / seg - 1 < q := by
      have : ((n + seg - 1) / seg - 1) * seg < q * seg := by rw [Nat.mul_comm q]; omega
      exact Nat.lt_of_mul_lt_mul_right this
    rw [Nat.mul_comm]
    exact Nat.mul_le_mul_left _ (by omega)

section
variable {memory seg shift : Nat} {fr to mem : Bytes}

omit [Build] in
theorem geo_fit (hseg : 0 < seg) (hm : seg ∣ memory) (hs : seg ∣ shift) (hle : shift ≤ memory) :
    movedSegments memory seg shift fr.length * seg + shift ≤ memory ∧
    min fr.length (memory - shift) ≤ movedSegments memory seg shift fr.length * seg := by
  have := ceil_le (n := min fr.length (memory - shift)) hseg (Nat.dvd_sub hm hs) (Nat.min_le_right _ _)
  unfold movedSegments
  omega

omit [Build] in
theorem moved_covers (hseg : 0 < seg) : min fr.length (memory - shift) ≤ movedSegments memory seg shift fr.length * seg := by
  unfold movedSegments
  rcases Nat.eq_zero_or_pos (min fr.length (memory - shift)) with h0 | h0
  · rw [h0]; exact Nat.zero_le _
  · exact (segments_count _ seg hseg h0).2.2

omit [Build] in
theorem geo_ok (hseg : 0 < seg) (hroom : movedSegments memory seg shift fr.length * seg + shift ≤ memory) (hs2 : seg ≤ shift)
    (hfr : fr <+: mem) (hlen : mem.length = memory) (hsm : memory < 2 ^ 27) (hto : to.length ≤ memory) (hpos : 0 < to.length) :
    (geoOf memory seg shift fr to mem).Ok := by
  have hf := And.intro hroom (moved_covers (memory := memory) (shift := shift) (fr := fr) hseg)
  have hfl : fr.length ≤ memory := by have := hfr.length_le; omega
  refine ⟨hseg, hs2, hf.1, ?_, ?_, hto, hpos, hsm, ?_⟩
  · show (mem.take _).length = _
    rw [List.length_take]
    exact Nat.min_eq_left (by rw [hlen]; omega)
  · show fr.take (memory - shift) <+: mem.take _
    obtain ⟨t, rfl⟩ := hfr
    rw [List.prefix_take_iff]
    refine ⟨(List.take_prefix _ _).trans (List.prefix_append _ _), ?_⟩
    rw [List.length_take, Nat.min_comm]
    exact hf.2
  · show fr.length < _
    omega

omit [Build] in
theorem ready_start (hseg : 0 < seg) (hroom : movedSegments memory seg shift fr.length * seg + shift ≤ memory)
    (hlen : mem.length = memory) : Ready (geoOf memory seg shift fr to mem) 0 mem := by
  have hf := And.intro hroom (moved_covers (memory := memory) (shift := shift) (fr := fr) hseg)
  have hn : (geoOf memory seg shift fr to mem).nS = movedSegments memory seg shift fr.length := rfl
  refine ⟨hlen, fun _ => ?_, fun _ => ?_, fun _ => ?_, fun h => ?_⟩
  · rw [hn, Nat.sub_zero]
    show Holds mem 0 ((mem.take _).take _)
    rw [List.take_take, Nat.min_self]
    exact (Holds.zero_iff.2 (List.prefix_refl mem)).take _
  · rw [hn, Nat.sub_zero]
    show Holds mem _ ((mem.take _).drop _)
    rw [List.drop_of_length_le (by rw [List.length_take]; exact Nat.min_le_left _ _)]
    exact Holds.nil _ _
  · rw [Nat.zero_sub, Nat.zero_mul, List.take_zero]
    exact Holds.nil _ _
  · rw [hn] at h
    have h0 : movedSegments memory seg shift fr.length = 0 := by omega
    rw [h0, Nat.zero_mul] at hf
    show Holds mem _ ((fr.take (memory - shift)).drop _)
    rw [show fr.take (memory - shift) = [] by
      apply List.eq_nil_of_length_eq_zero
      rw [List.length_take]; omega]
    rw [List.drop_nil]
    exact Holds.nil _ _
end


omit [Build] in
theorem shiftOf_facts {memory seg k n : Nat} (hseg : 0 < seg) (hm : seg ∣ memory) (hk : seg ∣ k) (hpos : 0 < k) (hle : k ≤ memory) :
    seg ∣ shiftOf memory seg k n ∧ seg ≤ shiftOf memory seg k n ∧ shiftOf memory seg k n ≤ memory := by
  have h1 := ceil_le (n := memory) hseg hm (Nat.le_refl _)
  have hsk := Nat.le_of_dvd hpos hk
  unfold shiftOf
  refine ⟨?_, by omega, by omega⟩
  rcases Nat.le_total k ((memory + seg - 1) / seg * seg - (n + seg - 1) / seg * seg) with h | h
  · rw [Nat.max_eq_right h]
    exact Nat.dvd_sub (Nat.dvd_mul_left _ _) (Nat.dvd_mul_left _ _)
  · rw [Nat.max_eq_left h]
    exact hk

omit [Build] in
theorem encodeSegments_ne_nil {opss : List (List Op)} (h : opss ≠ []) : encodeSegments opss ≠ [] := by
  cases opss with
  | nil => exact absurd rfl h
  | cons o os =>
    rw [encodeSegments_cons]
    simp [packSize_ne_nil]

omit [Build] in
theorem opss_nil {seg : Nat} {to : Bytes} {opss : List (List Op)} (hseg : 0 < seg) (g2 : opss.length = toSegments seg to.length)
    (h0 : to.length = 0) : opss = [] := by
  apply List.eq_nil_of_length_eq_zero
  rw [g2, h0]
  exact Nat.div_eq_of_lt (by omega)

omit [Build] in
theorem opss_ne {seg : Nat} {to : Bytes} {opss : List (List Op)} (hseg : 0 < seg) (g2 : opss.length = toSegments seg to.length)
    (h0 : to.length ≠ 0) : opss ≠ [] := by
  intro hn
  have := (segments_count to.length seg hseg (by omega)).1
  rw [hn] at g2
  unfold toSegments at g2
  rw [← g2] at this
  exact absurd this (Nat.lt_irrefl 0)

/-- Created patches have the format. -/
theorem device_format {lib : Lib} (hsa : SuffixArrayInRange lib.suffixArray) {c : Compression} {memory seg : Nat} {minShift : Option Nat}
    {fr to patch : Bytes} (h : DevicePatch lib c memory seg minShift fr to patch)
    (hd1 : seg ∣ memory) (hd2 : seg ∣ minShift.getD (2 * seg)) (hfl : fr.length ≤ memory) :
    DeviceFormat c memory seg (shiftOf memory seg (minShift.getD (2 * seg)) fr.length) fr to patch := by
  have hsm := h.small
  have htl := h.fits
  have hrm := h.room
  have hsl : seg ≤ memory := by have := Nat.le_of_dvd h.shift hd2; omega
  obtain ⟨hs1, hs2, hs3⟩ := shiftOf_facts (n := fr.length) h.segPos hd1 hd2 h.shift h.room
  obtain ⟨opss, g1, g2, g3, g4⟩ := createInPlace_all lib hsa memory seg minShift fr to h.segPos hd1 hd2 (by omega) (by omega) (by omega) (by omega)
  obtain ⟨shift, hshift⟩ : ∃ s, s = shiftOf memory seg (minShift.getD (2 * seg)) fr.length := ⟨_, rfl⟩
  rw [← hshift] at hs1 hs2 hs3 g1 g3
  rw [← hshift]
  have hcr := h.created
  rw [g1 c] at hcr
  have hpatch := (Except.ok.inj hcr).symm
  obtain ⟨body, hbody⟩ : ∃ b, b = (if to.length = 0 then [] else (lib.codecOf c).comp.run [encodeSegments opss]) := ⟨_, rfl⟩
  rw [← hbody] at hpatch
  have hplain := h.plain _ (g1 .none)
  have hne : to.length ≠ 0 → opss ≠ [] := opss_ne h.segPos g2
  have hnil : to.length = 0 → opss = [] := opss_nil h.segPos g2
  refine ⟨⟨body, opss, hpatch, ?_, ?_, g2, ?_⟩, h.segPos, hs2, (geo_fit h.segPos hd1 hs1 hs3).1, htl, hsm, h.size⟩
  · by_cases h0 : to.length = 0
    · rw [if_pos h0] at hbody
      rw [hbody, hnil h0]
      refine .nothing ?_
      rcases h.comp with rfl | rfl | ⟨rfl, _⟩ | ⟨rfl, L, hL, _⟩
      · exact .inl rfl
      · exact .inr (.inl rfl)
      · exact .inr (.inr (.inl rfl))
      · exact .inr (.inr (.inr ⟨rfl, by rw [hL]; exact fun h => by cases h⟩))
    · rw [if_neg h0] at hbody
      rcases h.comp with rfl | rfl | ⟨rfl, L, hL, hlib⟩ | ⟨rfl, L, hL, hlib⟩
      · have hb : body = encodeSegments opss := by
          rw [hbody]
          exact (noneRun _).trans (by simp)
        subst hb
        exact .none
      · subst hbody
        have hp := encodeSegments_ne_nil (hne h0)
        rw [if_neg h0, show (lib.codecOf .none).comp.run [encodeSegments opss] = [encodeSegments opss].flatten from noneRun _] at hplain
        have hlt : (encodeSegments opss).length < 2 ^ 28 := by
          simp only [List.length_append, List.flatten_cons, List.flatten_nil, List.append_nil] at hplain
          omega
        refine .crle (body := Compressor.run.go crleCompressor {} [encodeSegments opss]) ?_ ?_
        · have hdec := crle_go_dec [encodeSegments opss] {} (.inr (by simpa using hp))
          rw [show ({} : CrleC).data = [] from rfl, List.nil_append, List.flatten_cons, List.flatten_nil, List.append_nil] at hdec
          exact hdec
        · refine crle_go_small [encodeSegments opss] {} ?_
          rw [show ({} : CrleC).data = [] from rfl, List.nil_append, List.flatten_cons, List.flatten_nil, List.append_nil]
          exact hlt
      · rw [show lib.codecOf .heatshrink = heatshrinkCodec L 8 7 from hlib, heatshrink_run] at hbody
        subst hbody
        have hw := hL.writes 8 7 ⟨by decide, by decide, by decide, by decide⟩ [encodeSegments opss]
        rw [List.flatten_cons, List.flatten_nil, List.append_nil] at hw
        exact .heatshrink hw (encodeSegments_ne_nil (hne h0))
      · have hk := hlib [encodeSegments opss]
        rw [List.flatten_cons, List.flatten_nil, List.append_nil] at hk
        rw [hbody]
        exact .lzma hL hk
  · rw [← sliceTo_nat, show ((memory - shift : Nat) : Int) = (memory : Int) - shift by omega]
    exact g3
  · intro ops ho op hop
    have := (g4 ops ho op hop).2.2
    omega

/-- The C library can read the body of a patch with the format. -/
theorem body_reads {c : Compression} {body plain : Bytes} (h : DeviceBody c body plain) {M S H F T total : Nat} (hl : body.length < 2 ^ 62) :
    BodyReads ⟨M, S, H, F, T, c.toNumber, body, total⟩ plain := by
  refine ⟨?_⟩
  cases h with
  | none => exact ⟨_, init_zero _, ⟨Nat.zero_le _, Nat.lt_of_lt_of_le hl (by decide)⟩, rfl, decodes_raw _⟩
  | crle h1 h2 => exact ⟨_, init_two _, trivial, rfl, decodes_crle h1 h2⟩
  | heatshrink h1 h2 => exact ⟨.heatshrink none, rfl, trivial, rfl, decodes_hs h1 h2⟩
  | @lzma L _ _ hL hk =>
    have hin : CReader.init body.length 1 = some (.lzma { dec := L.start }) := by
      simp [CReader.init, hL]
    refine ⟨.lzma { dec := L.start }, hin, trivial, by simp [CReader.backlog, hL, L.held_start], L, hL, ?_⟩
    obtain ⟨owes, k1, k2⟩ := hk
    exact .inr ⟨owes, plain, k1, k2, rfl, fun _ => rfl⟩
  | nothing hc =>
    rcases hc with rfl | rfl | rfl | ⟨rfl, hL⟩
    · exact ⟨_, init_zero _, ⟨Nat.zero_le _, by show ([] : Bytes).length < _; decide⟩, rfl, decodes_raw _⟩
    · exact ⟨_, init_two _, trivial, rfl, .done rfl rfl⟩
    · exact ⟨.heatshrink none, rfl, trivial, rfl, .done rfl rfl⟩
    · obtain ⟨L, hL⟩ : ∃ L, Build.lzma = some L := by
        cases e : Build.lzma with
        | none => exact absurd e hL
        | some L => exact ⟨L, rfl⟩
      have hin : CReader.init ([] : Bytes).length 1 = some (.lzma { dec := L.start }) := by
        simp [CReader.init, hL]
      exact ⟨.lzma { dec := L.start }, hin, trivial, by simp [CReader.backlog, hL, L.held_start], L, hL, .inl ⟨rfl, rfl, rfl⟩⟩

/-- A patch with the format, for any memory of the device that holds the from-data. -/
theorem format_patch {c : Compression} {memory seg shift : Nat} {fr to patch mem : Bytes} (h : DeviceFormat c memory seg shift fr to patch)
    (hfr : fr <+: mem) (hlen : mem.length = memory) :
    ∃ body opss,
      IPPatch (geoOf memory seg shift fr to mem) ((geoOf memory seg shift fr to mem).hv c.toNumber body patch.length) opss ∧
      readHeaderInPlace patch = .ok (⟨c, memory, seg, shift, fr.length, to.length⟩, body) ∧
      body.length ≤ patch.length ∧
      ∃ b : UInt8, patch = b :: ((geoOf memory seg shift fr to mem).hv c.toNumber body patch.length).tail .fixedHeader ∧
        b.toNat &&& 0xf = c.toNumber ∧ (b.toNat >>> 4) &&& 0x7 = 1 := by
  have hsm := h.small
  have hfl := hfr.length_le
  have htl := h.fits
  have hroom := h.room
  have hle := h.segLe
  obtain ⟨body, opss, hpatch, hbody, g3, g2, g4⟩ := h.format
  have hbl : body.length ≤ patch.length := by rw [hpatch]; simp only [List.length_append]; omega
  refine ⟨body, opss, ?_, ?_, hbl, ?_⟩
  · refine ⟨⟨hsm, ?_, ?_, ?_, ?_, ?_⟩, rfl, rfl, rfl, rfl, rfl, ?_, ?_, opss_nil h.segPos g2, ?_⟩
    · show seg < _; omega
    · show shift < _; omega
    · show fr.length < _; omega
    · show to.length < _; omega
    · show patch.length < _
      have := h.size
      omega
    · intro hpos
      exact geo_ok h.segPos h.room h.segLe hfr hlen hsm htl hpos
    · intro hpos
      refine ⟨g3, ?_, g4⟩
      rw [Nat.zero_add, g2]; rfl
    · exact body_reads hbody (by have := h.size; omega)
  · rw [hpatch]
    exact readHeaderInPlace_ok _ _ _ _ _ _ _
  · obtain ⟨b, h1, h2, _⟩ := unpackHeader_packHeader PATCH_TYPE_IN_PLACE c.toNumber (by decide) c.toNumber_lt
    refine ⟨b, ?_, (Prod.mk.inj h2).2, (Prod.mk.inj h2).1⟩
    conv => lhs; rw [hpatch, h1]
    simp [HV.tail, Geo.hv, List.append_assoc]

/-- A patch created for a device, for any memory of the device that holds the from-data. -/
theorem device_patch {lib : Lib} (hsa : SuffixArrayInRange lib.suffixArray) {c : Compression} {memory seg : Nat} {minShift : Option Nat}
    {fr to patch mem : Bytes} (h : DevicePatch lib c memory seg minShift fr to patch)
    (hd1 : seg ∣ memory) (hd2 : seg ∣ minShift.getD (2 * seg)) (hfr : fr <+: mem) (hlen : mem.length = memory) :
    ∃ shift body opss, shift = shiftOf memory seg (minShift.getD (2 * seg)) fr.length ∧
      seg ∣ shift ∧ seg ≤ shift ∧ shift ≤ memory ∧
      IPPatch (geoOf memory seg shift fr to mem) ((geoOf memory seg shift fr to mem).hv c.toNumber body patch.length) opss ∧
      readHeaderInPlace patch = .ok (⟨c, memory, seg, shift, fr.length, to.length⟩, body) ∧
      body.length ≤ patch.length ∧
      ∃ b : UInt8, patch = b :: ((geoOf memory seg shift fr to mem).hv c.toNumber body patch.length).tail .fixedHeader ∧
        b.toNat &&& 0xf = c.toNumber ∧ (b.toNat >>> 4) &&& 0x7 = 1 := by
  have hfl := hfr.length_le
  obtain ⟨hs1, hs2, hs3⟩ := shiftOf_facts (n := fr.length) h.segPos hd1 hd2 h.shift h.room
  obtain ⟨body, opss, hh⟩ := format_patch (device_format hsa h hd1 hd2 (by omega)) hfr hlen
  exact ⟨_, body, opss, rfl, hs1, hs2, hs3, hh⟩

variable {G : Geo} {P : Power} {steps : Bool} {k0 : Nat} {V : HV}

/-- The device between attempts. -/
def Between (G : Geo) (f : Flash) : Prop :=
  f.mem.length = G.M ∧ (0 < G.to.length → ∃ k, k < G.n ∧ Ready G k f.mem ∧ f.step = (k : Nat))

omit [Build] in
theorem stepList_zero (k n : Nat) : (0 : Int) ∈ stepList k n := by simp [stepList]

theorem Bd.running {s : InPlace} {w : MWorld Flash} {x : Bytes} (h : Bd G P steps k0 s w x) :
    (∃ o, Live G P steps k0 o w) ∨ Finished G steps k0 w := by
  cases h with
  | top r E a i ops opss h1 h2 h3 h4 h5 h6 h7 h8 h9 h10 h11 => exact .inl ⟨_, h11⟩
  | seg r E i t pos opss h1 h2 h3 h4 => exact .inl ⟨_, h4.live⟩
  | done r h1 h2 h3 h4 h5 h6 => exact .inr h6

theorem IPRest.running {s : InPlace} {w : MWorld Flash} {x : Bytes} (h : IPRest G P steps k0 V s w x) :
    (∃ o, Live G P steps k0 o w) ∨ Finished G steps k0 w := by
  cases h with
  | bd h => exact h.running
  | hd _ _ h =>
    unfold IPStart at h
    split at h
    · exact .inr h
    · exact .inl ⟨_, h⟩

omit [Build] in
theorem between_live {o : Nat} {w : MWorld Flash} (h : Live G P true k0 o w) : Between G w.arg :=
  ⟨h.mem.len, fun _ => ⟨_, h.lt, h.mem, h.step rfl⟩⟩

omit [Build] in
theorem between_finished {w : MWorld Flash} (h : Finished G true k0 w) (hc : ¬ completed w) : Between G w.arg := by
  refine ⟨h.len, fun hpos => absurd ?_ hc⟩
  refine ⟨?_, h.step rfl hpos⟩
  have := h.trace.sets
  rw [if_pos ⟨rfl, hpos⟩] at this
  rw [this]
  exact stepList_zero _ _

omit [Build] in
theorem between_dead {w : MWorld Flash} (h : Dead G P true k0 w) (hc : ¬ completed w) : Between G w.arg := by
  rcases h.state rfl with ⟨k, h1, h2, h3, h4⟩ | ⟨h1, h2, h3, h4⟩
  · exact ⟨h3.len, fun _ => ⟨k, h1, h3, h4⟩⟩
  · exact absurd ⟨by rw [h4]; exact stepList_zero _ _, h3⟩ hc

omit [Build] in
theorem Between.start {f : Flash} (h : Between G f) (P : Power) :
    ∃ k0, (0 < G.to.length → f.step = (k0 : Nat) ∧ k0 < G.n) ∧ IPStart G P true k0 (powerOn f) := by
  unfold IPStart
  by_cases h0 : G.to.length = 0
  · refine ⟨0, fun h => by omega, ?_⟩
    rw [if_pos h0]
    refine ⟨h.1, ?_, fun _ h => by omega, ⟨(fun ev he => by cases he), ?_⟩⟩
    · rw [List.eq_nil_of_length_eq_zero h0]; exact List.nil_prefix
    · rw [if_neg (by omega)]; rfl
  · obtain ⟨k, h1, h2, h3⟩ := h.2 (by omega)
    refine ⟨k, fun _ => ⟨h3, h1⟩, ?_⟩
    rw [if_neg h0]
    have hmax : max k 0 = k := Nat.max_zero _
    refine ⟨?_, ?_, fun _ => ?_, ⟨(fun ev he => by cases he), ?_⟩, (fun h => by cases h), ?_⟩
    · unfold Power.lost powerOn
      cases P.limit <;> simp
    · rw [hmax]; exact h2
    · rw [hmax]; exact h3
    · rw [if_pos rfl, Nat.zero_sub, List.take_zero]; rfl
    · rw [hmax]; exact h1

omit [Build] in
/-- The start of an update without step callbacks. -/
theorem Between.startNoSteps {f : Flash} (h0 : f.mem.length = G.M) (h : 0 < G.to.length → Ready G 0 f.mem ∧ 0 < G.n) (P : Power) :
    IPStart G P false 0 (powerOn f) := by
  unfold IPStart
  by_cases h1 : G.to.length = 0
  · rw [if_pos h1]
    refine ⟨h0, ?_, (fun h => by cases h), ⟨(fun ev he => by cases he), ?_⟩⟩
    · rw [List.eq_nil_of_length_eq_zero h1]; exact List.nil_prefix
    · rw [if_neg (by omega)]; rfl
  · rw [if_neg h1]
    obtain ⟨h2, h3⟩ := h (by omega)
    refine ⟨?_, h2, (fun h => by cases h), ⟨(fun ev he => by cases he), ?_⟩, fun _ => rfl, h3⟩
    · unfold Power.lost powerOn
      cases P.limit <;> simp
    · rw [if_neg (by decide)]; rfl

omit [Build] in
theorem find_first {pieces pre post : List Bytes} {q : Bytes} (h : pieces = pre ++ q :: post) (h1 : ∀ p ∈ pre, p = []) (h2 : q ≠ []) :
    pieces.find? (· ≠ []) = some q := by
  subst h
  rw [List.find?_append, List.find?_eq_none.2 (fun p hp => by simp [h1 p hp])]
  simp [h2]

omit [Build] in
theorem firstHas {c : Compression} {M S H F T : Int} {patch body later : Bytes} {pieces : List Bytes}
    (hr : readHeaderInPlace patch = .ok (⟨c, M, S, H, F, T⟩, body)) (hl : body.length ≤ patch.length)
    (hp : pieces.flatten ++ later = patch) (hw : WholeHeader patch pieces) (hc : V.comp = c.toNumber)
    (hb : V.body = body) (ht : V.total = patch.length) : FirstHas V pieces later := by
  intro h0 pre q post e1 e2 e3
  have hcn : c = .none := by
    rw [hc] at h0
    cases c <;> first | rfl | exact absurd h0 (by decide)
  have h := hw _ _ hr hcn q (find_first e1 e2 e3)
  have hfl : pre.flatten = [] := by
    rw [List.flatten_eq_nil_iff]; exact e2
  rw [e1] at hp
  simp only [List.flatten_append, List.flatten_cons, hfl, List.nil_append] at hp
  have := congrArg List.length hp
  simp only [List.length_append] at this ⊢
  rw [hb, ht]
  omega

end Detools
