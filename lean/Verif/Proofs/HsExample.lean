import Verif.Proofs.PyCompression
/-
A heatshrink library that meets the contract: its encoder writes literals only.
-/
namespace Detools

/-- The symbols of bits. -/
def hsParse (w l : Nat) : Nat → List Bool → List HsSym
  | 0, _ => []
  | _ + 1, [] => []
  | n + 1, true :: bits =>
    if 8 ≤ bits.length then .literal (UInt8.ofNat (bitsVal (bits.take 8))) :: hsParse w l n (bits.drop 8) else []
  | n + 1, false :: bits =>
    if w + l ≤ bits.length then
      .backref (bitsVal (bits.take w) + 1) (bitsVal ((bits.drop w).take l) + 1) :: hsParse w l n (bits.drop (w + l))
    else []

theorem hsParse_ok (w l : Nat) : ∀ n bits, bits.length ≤ n → HsParses w l bits (hsParse w l n bits) := by
  have nil : HsParses w l [] [] := by
    refine ⟨by simp, [], rfl, ?_⟩
    rintro (b | ⟨d, c⟩) rest _ h <;> simp [HsSym.bits] at h
  have cons : ∀ {s : HsSym} {bits rest S}, s.Fits w l → bits = s.bits w l ++ rest → HsParses w l rest S → HsParses w l bits (s :: S) := by
    rintro s bits rest S hs rfl ⟨h1, t, rfl, h3⟩
    refine ⟨?_, t, by simp, h3⟩
    intro s' hs'
    rcases List.mem_cons.1 hs' with rfl | h
    · exact hs
    · exact h1 s' h
  intro n
  induction n with
  | zero =>
    intro bits hn
    rw [List.length_eq_zero_iff.1 (by omega : bits.length = 0)]
    exact nil
  | succ n ih =>
    intro bits hn
    match bits with
    | [] => exact nil
    | true :: bits =>
      simp only [hsParse]
      by_cases h : 8 ≤ bits.length
      · rw [if_pos h]
        refine cons (rest := bits.drop 8) trivial ?_ (ih _ (by simp at hn ⊢; omega))
        have h8 : (bits.take 8).length = 8 := by simp; omega
        have hv := bitsVal_lt (bits.take 8)
        rw [h8] at hv
        have hn := numBits_bitsVal (bits.take 8)
        rw [h8] at hn
        rw [HsSym.bits, UInt8.toNat_ofNat', Nat.mod_eq_of_lt hv, hn, List.cons_append, List.take_append_drop]
      · rw [if_neg h]
        refine ⟨by simp, _, rfl, ?_⟩
        rintro (b | ⟨d, c⟩) rest _ he
        · simp [HsSym.bits] at he
          rw [he] at h
          simp [numBits_length] at h
        · simp [HsSym.bits] at he
    | false :: bits =>
      simp only [hsParse]
      by_cases h : w + l ≤ bits.length
      · rw [if_pos h]
        have h1 : (bits.take w).length = w := by simp; omega
        have h2 : ((bits.drop w).take l).length = l := by simp; omega
        have v1 := bitsVal_lt (bits.take w)
        have v2 := bitsVal_lt ((bits.drop w).take l)
        have n1 := numBits_bitsVal (bits.take w)
        have n2 := numBits_bitsVal ((bits.drop w).take l)
        rw [h1] at v1 n1
        rw [h2] at v2 n2
        refine cons (rest := bits.drop (w + l)) ⟨by omega, by omega, by omega, by omega⟩ ?_ (ih _ (by simp at hn ⊢; omega))
        rw [HsSym.bits, Nat.add_sub_cancel, Nat.add_sub_cancel, n1, n2, List.cons_append, List.append_assoc, ← List.drop_drop,
          List.take_append_drop, List.take_append_drop]
      · rw [if_neg h]
        refine ⟨by simp, _, rfl, ?_⟩
        rintro (b | ⟨d, c⟩) rest _ he
        · simp [HsSym.bits] at he
        · simp [HsSym.bits] at he
          rw [he] at h
          simp [numBits_length] at h

/-- Bits as bytes; the last byte is padded with zeros. -/
def packBits : Nat → List Bool → Bytes
  | 0, _ => []
  | n + 1, bits => if bits = [] then [] else UInt8.ofNat (bitsVal ((bits ++ List.replicate 7 false).take 8)) :: packBits n (bits.drop 8)

theorem packBits_ok : ∀ n bits, bits.length ≤ n → ∃ pad, bytesBits (packBits n bits) = bits ++ pad ∧ pad.length < 8 := by
  intro n
  induction n with
  | zero =>
    intro bits hn
    rw [List.length_eq_zero_iff.1 (by omega : bits.length = 0)]
    exact ⟨[], rfl, by simp⟩
  | succ n ih =>
    intro bits hn
    rw [packBits]
    by_cases h : bits = []
    · subst h; exact ⟨[], rfl, by simp⟩
    · rw [if_neg h]
      have hp := List.length_pos_iff.2 h
      obtain ⟨pad, h1, h2⟩ := ih (bits.drop 8) (by simp; omega)
      have h8 : ((bits ++ List.replicate 7 false).take 8).length = 8 := by simp; omega
      have hv := bitsVal_lt ((bits ++ List.replicate 7 false).take 8)
      have hnb := numBits_bitsVal ((bits ++ List.replicate 7 false).take 8)
      rw [h8] at hv hnb
      have hb : bytesBits (UInt8.ofNat (bitsVal ((bits ++ List.replicate 7 false).take 8)) :: packBits n (bits.drop 8)) =
          (bits ++ List.replicate 7 false).take 8 ++ (bits.drop 8 ++ pad) := by
        rw [← h1, bytesBits, List.flatMap_cons, UInt8.toNat_ofNat', Nat.mod_eq_of_lt hv, hnb]
        rfl
      rw [hb]
      by_cases hl : 8 ≤ bits.length
      · refine ⟨pad, ?_, h2⟩
        rw [List.take_append_of_le_length hl, ← List.append_assoc, List.take_append_drop]
      · have hd : bits.drop 8 = [] := List.drop_eq_nil_of_le (by omega)
        have hpad : pad = [] := by
          have := congrArg List.length h1
          have e : packBits n (bits.drop 8) = [] := by rw [hd]; cases n <;> simp [packBits]
          rw [e, hd] at this
          simp [bytesBits] at this
          exact List.length_eq_zero_iff.1 this.symm
        refine ⟨List.replicate (8 - bits.length) false, ?_, by simp; omega⟩
        rw [hd, hpad, List.append_nil, List.append_nil, List.take_append, List.take_of_length_le (by omega), List.take_replicate]
        congr 2
        omega

/-- Literals only; the decoder returns everything at the end. -/
def plainHs : HsLib where
  writer := fun w l =>
    { σ := Bytes
      init := []
      compress := fun s d => (s ++ d, [])
      flush := fun s => packBits (9 * s.length) (s.flatMap (fun b => (HsSym.literal b).bits w l)) }
  reader :=
    { σ := Nat × Nat × Bytes
      new := fun w l => .ok (w, l, [])
      fill := fun s d => .ok ((s.1, s.2.1, s.2.2 ++ d), [])
      finish := fun s => .ok (hsExpand [] (hsParse s.1 s.2.1 (8 * s.2.2.length) (bytesBits s.2.2))) }

theorem plainHs_run (w l : Nat) (chunks : List Bytes) : (plainHs.writer w l).run chunks =
    packBits (9 * chunks.flatten.length) (chunks.flatten.flatMap (fun b => (HsSym.literal b).bits w l)) := by
  have : ∀ (chunks : List Bytes) (s : Bytes), Compressor.run.go (plainHs.writer w l) s chunks =
      packBits (9 * (s ++ chunks.flatten).length) ((s ++ chunks.flatten).flatMap (fun b => (HsSym.literal b).bits w l)) := by
    intro chunks
    induction chunks with
    | nil => intro s; simp [Compressor.run.go, plainHs]
    | cons c cs ih =>
      intro s
      rw [run_go_cons (plainHs.writer w l) (show (plainHs.writer w l).compress s c = (s ++ c, []) from rfl), ih]
      simp
  exact this chunks []

theorem hsExpand_literals (d hist : Bytes) : hsExpand hist (d.map HsSym.literal) = d := by
  induction d generalizing hist with
  | nil => rfl
  | cons b d ih => simp [hsExpand, HsSym.expand, ih]

theorem plainHs_ok : plainHs.Ok where
  writes := by
    intro w l _ chunks
    rw [plainHs_run]
    generalize chunks.flatten = d
    have hl : (d.flatMap (fun b => (HsSym.literal b).bits w l)).length = 9 * d.length := by
      induction d with
      | nil => rfl
      | cons b d ih => simp [List.flatMap_cons, HsSym.bits, numBits_length] at ih ⊢; omega
    obtain ⟨pad, h1, h2⟩ := packBits_ok (9 * d.length) _ (Nat.le_of_eq hl)
    refine ⟨d.map .literal, pad, ?_, ?_, h2, hsExpand_literals d []⟩
    · intro s hs
      obtain ⟨b, _, rfl⟩ := List.mem_map.1 hs
      trivial
    · rw [h1, List.flatMap_map]
  reads := by
    intro w l _
    refine ⟨(w, l, []), rfl, ?_⟩
    have : ∀ (pieces : List Bytes) (acc : Bytes), plainHs.reader.fillAll (w, l, acc) pieces = .ok ((w, l, acc ++ pieces.flatten), []) := by
      intro pieces
      induction pieces with
      | nil => intro acc; simp [HsReaderLib.fillAll]
      | cons p ps ih =>
        intro acc
        simp only [HsReaderLib.fillAll]
        rw [show plainHs.reader.fill (w, l, acc) p = .ok ((w, l, acc ++ p), []) from rfl]
        simp [ih]
    intro pieces
    refine ⟨_, _, _, this pieces [], rfl, ?_⟩
    intro syms h
    rw [List.nil_append, List.nil_append]
    rw [(hsParse_ok w l (8 * pieces.flatten.length) _ (by rw [bytesBits_length]; exact Nat.le_refl _)).unique h]

end Detools
