import Verif.Proofs.PyBsdiff40
import Verif.Props.PyContainers
/-
C58: which BSDIFF40 patches apply_patch_bsdiff accepts.
-/
namespace Detools

/-- C58. For any control, diff and extra data compressed by bz2 and any to size: if the three
streams are used up exactly by records for that size, `apply_patch_bsdiff` writes what they say
and returns the size; otherwise it raises an exception. It always ends. -/
theorem C58_bsdiff_accepts_exactly (lib : Lib) (S : WholeStream (lib.codecOf .bz2)) (E : S.Ends) (clamp : Bool) (fr : Bytes)
    (toSize : Int) (hsize : toSize.natAbs < 2 ^ 63) (ctrl diff extra : List Bytes)
    (h1 : ((lib.codecOf .bz2).comp.run ctrl).length < 2 ^ 63) (h2 : ((lib.codecOf .bz2).comp.run diff).length < 2 ^ 63) :
    (∀ out, Bs40 clamp fr toSize 0 ctrl.flatten diff.flatten extra.flatten out → ∃ F, ∀ fuel, F ≤ fuel →
      applyBsdiff lib fuel { data := fr, pos := 0, clampSeek := clamp } (bsdiffFile (lib.codecOf .bz2) toSize ctrl diff extra) = ⟨out, .ok toSize⟩) ∧
    ((¬ ∃ out, Bs40 clamp fr toSize 0 ctrl.flatten diff.flatten extra.flatten out) → ∃ F out e, e ≠ .timeout ∧ ∀ fuel, F ≤ fuel →
      applyBsdiff lib fuel { data := fr, pos := 0, clampSeek := clamp } (bsdiffFile (lib.codecOf .bz2) toSize ctrl diff extra) = ⟨out, .error e⟩) := by
  obtain ⟨sc, c1, c2⟩ := S.start ctrl
  obtain ⟨sd, d1, d2⟩ := S.start diff
  obtain ⟨se, e1, e2⟩ := S.start extra
  unfold bsdiffFile
  rw [show magic40 = bsdiffMagic by decide +kernel]
  generalize (lib.codecOf .bz2).comp.run ctrl = A at h1 c1
  generalize (lib.codecOf .bz2).comp.run diff = B at h2 d1
  generalize (lib.codecOf .bz2).comp.run extra = D at e1
  have hh : readHeaderBsdiff (bsdiffMagic ++ off8 A.length ++ off8 B.length ++ off8 toSize ++ A ++ B ++ D) =
      .ok ((A.length : Int), (B.length : Int), toSize, A ++ B ++ D) := by
    rw [List.append_assoc _ A B, List.append_assoc _ (A ++ B) D]
    exact readHeaderBsdiff_ok _ _ _ _ (by simpa using h1) (by simpa using h2) hsize
  have r1 : readInt (A ++ B ++ D) (A.length : Int) = (A, B ++ D) := by
    unfold readInt
    rw [if_neg (by omega), Int.toNat_natCast, List.append_assoc, List.take_left, List.drop_left]
  have r2 : readInt (B ++ D) (B.length : Int) = (B, D) := by
    unfold readInt
    rw [if_neg (by omega), Int.toNat_natCast, List.take_left, List.drop_left]
  have run : ∀ fuel out r, bsdiffLoop fuel 0 toSize { ctrl := sc, diff := sd, extra := se, from_ := { data := fr, pos := 0, clampSeek := clamp } } = ⟨out, r⟩ →
      applyBsdiff lib fuel { data := fr, pos := 0, clampSeek := clamp } (bsdiffMagic ++ off8 A.length ++ off8 B.length ++ off8 toSize ++ A ++ B ++ D) =
        ⟨out, r.bind fun s => if ¬ (lib.codecOf .bz2).decomp.eof s.ctrl then .error (.error "End of control data not found.")
          else if ¬ (lib.codecOf .bz2).decomp.eof s.diff then .error (.error "End of diff data not found.")
          else if ¬ (lib.codecOf .bz2).decomp.eof s.extra then .error (.error "End of extra data not found.") else .ok toSize⟩ := by
    intro fuel out r hr
    unfold applyBsdiff
    rw [hh]
    simp only [W.lift_bind_ok, r1, r2, c1, d1, e1, hr]
    cases r with
    | error e => rfl
    | ok s =>
      rw [W.mk_bind_ok]
      simp only [Except.bind]
      by_cases k1 : (lib.codecOf .bz2).decomp.eof s.ctrl = true
      · by_cases k2 : (lib.codecOf .bz2).decomp.eof s.diff = true
        · by_cases k3 : (lib.codecOf .bz2).decomp.eof s.extra = true
          · simp [k1, k2, k3, W.pure_eq]
          · simp [k1, k2, k3, W.lift]
        · simp [k1, k2, W.lift]
      · simp [k1, W.lift]
  have key := bsdiffLoop_any E clamp fr ctrl.flatten.length ctrl.flatten diff.flatten extra.flatten
    { ctrl := sc, diff := sd, extra := se, from_ := { data := fr, pos := 0, clampSeek := clamp } } 0 toSize 0 (Nat.le_refl _) rfl c2 d2 e2
  rw [Int.sub_zero] at key
  rcases key with ⟨out, s', t1, t2, t3, t4, t5⟩ | ⟨t1, t2⟩
  · have hrun : ∀ fuel, ctrl.flatten.length + 1 ≤ fuel → applyBsdiff lib fuel { data := fr, pos := 0, clampSeek := clamp }
        (bsdiffMagic ++ off8 A.length ++ off8 B.length ++ off8 toSize ++ A ++ B ++ D) = ⟨out, .ok toSize⟩ := by
      intro fuel hf
      rw [run fuel out _ (t5 fuel (by omega))]
      simp [Except.bind, (S.eof_iff t2).2 rfl, (S.eof_iff t3).2 rfl, (S.eof_iff t4).2 rfl]
    refine ⟨fun out' h => ⟨ctrl.flatten.length + 1, fun fuel hf => ?_⟩, fun h => absurd ⟨out, t1⟩ h⟩
    rw [hrun fuel hf, h.unique t1]
  · refine ⟨fun out h => absurd h (t1 out), fun _ => ?_⟩
    rcases t2 with ⟨out, e, he, hf⟩ | ⟨out, s', c, d, e, u1, u2, u3, u4, u5⟩
    · exact ⟨ctrl.flatten.length + 1, out, e, he, fun fuel hfu => by rw [run fuel out _ (hf fuel (by omega))]; rfl⟩
    · have i1 := S.eof_iff u1
      have i2 := S.eof_iff u2
      have i3 := S.eof_iff u3
      by_cases k1 : c = []
      · by_cases k2 : d = []
        · have k3 : e ≠ [] := u4.elim (absurd k1) fun h => h.elim (absurd k2) id
          refine ⟨ctrl.flatten.length + 1, out, .error "End of extra data not found.", (by intro h; cases h), fun fuel hfu => ?_⟩
          rw [run fuel out _ (u5 fuel (by omega))]
          simp [Except.bind, i1, i2, i3, k1, k2, k3]
        · refine ⟨ctrl.flatten.length + 1, out, .error "End of diff data not found.", (by intro h; cases h), fun fuel hfu => ?_⟩
          rw [run fuel out _ (u5 fuel (by omega))]
          simp [Except.bind, i1, i2, k1, k2]
      · refine ⟨ctrl.flatten.length + 1, out, .error "End of control data not found.", (by intro h; cases h), fun fuel hfu => ?_⟩
        rw [run fuel out _ (u5 fuel (by omega))]
        simp [Except.bind, i1, k1]

/-- The codec of `bufferCodec`, raising `EOFError` like bz2 when it is asked for more than
nothing and has nothing left. -/
def endingCodec : PyCodec where
  comp := noneCompressor
  decomp := {
    σ := Bytes
    eof := fun s => s.isEmpty
    needsInput := fun s => s.isEmpty
    decompress := fun s data size =>
      if s ++ data = [] ∧ 0 < size then .error (.builtin "EOFError") else .ok ((s ++ data).drop size, (s ++ data).take size) }
  initDecomp := fun _ => []

theorem endingCodec_decompress (s : Bytes) (n : Nat) : endingCodec.decomp.decompress s [] n =
    if s = [] ∧ 0 < n then .error (.builtin "EOFError") else .ok (s.drop n, s.take n) := by
  show (if s ++ [] = [] ∧ 0 < n then _ else _) = _
  rw [List.append_nil]
  rfl

def endingWholeStream : WholeStream endingCodec where
  owes := fun s out => s = out
  start := fun chunks => ⟨chunks.flatten, by
    have : endingCodec.comp.run chunks = chunks.flatten := noneRun chunks
    rw [this]
    exact ⟨by simp [endingCodec], rfl⟩⟩
  read := by
    rintro st a b rfl h
    refine ⟨b, ?_, rfl⟩
    rw [endingCodec_decompress, if_neg, List.drop_left, List.take_left]
    intro hh
    exact absurd hh.2 (by rw [(List.append_eq_nil_iff.1 hh.1).1]; decide)
  eof_iff := by
    rintro st out rfl
    exact List.isEmpty_iff

theorem endingWholeStream_ends : endingWholeStream.Ends where
  short := by
    rintro st out n rfl h0 h
    refine ⟨[], ?_, rfl⟩
    refine (endingCodec_decompress st n).trans ?_
    rw [if_neg (fun h => h0 h.1), List.drop_eq_nil_of_le (Nat.le_of_lt h), List.take_of_length_le (Nat.le_of_lt h)]
  ended := by
    rintro st n rfl h
    exact ⟨.builtin "EOFError", (by intro h; cases h), by rw [endingCodec_decompress, if_pos ⟨rfl, h⟩]⟩

def endingLib : Lib where
  codec := fun _ => endingCodec
  suffixArray := fun fr => List.range (fr.length + 1)

-- A record of two bytes of diff data and one of extra data, ending one byte back.
example : Bs40 false [1, 2] 3 0 (off8 2 ++ off8 1 ++ off8 (-1) ++ []) [0, 1] [9] [1, 3, 9] :=
  .record (d := 2) (e := 1) (adj := -1) (dd := [0, 1]) (diff' := []) (ee := [9]) (extra' := []) (out := [])
    (by decide) ⟨by decide, by decide⟩ ⟨by decide, by decide⟩ ⟨by decide, by decide⟩
    (by decide) ⟨rfl, .inr ⟨by decide, .inl rfl⟩⟩ rfl (by decide) ⟨rfl, .inr ⟨by decide, .inl rfl⟩⟩ (.inl (by decide)) (.done (by decide))
example : applyBsdiff endingLib 10 { data := [1, 2] } (bsdiffFile endingCodec 3 [off8 2, off8 1, off8 (-1)] [[0, 1]] [[9]]) = ⟨[1, 3, 9], .ok 3⟩ ∧
    applyBsdiff endingLib 10 { data := [1, 2] } (bsdiffFile endingCodec 4 [off8 2, off8 1, off8 (-1)] [[0, 1]] [[9]]) =
      ⟨[1, 3, 9], .error (.builtin "EOFError")⟩ := by decide +kernel

/-- C58. What is not demanded: diff data that ends with the from-data is accepted, and fewer
bytes are written than the size returned. -/
theorem C58_bsdiff_short_diff_accepted :
    applyBsdiff endingLib 10 { data := [1, 2] } (bsdiffFile endingCodec 3 [off8 3, off8 0, off8 0] [[0, 1]] []) = ⟨[1, 3], .ok 3⟩ := by
  decide +kernel

/-- C58. What is not demanded: a header whose sizes are negative. All that follows is then the
control data. -/
theorem C58_bsdiff_negative_size :
    applyBsdiff endingLib 10 { data := [1, 2] } (magic40 ++ off8 (-1) ++ off8 0 ++ off8 0) = ⟨[], .ok 0⟩ ∧
    applyBsdiff endingLib 10 { data := [1, 2] } (magic40 ++ off8 (-1) ++ off8 0 ++ off8 0 ++ [7]) =
      ⟨[], .error (.error "End of control data not found.")⟩ := by
  decide +kernel

end Detools
