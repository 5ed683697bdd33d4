import Verif.Proofs.PySupply
/-
Python application of any patch: it accepts exactly what the format describes.
-/
namespace Detools

theorem PyFile.read_short (f : PyFile) (n : Nat) (h : ¬ f.pos + n ≤ f.data.length) (hn : 0 < n) : (f.read n).1.length < n := by
  simp [PyFile.read]; omega

/-- A loop gives a result other than the timeout of the model, given enough fuel. -/
def FailsW (x : Nat → W α) : Prop := ∃ F o e, e ≠ PyErr.timeout ∧ ∀ fuel, F ≤ fuel → x fuel = ⟨o, .error e⟩


theorem chunkLoop_supply {D : Decompressor} (L : Supply D) (diff : Bool) (n : Nat) :
    ∀ (s : Streams D) (q : Bytes), s.dfdiff = none → L.has s.reader.st s.reader.file q →
    ((n ≤ q.length ∧ (diff = true → n = 0 ∨ s.from_.pos + n ≤ s.from_.data.length)) ∧
      ∃ F s', (∀ fuel, F ≤ fuel → chunkLoop diff fuel n s =
          ⟨if diff then addMod (q.take n) (s.from_.data.drop s.from_.pos) else q.take n, .ok s'⟩) ∧
        L.has s'.reader.st s'.reader.file (q.drop n) ∧
        s'.from_ = { s.from_ with pos := s.from_.pos + if diff then n else 0 } ∧ s'.dfdiff = none) ∨
    (¬ (n ≤ q.length ∧ (diff = true → n = 0 ∨ s.from_.pos + n ≤ s.from_.data.length)) ∧
      FailsW fun fuel => chunkLoop diff fuel n s) := by
  induction n using Nat.strongRecOn with
  | _ n ih =>
  intro s q hdf hO
  by_cases h0 : n = 0
  · subst h0
    left
    refine ⟨⟨by omega, fun _ => .inl rfl⟩, 0, s, ?_, by simpa using hO, by simp, hdf⟩
    intro fuel _
    have hpure : (W.pure s : W (Streams D)) = ⟨[], .ok s⟩ := rfl
    cases fuel <;> simp [chunkLoop, hpure]
  · obtain ⟨c, hc⟩ : ∃ c, c = min n 4096 := ⟨_, rfl⟩
    have hc1 : 0 < c := by omega
    have hc2 : c ≤ n := by omega
    rcases PatchReader.read_supply L s.reader q c hO with ⟨hq, F1, r1, hr1, hO1⟩ | ⟨hq, F, e, he, hF⟩
    · have hlc : (q.take c).length = c := by simp; omega
      -- the data of the chunk and the state after it
      have key : (∃ data from1, (if diff = true then
            (W.lift ((addBytes (q.take c) (s.from_.read c).1).map (·, (s.from_.read c).2)) : W (Bytes × PyFile))
          else W.pure (q.take c, s.from_)) = W.lift (.ok (data, from1)) ∧
          (diff = true → s.from_.pos + c ≤ s.from_.data.length) ∧
          data = (if diff then addMod (q.take c) (s.from_.data.drop s.from_.pos) else q.take c) ∧
          from1 = { s.from_ with pos := s.from_.pos + if diff then c else 0 }) ∨
          (∃ e, e ≠ .timeout ∧ (if diff = true then
            (W.lift ((addBytes (q.take c) (s.from_.read c).1).map (·, (s.from_.read c).2)) : W (Bytes × PyFile))
          else W.pure (q.take c, s.from_)) = W.lift (.error e) ∧ diff = true ∧ ¬ s.from_.pos + c ≤ s.from_.data.length) := by
        cases diff with
        | false => exact .inl ⟨_, _, rfl, by simp, by simp, by simp⟩
        | true =>
          by_cases hp : s.from_.pos + c ≤ s.from_.data.length
          · obtain ⟨e1, e2, e3⟩ := PyFile.read_len s.from_ c hp
            left
            refine ⟨addMod (q.take c) (s.from_.read c).1, (s.from_.read c).2, ?_, fun _ => hp, ?_, ?_⟩
            · simp only [if_true, addBytes, e2, hlc]
              simp [Except.map]
            · simp only [if_true, e1]
              exact zipWith_take_right _ _ _ (by omega)
            · simp [e3]
          · right
            have := PyFile.read_short s.from_ c hp hc1
            refine ⟨.builtin "ValueError: Lengths must be equal.", (by intro h; cases h), ?_, rfl, hp⟩
            simp only [if_true, addBytes, hlc]
            rw [if_pos (by omega)]
            rfl
      have unf : ∀ k, chunkLoop diff (k + 1) n s = (do
          let (patchData, reader) ← W.lift (s.reader.read k c)
          let (data, from_) ←
            if diff then
              let (fromData, from_) := s.from_.read c
              W.lift ((addBytes patchData fromData).map (·, from_))
            else W.pure (patchData, s.from_)
          let (data, dfdiff) ← W.lift (applyDfdiff s.dfdiff data c)
          W.write data
          chunkLoop diff k (n - c) { reader := reader, from_ := from_, dfdiff := dfdiff }) := by
        intro k
        rw [chunkLoop, if_neg h0, ← hc]
      rcases key with ⟨data, from1, hdat, hpos, hdeq, hfr1⟩ | ⟨e, he, hdat, hd, hpos⟩
      · have run : ∀ k, F1 ≤ k → chunkLoop diff (k + 1) n s =
            ⟨data ++ (chunkLoop diff k (n - c) { reader := r1, from_ := from1, dfdiff := none }).out,
             (chunkLoop diff k (n - c) { reader := r1, from_ := from1, dfdiff := none }).res⟩ := by
          intro k hk
          rw [unf, hr1 k hk]
          simp only [W.lift_bind_ok]
          have hdat' := hdat
          cases diff with
          | false =>
            simp only [Bool.false_eq_true, if_false] at hdat' ⊢
            rw [hdat']
            simp only [W.lift_bind_ok, applyDfdiff, hdf, W.write_bind]
          | true =>
            simp only [if_true] at hdat' ⊢
            rw [hdat']
            simp only [W.lift_bind_ok, applyDfdiff, hdf, W.write_bind]
        rcases ih (n - c) (by omega) { reader := r1, from_ := from1, dfdiff := none } (q.drop c) rfl hO1 with
          ⟨⟨g1, g2⟩, F2, s2, hs2, hO2, hfrom2, hdf2⟩ | ⟨hno, F2, o, e, he, hF2⟩
        · left
          simp only [List.length_drop] at g1
          refine ⟨⟨by omega, fun hd => ?_⟩, max F1 F2 + 1, s2, ?_, ?_, ?_, hdf2⟩
          · have := hpos hd
            have h2 := g2 hd
            rw [hfr1, if_pos hd] at h2
            simp only at h2
            omega
          · intro fuel hf
            obtain ⟨k, rfl⟩ : ∃ k, fuel = k + 1 := ⟨fuel - 1, by omega⟩
            rw [run k (by omega), hs2 k (by omega)]
            congr 1
            rw [hdeq, hfr1]
            have hsp : q.take n = q.take c ++ (q.drop c).take (n - c) := by
              rw [← List.take_append_drop c (q.take n), List.take_take, Nat.min_eq_left hc2, List.drop_take]
            cases diff with
            | false => simp only [Bool.false_eq_true, if_false]; rw [hsp]
            | true =>
              simp only [if_true]
              rw [hsp, addMod, addMod, addMod, zipWith_append_left _ _ _ (by have := hpos rfl; simp; omega), hlc, List.drop_drop]
          · rw [List.drop_drop, Nat.add_sub_cancel' hc2] at hO2
            exact hO2
          · rw [hfrom2, hfr1]
            cases diff <;> simp; omega
        · right
          refine ⟨fun ⟨g1, g2⟩ => hno ⟨by simp only [List.length_drop]; omega, fun hd => ?_⟩, max F1 F2 + 1, data ++ o, e, he, ?_⟩
          · have := hpos hd
            have h2 := g2 hd
            rw [hfr1, if_pos hd]
            simp only
            omega
          · intro fuel hf
            obtain ⟨k, rfl⟩ : ∃ k, fuel = k + 1 := ⟨fuel - 1, by omega⟩
            show chunkLoop diff (k + 1) n s = _
            have := hF2 k (by omega)
            simp only at this
            rw [run k (by omega), this]
      · right
        refine ⟨fun ⟨g1, g2⟩ => by have := g2 hd; omega, F1 + 1, [], e, he, ?_⟩
        intro fuel hf
        obtain ⟨k, rfl⟩ : ∃ k, fuel = k + 1 := ⟨fuel - 1, by omega⟩
        show chunkLoop diff (k + 1) n s = _
        rw [unf, hr1 k (by omega)]
        simp only [W.lift_bind_ok]
        subst hd
        simp only [if_true] at hdat ⊢
        rw [hdat, W.lift_bind_error]
    · right
      refine ⟨fun ⟨g1, _⟩ => by omega, F + 1, [], e, he, ?_⟩
      intro fuel hf
      obtain ⟨k, rfl⟩ : ∃ k, fuel = k + 1 := ⟨fuel - 1, by omega⟩
      show chunkLoop diff (k + 1) n s = _
      rw [chunkLoop, if_neg h0, ← hc]
      simp only [hF k (by omega), W.lift_bind_error]

theorem FailsW.bind_left {x : Nat → W α} {f : Nat → α → W β} (h : FailsW x) : FailsW fun fuel => x fuel >>= f fuel := by
  obtain ⟨F, o, e, he, hF⟩ := h
  exact ⟨F, o, e, he, fun fuel hf => by simp only [hF fuel hf, W.mk_bind_error]⟩

theorem FailsW.bind_right {x : Nat → W α} {f : Nat → α → W β} {o a} (hx : ∃ F, ∀ fuel, F ≤ fuel → x fuel = ⟨o, .ok a⟩)
    (h : FailsW fun fuel => f fuel a) : FailsW fun fuel => x fuel >>= f fuel := by
  obtain ⟨F1, hx⟩ := hx
  obtain ⟨F, o', e, he, hF⟩ := h
  refine ⟨max F1 F, o ++ o', e, he, fun fuel hf => ?_⟩
  have := hF fuel (by omega)
  simp only at this
  simp only [hx fuel (by omega), W.mk_bind_ok, this]

theorem FailsW.succ {x : Nat → W α} (h : FailsW fun k => x (k + 1)) : FailsW x := by
  obtain ⟨F, o, e, he, hF⟩ := h
  refine ⟨F + 1, o, e, he, fun fuel hf => ?_⟩
  obtain ⟨k, rfl⟩ : ∃ k, fuel = k + 1 := ⟨fuel - 1, by omega⟩
  exact hF k (by omega)

theorem FailsW.of_lift {x : Nat → Except PyErr α} (h : ∃ F e, e ≠ PyErr.timeout ∧ ∀ fuel, F ≤ fuel → x fuel = .error e) :
    FailsW fun fuel => W.lift (x fuel) := by
  obtain ⟨F, e, he, hF⟩ := h
  exact ⟨F, [], e, he, fun fuel hf => by simp only [hF fuel hf, W.lift]⟩

theorem FailsW.const {e : PyErr} (he : e ≠ .timeout) : FailsW fun _ => (W.lift (.error e) : W α) :=
  ⟨0, [], e, he, fun _ _ => rfl⟩

/-- What a size and the data it announces must look like. -/
structure SizeData (L : List UInt8) (room : Int) (size : Int) (len : Nat) (data rest : Bytes) : Prop where
  unpack : unpackSizeWithLength L = .ok (size, len, data ++ rest)
  fits : size ≤ room
  length : data.length = size.toNat

theorem SizeData.unique {q room s l d r s' l' d' r'} (h : SizeData q room s l d r) (h' : SizeData q room s' l' d' r') :
    s = s' ∧ l = l' ∧ d = d' ∧ r = r' := by
  have := h.unpack.symm.trans h'.unpack
  simp only [Except.ok.injEq, Prod.mk.injEq] at this
  obtain ⟨rfl, rfl, h3⟩ := this
  have h4 := List.append_inj h3 (by rw [h.length, h'.length])
  exact ⟨rfl, rfl, h4.1, h4.2⟩

theorem processChunks_supply {D : Decompressor} (L : Supply D) (diff : Bool) (toPos toSize : Int)
    (s : Streams D) (q : Bytes) (hdf : s.dfdiff = none) (hO : L.has s.reader.st s.reader.file q) :
    (∃ size len data rest, SizeData q (toSize - toPos) size len data rest ∧
      (diff = true → data = [] ∨ s.from_.pos + data.length ≤ s.from_.data.length) ∧
      ∃ F s', (∀ fuel, F ≤ fuel → processChunks fuel diff toPos toSize s =
          ⟨if diff then addMod data (s.from_.data.drop s.from_.pos) else data, .ok (toPos + data.length, s')⟩) ∧
        L.has s'.reader.st s'.reader.file rest ∧
        s'.from_ = { s.from_ with pos := s.from_.pos + if diff then data.length else 0 } ∧ s'.dfdiff = none) ∨
    ((∀ size len data rest, SizeData q (toSize - toPos) size len data rest →
        ¬ (diff = true → data = [] ∨ s.from_.pos + data.length ≤ s.from_.data.length)) ∧
      FailsW fun fuel => processChunks fuel diff toPos toSize s) := by
  have hu := PatchReader.unpackSize_supply L s.reader q hO
  cases hq : unpackSizeWithLength q with
  | error e0 =>
    rw [hq] at hu
    right
    refine ⟨fun size len data rest h => (by have := h.unpack; rw [hq] at this; cases this), ?_⟩
    exact (FailsW.of_lift hu).bind_left
  | ok p =>
    obtain ⟨size, len, t⟩ := p
    rw [hq] at hu
    obtain ⟨F1, r1, h1, hO1⟩ := hu
    have hx : ∃ F, ∀ fuel, F ≤ fuel → W.lift (s.reader.unpackSize fuel) = ⟨[], .ok (size, r1)⟩ :=
      ⟨F1, fun fuel hf => by rw [h1 fuel hf]; rfl⟩
    by_cases hbig : toPos + size > toSize
    · right
      refine ⟨fun size' len data rest h => ?_, ?_⟩
      · have := h.unpack
        rw [hq] at this
        cases this
        have := h.fits
        omega
      · refine FailsW.bind_right hx ?_
        simp only [if_pos hbig]
        exact FailsW.const (by intro h; cases h)
    · rcases chunkLoop_supply L diff size.toNat { s with reader := r1 } t hdf hO1 with
        ⟨⟨g1, g2⟩, F2, s2, hs2, hO2, hfrom2, hdf2⟩ | ⟨hno, hF⟩
      · left
        have hl : (t.take size.toNat).length = size.toNat := by simp; omega
        refine ⟨size, len, t.take size.toNat, t.drop size.toNat,
          ⟨by rw [hq, List.take_append_drop], by omega, hl⟩, fun hd => ?_, max F1 F2, s2, ?_, hO2, ?_, hdf2⟩
        · rcases g2 hd with h | h
          · left; simp [h]
          · right; rw [hl]; exact h
        · intro fuel hf
          simp only [processChunks, h1 fuel (by omega), W.lift_bind_ok]
          rw [if_neg hbig, hs2 fuel (by omega)]
          simp only [W.mk_bind_ok, W.pure_eq, List.append_nil, hl]
        · rw [hl]; exact hfrom2
      · right
        refine ⟨fun size' len' data rest h hc => hno ?_, ?_⟩
        · have h3 := h.unpack
          have h4 := h.length
          rw [hq] at h3
          cases h3
          refine ⟨by simp; omega, fun hd => ?_⟩
          rcases hc hd with h5 | h5
          · left; rw [← h4, h5]; rfl
          · right; rw [← h4]; exact h5
        · refine FailsW.bind_right hx ?_
          simp only [if_neg hbig]
          exact hF.bind_left

theorem unpackSizeWithLength_shorter {q : Bytes} {v : Int} {k : Nat} {t : Bytes} (h : unpackSizeWithLength q = .ok (v, k, t)) :
    t.length < q.length := by
  have key : ∀ (q : Bytes) (v o v' o' : Nat) (t : Bytes), unpackLoop v o q = .ok (v', o', t) → t.length < q.length := by
    intro q
    induction q with
    | nil => intro v o v' o' t h; simp [unpackLoop] at h
    | cons b q ih =>
      intro v o v' o' t h
      simp only [unpackLoop] at h
      split at h
      · have := ih _ _ _ _ _ h; simp; omega
      · simp at h; rw [← h.2.2]; simp
  cases q with
  | nil => simp [unpackSizeWithLength] at h
  | cons b q =>
    simp only [unpackSizeWithLength, bind, Except.bind, pure, Except.pure] at h
    by_cases hb : b &&& 0x80 ≠ 0
    · rw [if_pos hb] at h
      cases hl : unpackLoop (b.toNat &&& 63) 6 q with
      | error e => rw [hl] at h; simp at h
      | ok p =>
        rw [hl] at h
        have := key _ _ _ _ _ _ hl
        simp at h
        rw [← h.2.2]; simp; omega
    · rw [if_neg hb] at h
      simp at h
      rw [← h.2.2]; simp

theorem applyLoop_supply {D : Decompressor} (L : Supply D) : ∀ (N : Nat) (s : Streams D) (q : Bytes) (toPos toSize : Int),
    q.length ≤ N → s.dfdiff = none → L.has s.reader.st s.reader.file q →
    (∃ recs rest out, Recs (toSize - toPos) q recs rest ∧
      rebuild s.from_.clampSeek s.from_.data s.from_.pos recs = some out ∧
      ∃ F s', (∀ fuel, F ≤ fuel → applyLoop fuel toPos toSize s = ⟨out, .ok s'⟩) ∧ L.has s'.reader.st s'.reader.file rest) ∨
    ((∀ recs rest, Recs (toSize - toPos) q recs rest → rebuild s.from_.clampSeek s.from_.data s.from_.pos recs = none) ∧
      FailsW fun fuel => applyLoop fuel toPos toSize s) := by
  intro N
  induction N with
  | zero =>
    intro s q toPos toSize hN hdf hO
    have hq : q = [] := List.eq_nil_of_length_eq_zero (by omega)
    subst hq
    by_cases hlt : toPos < toSize
    · right
      have hu := PatchReader.unpackSize_supply L s.reader [] hO
      refine ⟨fun recs rest h => ?_, ?_⟩
      · cases h with
        | done h => omega
        | record _ h => simp [unpackSizeWithLength] at h
      · refine FailsW.succ ?_
        simp only [applyLoop, if_pos hlt]
        exact ((FailsW.of_lift hu).bind_left).bind_left
    · left
      refine ⟨[], [], [], .done (by omega), rfl, 0, s, fun fuel _ => ?_, hO⟩
      cases fuel <;> simp [applyLoop, hlt, W.pure]
  | succ N ih =>
    intro s q toPos toSize hN hdf hO
    by_cases hlt : toPos < toSize
    · -- the three parts of a record
      have unf : ∀ k, applyLoop (k + 1) toPos toSize s = (do
          let (toPos, s) ← processChunks k true toPos toSize s
          let (toPos, s) ← processChunks k false toPos toSize s
          let (size, reader) ← W.lift (s.reader.unpackSize k)
          let from_ ← W.lift (s.from_.seekCur size)
          applyLoop k toPos toSize { s with reader := reader, from_ := from_ }) := by
        intro k; rw [applyLoop, if_pos hlt]
      have fails : ∀ {x : Nat → W (Streams D)}, (∀ k, applyLoop (k + 1) toPos toSize s = x k) → FailsW x →
          FailsW fun fuel => applyLoop fuel toPos toSize s := by
        intro x hx hf
        refine FailsW.succ ?_
        obtain ⟨F, o, e, he, hF⟩ := hf
        exact ⟨F, o, e, he, fun fuel h => (hx fuel).trans (hF fuel h)⟩
      rcases processChunks_supply L true toPos toSize s q hdf hO with
        ⟨dsz, dl, dd, b1, hd, hdc, Fd, sd, hFd, hOd, hfd, hdfd⟩ | ⟨hno, hF⟩
      · rcases processChunks_supply L false (toPos + dd.length) toSize sd b1 hdfd hOd with
          ⟨esz, el, ed, b2, he, _, Fe, se, hFe, hOe, hfe, hdfe⟩ | ⟨hno, hF⟩
        · have hse : se.from_ = { s.from_ with pos := s.from_.pos + dd.length } := by rw [hfe, hfd]; simp
          have hu := PatchReader.unpackSize_supply L se.reader b2 hOe
          cases hb2 : unpackSizeWithLength b2 with
          | error e0 =>
            rw [hb2] at hu
            right
            refine ⟨fun recs rest h => ?_, fails unf ?_⟩
            · cases h with
              | done h => omega
              | record g0 g1 g2 g3 g4 g5 g6 g7 =>
                obtain ⟨_, _, hd', rfl⟩ := hd.unique ⟨g1, g2, g3⟩
                obtain ⟨_, _, _, rfl⟩ := he.unique ⟨g4, by rw [hd']; omega, g6⟩
                rw [hb2] at g7; cases g7
            · refine FailsW.bind_right ⟨Fd, hFd⟩ ?_
              refine FailsW.bind_right ⟨Fe, hFe⟩ ?_
              exact (FailsW.of_lift hu).bind_left
          | ok p =>
            obtain ⟨adj, al, b3⟩ := p
            rw [hb2] at hu
            obtain ⟨Fu, ru, hFu, hOu⟩ := hu
            have hx : ∃ F, ∀ fuel, F ≤ fuel → W.lift (se.reader.unpackSize fuel) = ⟨[], .ok (adj, ru)⟩ :=
              ⟨Fu, fun fuel hf => by rw [hFu fuel hf]; rfl⟩
            -- the record
            have hrec : ∀ recs rest, Recs (toSize - toPos) q recs rest → ∃ rs, recs = ⟨dsz, dd, esz, ed, adj, dl, el, al⟩ :: rs ∧
                Recs (toSize - toPos - dd.length - ed.length) b3 rs rest := by
              intro recs rest h
              cases h with
              | done h => omega
              | @record _ _ _ _ _ _ r rs g0 g1 g2 g3 g4 g5 g6 g7 g8 =>
                obtain ⟨d1, d2, d3, rfl⟩ := hd.unique ⟨g1, g2, g3⟩
                obtain ⟨e1, e2, e3, rfl⟩ := he.unique ⟨g4, by rw [d3]; omega, g6⟩
                rw [hb2] at g7
                cases g7
                refine ⟨rs, ?_, ?_⟩
                · cases r; simp only at d1 d2 d3 e1 e2 e3; subst d1 d2 d3 e1 e2 e3; rfl
                · rw [d3, e3]; exact g8
            have hmk : ∀ rs rest, Recs (toSize - toPos - dd.length - ed.length) b3 rs rest →
                Recs (toSize - toPos) q (⟨dsz, dd, esz, ed, adj, dl, el, al⟩ :: rs) rest := by
              intro rs rest h
              refine .record (by omega) hd.unpack hd.fits hd.length he.unpack ?_ he.length hb2 h
              have := he.fits
              simp only
              omega
            have hreb : ∀ rs, rebuild s.from_.clampSeek s.from_.data s.from_.pos (⟨dsz, dd, esz, ed, adj, dl, el, al⟩ :: rs) =
                if (s.from_.pos : Int) + dd.length + adj < 0 ∧ s.from_.clampSeek = false then none
                else (rebuild s.from_.clampSeek s.from_.data ((s.from_.pos : Int) + dd.length + adj).toNat rs).map
                  fun out => List.zipWith (· + ·) dd (s.from_.data.drop s.from_.pos) ++ ed ++ out := by
              intro rs
              have hc : ¬ (dd ≠ [] ∧ s.from_.data.length < s.from_.pos + dd.length) := by
                rintro ⟨h1, h2⟩
                rcases hdc rfl with h | h
                · exact h1 h
                · omega
              simp only [rebuild]
              rw [if_neg hc]
            have hshort : b3.length ≤ N := by
              have h1 := unpackSizeWithLength_shorter hd.unpack
              have h2 := unpackSizeWithLength_shorter he.unpack
              have h3 := unpackSizeWithLength_shorter hb2
              simp only [List.length_append] at h1 h2
              omega
            by_cases hneg : (s.from_.pos : Int) + dd.length + adj < 0 ∧ s.from_.clampSeek = false
            · right
              refine ⟨fun recs rest h => ?_, fails unf ?_⟩
              · obtain ⟨rs, rfl, _⟩ := hrec recs rest h
                rw [hreb, if_pos hneg]
              · refine FailsW.bind_right ⟨Fd, hFd⟩ ?_
                refine FailsW.bind_right ⟨Fe, hFe⟩ ?_
                refine FailsW.bind_right hx ?_
                have hsk : se.from_.seekCur adj = .error (.builtin "OSError") := by
                  rw [hse]
                  simp only [PyFile.seekCur]
                  rw [if_pos (by have := hneg.1; simp; omega), hneg.2]
                  rfl
                simp only [hsk]
                exact (FailsW.const (by intro h; cases h)).bind_left
            · have hsk : se.from_.seekCur adj = .ok { s.from_ with pos := ((s.from_.pos : Int) + dd.length + adj).toNat } := by
                rw [hse]
                simp only [PyFile.seekCur]
                by_cases hn : (s.from_.pos : Int) + dd.length + adj < 0
                · have hcl : s.from_.clampSeek = true := by
                    cases h : s.from_.clampSeek with
                    | true => rfl
                    | false => exact absurd ⟨hn, h⟩ hneg
                  rw [if_pos (by simp; omega), hcl]
                  simp only [if_true]
                  have : ((s.from_.pos : Int) + dd.length + adj).toNat = 0 := by omega
                  rw [this]
                · rw [if_neg (by simp; omega)]
                  simp
              rcases ih { se with reader := ru, from_ := { s.from_ with pos := ((s.from_.pos : Int) + dd.length + adj).toNat } }
                b3 (toPos + dd.length + ed.length) toSize hshort hdfe hOu with
                ⟨recs, rest, out, hr, hb, F, s', hF, hO'⟩ | ⟨hno, hF⟩
              · left
                refine ⟨_, rest, List.zipWith (· + ·) dd (s.from_.data.drop s.from_.pos) ++ ed ++ out, hmk recs rest ?_, ?_, max (max Fd Fe) (max Fu F) + 1, s', ?_, hO'⟩
                · have e : toSize - toPos - (dd.length : Int) - ed.length = toSize - (toPos + dd.length + ed.length) := by omega
                  rw [e]; exact hr
                · rw [hreb, if_neg hneg]
                  simp only at hb
                  rw [hb]
                  rfl
                · intro fuel hf
                  obtain ⟨k, rfl⟩ : ∃ k, fuel = k + 1 := ⟨fuel - 1, by omega⟩
                  rw [unf, hFd k (by omega)]
                  simp only [W.mk_bind_ok, hFe k (by omega), hFu k (by omega), W.lift_bind_ok, hsk, hF k (by omega), if_true]
                  simp
              · right
                refine ⟨fun recs rest h => ?_, fails unf ?_⟩
                · obtain ⟨rs, rfl, h2⟩ := hrec recs rest h
                  rw [hreb, if_neg hneg]
                  have e : toSize - toPos - (dd.length : Int) - ed.length = toSize - (toPos + dd.length + ed.length) := by omega
                  rw [e] at h2
                  have := hno rs rest h2
                  simp only at this
                  rw [this]
                  rfl
                · refine FailsW.bind_right ⟨Fd, hFd⟩ ?_
                  refine FailsW.bind_right ⟨Fe, hFe⟩ ?_
                  refine FailsW.bind_right hx ?_
                  simp only [hsk, W.lift_bind_ok]
                  exact hF
        · right
          refine ⟨fun recs rest h => ?_, fails unf ?_⟩
          · cases h with
            | done h => omega
            | record g0 g1 g2 g3 g4 g5 g6 g7 =>
              obtain ⟨_, _, hd', rfl⟩ := hd.unique ⟨g1, g2, g3⟩
              exact absurd (fun h => by cases h) (hno _ _ _ _ ⟨g4, by rw [hd']; omega, g6⟩)
          · refine FailsW.bind_right ⟨Fd, hFd⟩ ?_
            exact hF.bind_left
      · right
        refine ⟨fun recs rest h => ?_, fails unf hF.bind_left⟩
        cases h with
        | done h => omega
        | @record _ _ _ _ _ _ r _ g0 g1 g2 g3 g4 g5 g6 g7 =>
          have := hno _ _ _ _ ⟨g1, g2, g3⟩
          simp only [rebuild]
          rw [if_pos]
          refine Classical.byContradiction fun hc => this fun _ => ?_
          by_cases h : r.diff = []
          · exact .inl h
          · right
            exact Nat.le_of_not_lt fun h2 => hc ⟨h, h2⟩
    · left
      refine ⟨[], q, [], .done (by omega), rfl, 0, s, fun fuel _ => ?_, hO⟩
      cases fuel <;> simp [applyLoop, hlt, W.pure]

end Detools
