import Verif.Spec.Compression
import Verif.Proofs.HsDecodes
import Verif.Proofs.PySupply
/-
The classes around heatshrink2, zstandard and lz4 are lossless if the libraries are.
-/
namespace Detools

theorem hsUnpack_pack {w l : Nat} (h : HsParams w l) : hsUnpackHeader (hsPackHeader w l) = (w, l) := by
  obtain ⟨h1, h2, h3, h4⟩ := h
  have hv : (hsPackHeader w l).toNat = (w - 4) * 16 + (l - 3) := by
    rw [hsPackHeader, UInt8.toNat_ofNat']
    exact Nat.mod_eq_of_lt (by omega)
  simp only [hsUnpackHeader, hv, Prod.mk.injEq]
  omega

theorem HsReaderLib.fillAll_append (R : HsReaderLib) (ps : List Bytes) : ∀ {s s1 o1}, R.fillAll s ps = .ok (s1, o1) → ∀ qs,
    R.fillAll s (ps ++ qs) = match R.fillAll s1 qs with
      | .error e => .error e
      | .ok (s, d) => .ok (s, o1 ++ d) := by
  induction ps with
  | nil =>
    intro s s1 o1 h qs
    cases h
    simp only [List.nil_append]
    cases R.fillAll s qs with
    | error e => rfl
    | ok p => rfl
  | cons p ps ih =>
    intro s s1 o1 h qs
    simp only [HsReaderLib.fillAll] at h
    simp only [List.cons_append, HsReaderLib.fillAll]
    cases hf : R.fill s p with
    | error e => rw [hf] at h; cases h
    | ok q =>
      rw [hf] at h
      simp only at h ⊢
      cases hg : R.fillAll q.1 ps with
      | error e => rw [hg] at h; cases h
      | ok q2 =>
        rw [hg] at h
        cases h
        rw [ih hg qs]
        cases R.fillAll q2.1 qs with
        | error e => rfl
        | ok p => simp

theorem HsReaderLib.fillAll_one {R : HsReaderLib} {s p} : R.fillAll s [p] = match R.fill s p with
    | .error e => .error e
    | .ok (s, d) => .ok (s, d) := by
  simp only [HsReaderLib.fillAll]
  cases R.fill s p with
  | error e => rfl
  | ok q => simp

/-- The symbols of a stream; `tight` if at most a padding follows them. -/
def HsStream (tight : Bool) (w l : Nat) (x : Bytes) (S : List HsSym) : Prop :=
  HsParses w l (bytesBits x) S ∧ (tight = true → ∃ pad, bytesBits x = S.flatMap (·.bits w l) ++ pad ∧ pad.length < 8)

/-- What the decompressor will deliver. -/
inductive HsHas {L : HsLib} (tight : Bool) : HsPyD L.reader → Bytes → Bytes → Prop
  | empty : HsHas tight { bytesLeft := 0, data := [], encoder := none } [] []
  | start {w l x S} : HsParams w l → HsStream tight w l x S →
      HsHas tight { bytesLeft := (hsPackHeader w l :: x).length, data := [], encoder := none } (hsPackHeader w l :: x) (hsExpand [] S)
  | mid {w l s0 s pieces given file data q S} : HsParams w l → L.reader.new w l = .ok s0 → file ≠ [] →
      L.reader.fillAll s0 pieces = .ok (s, given ++ data) → HsStream tight w l (pieces.flatten ++ file) S → hsExpand [] S = given ++ q →
      HsHas tight { bytesLeft := file.length, data := data, encoder := some s } file q
  | last {s file q} : HsHas tight { bytesLeft := -1, data := q, encoder := some s } file q

theorem hs_buffered {L : HsLib} (hL : L.Ok) {w l s0 s pieces given file data q S} (hp : HsParams w l) (hn : L.reader.new w l = .ok s0)
    (hf : L.reader.fillAll s0 pieces = .ok (s, given ++ data)) (hS : HsParses w l (bytesBits (pieces.flatten ++ file)) S)
    (hq : hsExpand [] S = given ++ q) : data <+: q := by
  obtain ⟨s0', e, h⟩ := hL.reads w l hp
  rw [hn] at e
  cases e
  obtain ⟨s2, out, fin, h1, h2, h3⟩ := h (pieces ++ [file])
  rw [L.reader.fillAll_append pieces hf] at h1
  have h3 := h3 S (by simpa using hS)
  cases hg : L.reader.fillAll s [file] with
  | error e => rw [hg] at h1; cases h1
  | ok p =>
    rw [hg] at h1
    cases h1
    rw [hq] at h3
    simp only [List.append_assoc, List.append_cancel_left_eq] at h3
    exact ⟨_, h3⟩

/-- With a tight stream, more is to come as long as the file is not read. -/
theorem hs_more_comes {L : HsLib} (hL : L.Ok) {w l s0 s pieces given file data q S} (hp : HsParams w l) (hn : L.reader.new w l = .ok s0)
    (hne : file ≠ []) (hf : L.reader.fillAll s0 pieces = .ok (s, given ++ data)) (hS : HsStream true w l (pieces.flatten ++ file) S)
    (hq : hsExpand [] S = given ++ q) : q ≠ [] := by
  rintro rfl
  obtain ⟨hS, ht⟩ := hS
  obtain ⟨pad, h1, h2⟩ := ht rfl
  obtain ⟨s0', e, h⟩ := hL.reads w l hp
  rw [hn] at e
  cases e
  obtain ⟨s2, out, fin, g1, g2, g3⟩ := h pieces
  rw [hf] at g1
  cases g1
  obtain ⟨S0, hS0⟩ := hsParses_exists w l _ (bytesBits pieces.flatten) (Nat.le_refl _)
  have g3 := g3 S0 hS0
  rw [bytesBits_append] at hS h1
  have hpre := hS0.prefix_of hS
  have hl : S0.length < S.length := by
    rcases Nat.lt_or_ge S0.length S.length with h | h
    · exact h
    · exfalso
      have : S0 = S := hpre.eq_of_length_le h
      subst this
      obtain ⟨_, t, e1, _⟩ := hS0
      have e1 := congrArg List.length e1
      have h1 := congrArg List.length h1
      simp only [List.length_append, bytesBits_length] at e1 h1
      have : 0 < file.length := List.length_pos_iff.2 hne
      omega
  have := hsExpand_length_lt hS.1 hpre hl
  rw [hq, ← g3] at this
  simp only [List.length_append, List.length_nil] at this
  omega

theorem HsPyD.more_step {L : HsLib} (hL : L.Ok) {tight w l s0 s pieces given chunk file data q S} (hp : HsParams w l) (hn : L.reader.new w l = .ok s0)
    (hc : 0 < (chunk ++ file).length ∨ chunk = [])
    (hf : L.reader.fillAll s0 pieces = .ok (s, given ++ data)) (hS : HsStream tight w l (pieces.flatten ++ (chunk ++ file)) S)
    (hq : hsExpand [] S = given ++ q) (size : Nat) :
    ∃ st o q', HsPyD.more ((chunk ++ file).length : Nat) data s chunk size = .ok (st, o) ∧ q = o ++ q' ∧ o.length ≤ size ∧
      HsHas tight st file q' ∧ (o = [] → 0 < size → data = []) ∧ st.encoder.isSome = true := by
  obtain ⟨s0', e, hr⟩ := hL.reads w l hp
  rw [hn] at e
  cases e
  -- after the fill
  have hfill : ∃ s1 d, L.reader.fillAll s0 (pieces ++ [chunk]) = .ok (s1, given ++ (data ++ d)) ∧
      L.reader.fill s chunk = .ok (s1, d) := by
    obtain ⟨s2, out, fin, g1, _, _⟩ := hr (pieces ++ [chunk])
    have g1' := g1
    rw [L.reader.fillAll_append pieces hf, HsReaderLib.fillAll_one] at g1'
    cases h : L.reader.fill s chunk with
    | error e => rw [h] at g1'; cases g1'
    | ok p =>
      rw [h] at g1'
      cases g1'
      exact ⟨_, _, by rw [g1, List.append_assoc], rfl⟩
  -- the rest: no input is left, or some is
  have hrest : ∀ (ps : List Bytes) (s1 : L.reader.σ) (data1 : Bytes), L.reader.fillAll s0 ps = .ok (s1, given ++ data1) →
      ps.flatten = pieces.flatten ++ chunk →
      ∃ st o q', (do
        let (bytesLeft, buffered) ←
          if (file.length : Int) = 0 then do
            let d ← L.reader.finish s1
            pure ((-1 : Int), data1 ++ d)
          else pure ((file.length : Int), data1)
        return ({ bytesLeft := bytesLeft, data := buffered.drop size, encoder := some s1 }, buffered.take size) : Except PyErr (HsPyD L.reader × Bytes)) = .ok (st, o) ∧
        q = o ++ q' ∧ o.length ≤ size ∧ HsHas tight st file q' ∧ (o = [] → 0 < size → data1 = []) ∧ st.encoder.isSome = true := by
    intro ps s1 data1 h1 h2
    have hnil : ∀ b : Bytes, b.take size = [] → 0 < size → b = [] := by
      intro b h3 h4
      cases b with
      | nil => simp
      | cons x t =>
        obtain ⟨n, rfl⟩ : ∃ n, size = n + 1 := ⟨size - 1, by omega⟩
        simp at h3
    by_cases h0 : file = []
    · subst h0
      obtain ⟨s2, out, fin, g1, g2, g3⟩ := hr ps
      rw [h1] at g1
      cases g1
      have g3 := g3 S (by rw [h2]; simpa using hS.1)
      rw [hq, List.append_assoc, List.append_cancel_left_eq] at g3
      refine ⟨{ bytesLeft := -1, data := (data1 ++ fin).drop size, encoder := some s1 }, (data1 ++ fin).take size, (data1 ++ fin).drop size,
        ?_, by rw [List.take_append_drop, g3], by simp; omega, .last, fun h1 h2 => (List.append_eq_nil_iff.1 (hnil _ h1 h2)).1, rfl⟩
      simp [g2, bind, Except.bind, pure, Except.pure]
    · have h0' : ¬ (file.length : Int) = 0 := by
        have := List.length_pos_iff.2 h0
        omega
      have hS' : HsStream tight w l (ps.flatten ++ file) S := by rw [h2, List.append_assoc]; exact hS
      obtain ⟨t, ht⟩ := hs_buffered hL hp hn h1 hS'.1 hq
      refine ⟨{ bytesLeft := file.length, data := data1.drop size, encoder := some s1 }, data1.take size, data1.drop size ++ t, ?_, ?_, by simp; omega, ?_, hnil _, rfl⟩
      · simp only [h0', if_false, bind, Except.bind, pure, Except.pure]
      · rw [← List.append_assoc, List.take_append_drop, ht]
      · refine .mid (given := given ++ data1.take size) hp hn h0 ?_ hS' ?_
        · rw [List.append_assoc, List.take_append_drop]; exact h1
        · rw [hq, ← ht, List.append_assoc, ← List.append_assoc (data1.take size), List.take_append_drop]
  unfold HsPyD.more
  by_cases hpos : 0 < (chunk ++ file).length
  · obtain ⟨s1, d, g1, g2⟩ := hfill
    obtain ⟨st, o, q', k1, k2, k3, k4, k5, k6⟩ := hrest (pieces ++ [chunk]) s1 (data ++ d) g1 (by simp)
    refine ⟨st, o, q', ?_, k2, k3, k4, fun h1 h2 => (List.append_eq_nil_iff.1 (k5 h1 h2)).1, k6⟩
    rw [← k1]
    have e1 : (0 : Int) < ((chunk ++ file).length : Nat) := by omega
    have e2 : (((chunk ++ file).length : Nat) : Int) - chunk.length = file.length := by simp only [List.length_append]; omega
    simp only [e1, if_true, g2, e2, bind, Except.bind, pure, Except.pure]
  · have hch : chunk = [] := by rcases hc with h | h; exact absurd h hpos; exact h
    subst hch
    simp only [List.nil_append] at hpos ⊢
    obtain ⟨st, o, q', k1, k2⟩ := hrest pieces s data hf (by simp)
    refine ⟨st, o, q', ?_, k2⟩
    rw [← k1]
    have e1 : ¬ (0 : Int) < (file.length : Nat) := by omega
    simp only [e1, if_false, bind, Except.bind, pure, Except.pure]

/-- A call of `decompress` as the patch reader makes it. -/
theorem HsHas.call {L : HsLib} (hL : L.Ok) {tight : Bool} {st : HsPyD L.reader} {file q : Bytes} (h : HsHas tight st file q)
    (hne : st.needsInput = true → file ≠ []) (size : Nat) (hs : 0 < size) :
    ∃ st' o q', st.decompress (if st.needsInput then file.take 4096 else []) size = .ok (st', o) ∧ q = o ++ q' ∧ o.length ≤ size ∧
      HsHas tight st' (if st.needsInput then file.drop 4096 else file) q' ∧ st'.encoder.isSome = true ∧
      (o = [] → st.eof = false → st.needsInput = true) := by
  cases h with
  | empty => exact absurd rfl (hne (by rfl))
  | @start w l x S hp hS =>
    have hni : (⟨((hsPackHeader w l :: x).length : Nat), [], none⟩ : HsPyD L.reader).needsInput = true := by
      simp [HsPyD.needsInput, HsPyD.eof]
      omega
    simp only [hni, if_true]
    obtain ⟨s0, e, _⟩ := hL.reads w l hp
    have := HsPyD.more_step hL (pieces := []) (given := []) (chunk := x.take 4095) (file := x.drop 4095) (data := []) (q := hsExpand [] S) (S := S)
      hp e (by cases x <;> simp) (s := s0) rfl (by simpa using hS) rfl size
    rw [List.take_append_drop] at this
    obtain ⟨st', o, q', k1, k2, k3, k4, _, k6⟩ := this
    refine ⟨st', o, q', ?_, k2, k3, k4, k6, fun _ _ => trivial⟩
    simp only [HsPyD.decompress, List.take_succ_cons, hsUnpack_pack hp, e]
    rw [show ((hsPackHeader w l :: x).length : Int) - 1 = (x.length : Nat) by simp]
    exact k1
  | @mid w l s0 s pieces given _ data _ S hp hn hfne hf hS hq =>
    have heof : (⟨(file.length : Nat), data, some s⟩ : HsPyD L.reader).eof = false := by
      simp [HsPyD.eof]
    by_cases hd : data = []
    · have hni : (⟨(file.length : Nat), data, some s⟩ : HsPyD L.reader).needsInput = true := by
        simp only [HsPyD.needsInput, heof]
        simp [hd]
      simp only [hni, if_true]
      have := HsPyD.more_step hL (chunk := file.take 4096) (file := file.drop 4096) hp hn
        (by left; rw [List.take_append_drop]; exact List.length_pos_iff.2 hfne) hf (by rw [List.take_append_drop]; exact hS) hq size
      rw [List.take_append_drop] at this
      obtain ⟨st', o, q', k1, k2, k3, k4, _, k6⟩ := this
      exact ⟨st', o, q', k1, k2, k3, k4, k6, fun _ _ => trivial⟩
    · have hni : (⟨(file.length : Nat), data, some s⟩ : HsPyD L.reader).needsInput = false := by
        simp [HsPyD.needsInput, hd]
      simp only [hni, Bool.false_eq_true, if_false]
      obtain ⟨st', o, q', k1, k2, k3, k4, k5, k6⟩ := HsPyD.more_step hL (chunk := []) (file := file) hp hn
        (.inr rfl) hf hS hq size
      refine ⟨st', o, q', k1, k2, k3, k4, k6, ?_⟩
      intro ho
      exact absurd (k5 ho hs) hd
  | @last s file q =>
    have hni : (⟨-1, q, some s⟩ : HsPyD L.reader).needsInput = false := by
      simp [HsPyD.needsInput, HsPyD.eof]
    simp only [hni, Bool.false_eq_true, if_false]
    refine ⟨⟨-1, q.drop size, some s⟩, q.take size, q.drop size, by simp [HsPyD.decompress, HsPyD.more, bind, Except.bind, pure, Except.pure],
      (List.take_append_drop _ _).symm, by simp; omega, .last, rfl, ?_⟩
    intro h1 h2
    exfalso
    have : q = [] := by
      cases q with
      | nil => rfl
      | cons x t =>
        obtain ⟨n, rfl⟩ : ∃ n, size = n + 1 := ⟨size - 1, by omega⟩
        simp at h1
    subst this
    simp [HsPyD.eof] at h2

theorem HsHas.noEof {L : HsLib} {tight : Bool} {st : HsPyD L.reader} {file q : Bytes} (h : HsHas tight st file q) (hq : q ≠ []) : st.eof = false := by
  cases h with
  | empty => exact absurd rfl hq
  | start => simp [HsPyD.eof]; omega
  | mid => simp [HsPyD.eof]
  | last => simp [HsPyD.eof, hq]

theorem HsHas.file {L : HsLib} {tight : Bool} {st : HsPyD L.reader} {file q : Bytes} (h : HsHas tight st file q) (hn : st.needsInput = true)
    (hq : q ≠ []) : file ≠ [] := by
  cases h with
  | empty => exact absurd rfl hq
  | start => simp
  | mid _ _ h => exact h
  | last => simp [HsPyD.needsInput, HsPyD.eof] at hn

def hsSupply {L : HsLib} (hL : L.Ok) (w l : Nat) : Supply (heatshrinkCodec L w l).decomp where
  has := HsHas false
  measure := fun _ file => file.length
  noEof := fun h hq => h.noEof hq
  step := by
    intro st file out size h hne hs
    refine ⟨fun hn => h.file hn hne, ?_⟩
    obtain ⟨st', o, q', k1, k2, k3, k4, _, k6⟩ := h.call hL (fun hn => h.file hn hne) size hs
    refine ⟨st', o, q', k1, k2, k3, k4, ?_⟩
    intro ho
    have hn := k6 ho (h.noEof hne)
    have hf := List.length_pos_iff.2 (h.file hn hne)
    show (if HsPyD.needsInput st then _ else _ : Bytes).length < _
    rw [if_pos hn, List.length_drop]
    omega
  dry := by
    intro st file size h hs
    by_cases he : st.eof = true
    · exact .inl he
    · right
      have he : st.eof = false := by simpa using he
      by_cases hf : st.needsInput = true ∧ file = []
      · exact .inl hf
      · right; right
        have hfne : st.needsInput = true → file ≠ [] := fun h1 h2 => hf ⟨h1, h2⟩
        obtain ⟨st', o, q', k1, k2, k3, k4, _, k6⟩ := h.call hL hfne size hs
        obtain ⟨rfl, rfl⟩ := List.append_eq_nil_iff.1 k2.symm
        refine ⟨st', k1, k4, ?_⟩
        have hn := k6 rfl he
        have hf := List.length_pos_iff.2 (hfne hn)
        show (if HsPyD.needsInput st then _ else _ : Bytes).length < _
        rw [if_pos hn, List.length_drop]
        omega

theorem HsHas.more_comes {L : HsLib} (hL : L.Ok) {st : HsPyD L.reader} {file q : Bytes} (h : HsHas true st file q) (hs : st.encoder.isSome = true) :
    st.bytesLeft = -1 ∨ q ≠ [] := by
  cases h with
  | empty => cases hs
  | start => cases hs
  | mid hp hn hne hf hS hq => exact .inr (hs_more_comes hL hp hn hne hf hS hq)
  | last => exact .inl rfl

def hsDelivers {L : HsLib} (hL : L.Ok) (w l : Nat) : Delivers (heatshrinkCodec L w l).decomp where
  owes := fun st file q => HsHas true st file q ∧ (st.bytesLeft = -1 ∨ q ≠ [])
  measure := fun _ file => file.length
  eof_iff := by
    rintro st file out ⟨h, hq⟩
    constructor
    · intro he
      refine Classical.byContradiction fun hne => ?_
      rw [show (heatshrinkCodec L w l).decomp.eof st = HsPyD.eof st from rfl, h.noEof hne] at he
      cases he
    · rintro rfl
      rcases hq with hq | hq
      · generalize hq' : ([] : Bytes) = q at h
        cases h with
        | empty => cases hq
        | start => simp at hq; omega
        | mid => simp at hq
        | last => subst hq'; simp [heatshrinkCodec, HsPyD.eof]
      · exact absurd rfl hq
  step := by
    rintro st file out size ⟨h, _⟩ hne hs
    refine ⟨fun hn => h.file hn hne, ?_⟩
    obtain ⟨st', o, q', k1, k2, k3, k4, k5, k6⟩ := h.call hL (fun hn => h.file hn hne) size hs
    refine ⟨st', o, q', k1, k2, k3, ⟨k4, k4.more_comes hL k5⟩, ?_⟩
    intro ho
    have hn := k6 ho (h.noEof hne)
    have hf := List.length_pos_iff.2 (h.file hn hne)
    show (if HsPyD.needsInput st then _ else _ : Bytes).length < _
    rw [if_pos hn, List.length_drop]
    omega

theorem run_go_cons (K : Compressor) {s s' : K.σ} {c out : Bytes} (h : K.compress s c = (s', out)) (cs : List Bytes) :
    Compressor.run.go K s (c :: cs) = out ++ Compressor.run.go K s' cs := by
  simp only [Compressor.run.go, h]

theorem heatshrink_run_go (L : HsLib) (w l : Nat) (chunks : List Bytes) : ∀ data s,
    Compressor.run.go (heatshrinkCompressor L w l) (data, s) chunks = data ++ Compressor.run.go (L.writer w l) s chunks := by
  induction chunks with
  | nil => intro data s; rfl
  | cons c cs ih =>
    intro data s
    cases hc : (L.writer w l).compress s c with
    | mk s' out =>
      rw [run_go_cons _ hc]
      by_cases hd : data = []
      · have : (heatshrinkCompressor L w l).compress (data, s) c = ((data, s'), out) := by
          simp [heatshrinkCompressor, hc, hd]
        rw [run_go_cons (heatshrinkCompressor L w l) this, ih, hd]
        simp
      · have : (heatshrinkCompressor L w l).compress (data, s) c = (([], s'), data ++ out) := by
          simp [heatshrinkCompressor, hc, hd]
        rw [run_go_cons (heatshrinkCompressor L w l) this, ih]
        simp

theorem heatshrink_run (L : HsLib) (w l : Nat) (chunks : List Bytes) :
    (heatshrinkCodec L w l).comp.run chunks = hsPackHeader w l :: (L.writer w l).run chunks :=
  heatshrink_run_go L w l chunks [hsPackHeader w l] _

theorem HsEncodes.stream {w l : Nat} {x data : Bytes} (hw : HsParams w l) (h : HsEncodes w l x data) :
    ∃ S, HsStream true w l x S ∧ hsExpand [] S = data := by
  obtain ⟨S, pad, h1, h2, h3, h4⟩ := h
  obtain ⟨hw1, hw2, hw3, hw4⟩ := hw
  refine ⟨S, ⟨⟨h1, pad, h2, ?_⟩, fun _ => ⟨pad, h2, h3⟩⟩, h4⟩
  rintro s rest _ rfl
  rw [List.length_append] at h3
  have : 8 ≤ (s.bits w l).length := by
    cases s <;> simp [HsSym.bits, numBits_length]
    omega
  omega

def hsLossless {L : HsLib} (hL : L.Ok) (w l : Nat) (hp : HsParams w l) : Lossless (heatshrinkCodec L w l) where
  toDelivers := hsDelivers hL w l
  init := by
    intro chunks hne
    obtain ⟨S, h1, h2⟩ := (hL.writes w l hp chunks).stream hp
    rw [heatshrink_run, ← h2]
    exact ⟨.start hp h1, .inr (by rw [h2]; exact hne)⟩

/-- A cut of an encoding loses data. -/
theorem HsEncodes.cut {w l : Nat} {x z data : Bytes} (hw : HsParams w l) (h : HsEncodes w l (x ++ z) data) (hz : z ≠ []) :
    ∃ S lost, HsStream false w l x S ∧ data = hsExpand [] S ++ lost ∧ lost ≠ [] := by
  obtain ⟨S, ⟨hS, hp⟩, h2⟩ := h.stream hw
  obtain ⟨pad, h3, h4⟩ := hp rfl
  obtain ⟨S0, hS0⟩ := hsParses_exists w l _ (bytesBits x) (Nat.le_refl _)
  rw [bytesBits_append] at hS h3
  have hpre := hS0.prefix_of hS
  have hl : S0.length < S.length := by
    rcases Nat.lt_or_ge S0.length S.length with h | h
    · exact h
    · exfalso
      have : S0 = S := hpre.eq_of_length_le h
      subst this
      obtain ⟨_, t, e1, _⟩ := hS0
      have e1 := congrArg List.length e1
      have h1 := congrArg List.length h3
      simp only [List.length_append, bytesBits_length] at e1 h1
      have : 0 < z.length := List.length_pos_iff.2 hz
      omega
  have hlt := hsExpand_length_lt hS.1 hpre hl
  obtain ⟨lost, hlost⟩ := hsExpand_prefix hpre
  refine ⟨S0, lost, ⟨hS0, nofun⟩, by rw [← h2, hlost], ?_⟩
  rintro rfl
  rw [← hlost] at hlt
  simp at hlt

/-- Enough bits hold a symbol. -/
theorem hs_symbol_exists {w l : Nat} (hw : HsParams w l) (bits : List Bool) (h : 32 ≤ bits.length) : ¬ HsIncomplete w l bits := by
  intro hi
  obtain ⟨_, _, h3, h4⟩ := hw
  match bits with
  | [] => simp at h
  | true :: bits =>
    simp only [List.length_cons] at h
    have h8 : (bits.take 8).length = 8 := by simp; omega
    have hv := bitsVal_lt (bits.take 8)
    have hn := numBits_bitsVal (bits.take 8)
    rw [h8] at hv hn
    refine hi (.literal (UInt8.ofNat (bitsVal (bits.take 8)))) (bits.drop 8) trivial ?_
    rw [HsSym.bits, UInt8.toNat_ofNat', Nat.mod_eq_of_lt hv, hn, List.cons_append, List.take_append_drop]
  | false :: bits =>
    simp only [List.length_cons] at h
    have h1 : (bits.take w).length = w := by simp; omega
    have h2 : ((bits.drop w).take l).length = l := by simp; omega
    have v1 := bitsVal_lt (bits.take w)
    have v2 := bitsVal_lt ((bits.drop w).take l)
    have n1 := numBits_bitsVal (bits.take w)
    have n2 := numBits_bitsVal ((bits.drop w).take l)
    rw [h1] at v1 n1
    rw [h2] at v2 n2
    refine hi (.backref (bitsVal (bits.take w) + 1) (bitsVal ((bits.drop w).take l) + 1)) (bits.drop (w + l))
      ⟨by omega, by omega, by omega, by omega⟩ ?_
    rw [HsSym.bits, Nat.add_sub_cancel, Nat.add_sub_cancel, n1, n2, List.cons_append, List.append_assoc, ← List.drop_drop,
      List.take_append_drop, List.take_append_drop]

/-- Enough bytes after an encoding add data. -/
theorem HsEncodes.extend {w l : Nat} {x data : Bytes} (hw : HsParams w l) (h : HsEncodes w l x data) (z : Bytes) (hz : 4 ≤ z.length) :
    ∃ extra S, HsStream false w l (x ++ z) S ∧ hsExpand [] S = data ++ extra ∧ extra ≠ [] := by
  obtain ⟨S0, ⟨hS0, _⟩, h2⟩ := h.stream hw
  obtain ⟨S, hS⟩ := hsParses_exists w l _ (bytesBits (x ++ z)) (Nat.le_refl _)
  have hS' := hS
  rw [bytesBits_append] at hS'
  have hpre := hS0.prefix_of hS'
  obtain ⟨extra, he⟩ := hsExpand_prefix hpre
  refine ⟨extra, S, ⟨hS, nofun⟩, by rw [← he, h2], ?_⟩
  rintro rfl
  have hl : ¬ S0.length < S.length := by
    intro hl
    have := hsExpand_length_lt hS.1 hpre hl
    rw [← he] at this
    simp at this
  have : S0 = S := hpre.eq_of_length_le (by omega)
  subst this
  obtain ⟨_, t, e1, _⟩ := hS0
  obtain ⟨_, t', e2, e3⟩ := hS'
  rw [e1, List.append_assoc, List.append_cancel_left_eq] at e2
  refine hs_symbol_exists hw t' ?_ e3
  rw [← e2, List.length_append, bytesBits_length]
  omega

/-! ### zstd -/

theorem ZstdLib.writeAll_append (R : ZstdLib) (ps : List Bytes) : ∀ {s s1 o1}, R.writeAll s ps = .ok (s1, o1) → ∀ qs,
    R.writeAll s (ps ++ qs) = match R.writeAll s1 qs with
      | .error e => .error e
      | .ok (s, d) => .ok (s, o1 ++ d) := by
  induction ps with
  | nil =>
    intro s s1 o1 h qs
    cases h
    simp only [List.nil_append]
    cases R.writeAll s qs with
    | error e => rfl
    | ok p => rfl
  | cons p ps ih =>
    intro s s1 o1 h qs
    simp only [ZstdLib.writeAll] at h
    simp only [List.cons_append, ZstdLib.writeAll]
    cases hf : R.write s p with
    | error e => rw [hf] at h; cases h
    | ok q =>
      rw [hf] at h
      simp only at h ⊢
      cases hg : R.writeAll q.1 ps with
      | error e => rw [hg] at h; cases h
      | ok q2 =>
        rw [hg] at h
        cases h
        rw [ih hg qs]
        cases R.writeAll q2.1 qs with
        | error e => rfl
        | ok p => simp

theorem ZstdLib.writeAll_one {R : ZstdLib} {s p} : R.writeAll s [p] = match R.write s p with
    | .error e => .error e
    | .ok (s, d) => .ok (s, d) := by
  simp only [ZstdLib.writeAll]
  cases R.write s p with
  | error e => rfl
  | ok q => simp

/-- What the zstd decompressor will deliver. -/
def ZstdHas {L : ZstdLib} (st : ZstdD L) (file q : Bytes) : Prop :=
  ∃ data pieces, data ≠ [] ∧ pieces.flatten ++ file = L.compress data ∧ L.writeAll L.init pieces = .ok (st.dec, st.fout) ∧
    st.bytesLeft = file.length ∧ st.outputOffset ≤ st.fout.length ∧ data.drop st.outputOffset = q

theorem ZstdHas.prefix {L : ZstdLib} (hL : L.Ok) {data pieces file s fout} (hd : data ≠ []) (hp : pieces.flatten ++ file = L.compress data)
    (hw : L.writeAll L.init pieces = .ok (s, fout)) : ∃ s' d, L.write s file = .ok (s', d) ∧ fout ++ d = data := by
  obtain ⟨s1, h1⟩ := hL.writes data hd (pieces ++ [file]) (by simpa using hp)
  rw [L.writeAll_append pieces hw, ZstdLib.writeAll_one] at h1
  cases h : L.write s file with
  | error e => rw [h] at h1; cases h1
  | ok p =>
    rw [h] at h1
    simp only [Except.ok.injEq, Prod.mk.injEq] at h1
    exact ⟨p.1, p.2, rfl, h1.2⟩

def zstdDelivers {L : ZstdLib} (hL : L.Ok) : Delivers (zstdCodec L).decomp where
  owes := ZstdHas
  measure := fun _ file => file.length
  eof_iff := by
    rintro st file out ⟨data, pieces, h1, h2, h3, h4, h5, rfl⟩
    obtain ⟨s', d, k1, k2⟩ := ZstdHas.prefix hL h1 h2 h3
    show (st.bytesLeft == 0 && st.outputOffset == st.fout.length) = true ↔ _
    rw [h4]
    simp only [Bool.and_eq_true, beq_iff_eq, Int.natCast_eq_zero, List.length_eq_zero_iff, List.drop_eq_nil_iff]
    constructor
    · rintro ⟨rfl, e⟩
      obtain ⟨s2, g⟩ := hL.writes data h1 pieces (by simpa using h2)
      rw [h3] at g
      cases g
      omega
    · intro hle
      have hl := congrArg List.length k2
      rw [List.length_append] at hl
      have hd : d = [] := List.length_eq_zero_iff.1 (by omega)
      subst hd
      rw [List.append_nil] at k2
      refine ⟨?_, by omega⟩
      refine Classical.byContradiction fun hne => ?_
      exact hL.last data h1 pieces file _ _ h2 hne h3 k2
  step := by
    rintro st file out size ⟨data, pieces, h1, h2, h3, h4, h5, rfl⟩ hne hs
    have heof : st.eof = false := by
      cases he : st.eof with
      | false => rfl
      | true =>
        exfalso
        simp only [ZstdD.eof, h4, Bool.and_eq_true, beq_iff_eq, Int.natCast_eq_zero, List.length_eq_zero_iff] at he
        obtain ⟨rfl, e⟩ := he
        obtain ⟨s2, g⟩ := hL.writes data h1 pieces (by simpa using h2)
        rw [h3] at g
        cases g
        rw [e] at hne
        simp at hne
    have hni : st.needsInput = true → file ≠ [] := by
      rintro hn rfl
      simp only [ZstdD.needsInput, heof, Bool.and_eq_true, beq_iff_eq] at hn
      have : st.eof = true := by simp [ZstdD.eof, h4, hn.1]
      rw [heof] at this
      cases this
    refine ⟨hni, ?_⟩
    -- the piece written
    have key : ∀ chunk rest : Bytes, chunk ++ rest = file → (st.outputOffset = st.fout.length → chunk ≠ []) →
        ∃ st' o out', st.decompress chunk size = .ok (st', o) ∧ data.drop st.outputOffset = o ++ out' ∧ o.length ≤ size ∧
          ZstdHas st' rest out' ∧ (o = [] → st.outputOffset = st.fout.length) := by
      intro chunk rest hcr hc
      have h2' : (pieces ++ [chunk]).flatten ++ rest = L.compress data := by
        simp only [List.flatten_append, List.flatten_cons, List.flatten_nil, List.append_nil, List.append_assoc, hcr]
        exact h2
      obtain ⟨s1, g1⟩ := hL.writes data h1 (pieces ++ [chunk] ++ [rest]) (by simpa using h2')
      cases hw : L.writeAll L.init (pieces ++ [chunk]) with
      | error e =>
        rw [L.writeAll_append pieces h3] at hw
        rw [List.append_assoc, L.writeAll_append pieces h3] at g1
        cases hx : L.write st.dec chunk with
        | error e => simp [ZstdLib.writeAll, hx] at g1
        | ok p => simp [ZstdLib.writeAll, hx] at hw
      | ok p =>
        obtain ⟨s2, o2⟩ := p
        rw [L.writeAll_append _ hw] at g1
        have hpre : o2 <+: data := by
          cases hx : L.writeAll s2 [rest] with
          | error e => rw [hx] at g1; cases g1
          | ok p =>
            rw [hx] at g1
            simp only [Except.ok.injEq, Prod.mk.injEq] at g1
            exact ⟨_, g1.2⟩
        have hwrite : ∃ d, L.write st.dec chunk = .ok (s2, d) ∧ o2 = st.fout ++ d := by
          have hw' := hw
          rw [L.writeAll_append pieces h3, ZstdLib.writeAll_one] at hw'
          cases hx : L.write st.dec chunk with
          | error e => rw [hx] at hw'; cases hw'
          | ok p =>
            rw [hx] at hw'
            cases hw'
            exact ⟨_, rfl, rfl⟩
        obtain ⟨d, hx, rfl⟩ := hwrite
        obtain ⟨t, ht⟩ := hpre
        have hdrop : data.drop st.outputOffset = (st.fout ++ d).drop st.outputOffset ++ t := by
          rw [← ht, List.drop_append_of_le_length (by simp; omega)]
        refine ⟨⟨st.bytesLeft - chunk.length, st.outputOffset + (((st.fout ++ d).drop st.outputOffset).take size).length, st.fout ++ d, s2⟩,
          ((st.fout ++ d).drop st.outputOffset).take size, ((st.fout ++ d).drop st.outputOffset).drop size ++ t, ?_, ?_, by simp; omega, ?_, ?_⟩
        · simp only [ZstdD.decompress, heof, hx]
          rfl
        · rw [hdrop, ← List.append_assoc, List.take_append_drop]
        · refine ⟨data, pieces ++ [chunk], h1, h2', hw, ?_, ?_, ?_⟩
          · show st.bytesLeft - chunk.length = _
            rw [h4, ← hcr, List.length_append]
            omega
          · show st.outputOffset + (((st.fout ++ d).drop st.outputOffset).take size).length ≤ (st.fout ++ d).length
            have : st.outputOffset ≤ (st.fout ++ d).length := by rw [List.length_append]; omega
            rw [List.length_take, List.length_drop]
            omega
          · show data.drop (st.outputOffset + _) = _
            rw [← List.drop_drop, hdrop]
            generalize (st.fout ++ d).drop st.outputOffset = u
            rw [List.length_take]
            by_cases hsz : size ≤ u.length
            · rw [Nat.min_eq_left hsz, List.drop_append_of_le_length hsz]
            · rw [Nat.min_eq_right (by omega), List.drop_left, List.drop_eq_nil_of_le (by omega), List.nil_append]
        · intro ho
          have := congrArg List.length ho
          rw [List.length_take, List.length_drop, List.length_append, List.length_nil] at this
          omega
    by_cases hn : st.needsInput = true
    · have hf := hni hn
      obtain ⟨st', o, out', k1, k2, k3, k4, k5⟩ := key (file.take 4096) (file.drop 4096) (List.take_append_drop _ _) (by
        intro _ h
        simp at h
        exact hf h)
      refine ⟨st', o, out', ?_, k2, k3, ?_, ?_⟩
      · show st.decompress (if st.needsInput then _ else _) _ = _
        rw [if_pos hn]; exact k1
      · show ZstdHas st' (if st.needsInput then _ else _) _
        rw [if_pos hn]; exact k4
      · intro _
        show (if st.needsInput then file.drop 4096 else file).length < _
        have := List.length_pos_iff.2 hf
        rw [if_pos hn, List.length_drop]
        omega
    · have hoff : st.outputOffset ≠ st.fout.length := by
        intro h
        apply hn
        simp [ZstdD.needsInput, heof, h]
      obtain ⟨st', o, out', k1, k2, k3, k4, k5⟩ := key [] file rfl (fun h => absurd h hoff)
      refine ⟨st', o, out', ?_, k2, k3, ?_, fun ho => absurd (k5 ho) hoff⟩
      · show st.decompress (if st.needsInput then _ else _) _ = _
        rw [if_neg hn]; exact k1
      · show ZstdHas st' (if st.needsInput then _ else _) _
        rw [if_neg hn]; exact k4

theorem zstd_run (L : ZstdLib) (chunks : List Bytes) : (zstdCodec L).comp.run chunks = L.compress chunks.flatten := by
  have : ∀ (chunks s : List Bytes), Compressor.run.go (zstdCompressor L) s chunks = L.compress (s ++ chunks).flatten := by
    intro chunks
    induction chunks with
    | nil => intro s; simp [Compressor.run.go, zstdCompressor]
    | cons c cs ih =>
      intro s
      rw [run_go_cons (zstdCompressor L) (show (zstdCompressor L).compress s c = (s ++ [c], []) from rfl), ih]
      simp
  exact this chunks []

def zstdLossless {L : ZstdLib} (hL : L.Ok) : Lossless (zstdCodec L) where
  toDelivers := zstdDelivers hL
  init := by
    intro chunks hne
    rw [zstd_run]
    exact ⟨chunks.flatten, [], hne, rfl, rfl, rfl, Nat.le_refl _, rfl⟩

/-! ### lz4 -/

theorem lz4_run (L : Lz4Lib) (chunks : List Bytes) (h : chunks ≠ []) : (lz4Codec L).comp.run chunks = L.begin_ ++ L.comp.run chunks := by
  have after : ∀ (chunks : List Bytes) s, Compressor.run.go (lz4Compressor L) (none, s) chunks = Compressor.run.go L.comp s chunks := by
    intro chunks
    induction chunks with
    | nil => intro s; rfl
    | cons c cs ih =>
      intro s
      cases hc : L.comp.compress s c with
      | mk s' out =>
        rw [run_go_cons _ hc, run_go_cons (lz4Compressor L)
          (show (lz4Compressor L).compress (none, s) c = ((none, s'), out) by simp [lz4Compressor, hc]), ih]
  cases chunks with
  | nil => exact absurd rfl h
  | cons c cs =>
    show Compressor.run.go (lz4Compressor L) (lz4Compressor L).init (c :: cs) = _ ++ Compressor.run.go L.comp _ _
    cases hc : L.comp.compress L.comp.init c with
    | mk s' out =>
      rw [run_go_cons _ hc, run_go_cons (lz4Compressor L)
        (show (lz4Compressor L).compress (lz4Compressor L).init c = ((none, s'), L.begin_ ++ out) by simp [lz4Compressor, hc]), after]
      simp

def lz4Lossless {L : Lz4Lib} (hL : L.Ok) : Lossless (lz4Codec L) where
  toDelivers := hL.toDelivers
  init := by
    intro chunks hne
    rw [lz4_run L chunks (by rintro rfl; exact hne rfl)]
    exact hL.init chunks hne

end Detools
