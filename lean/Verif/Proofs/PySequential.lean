import Verif.Model.PySequential
import Verif.Proofs.Crle
import Verif.Proofs.Bsdiff
import Verif.Spec.Sequential

namespace Detools

theorem W.bind_eq (x : W α) (f : α → W β) : (x >>= f) = W.bind x f := rfl
theorem W.pure_eq (a : α) : (Pure.pure a : W α) = ⟨[], .ok a⟩ := rfl
@[simp] theorem W.lift_bind_ok (a : α) (f : α → W β) : (W.lift (.ok a) >>= f) = f a := by
  simp [W.bind_eq, W.bind, W.lift]
@[simp] theorem W.lift_bind_error (e : PyErr) (f : α → W β) : (W.lift (.error e) >>= f) = ⟨[], .error e⟩ := by
  simp [W.bind_eq, W.bind, W.lift]
@[simp] theorem W.mk_bind_ok (o : Bytes) (a : α) (f : α → W β) :
    ((⟨o, .ok a⟩ : W α) >>= f) = ⟨o ++ (f a).out, (f a).res⟩ := by
  simp [W.bind_eq, W.bind]
@[simp] theorem W.mk_bind_error (o : Bytes) (e : PyErr) (f : α → W β) :
    ((⟨o, .error e⟩ : W α) >>= f) = ⟨o, .error e⟩ := by
  simp [W.bind_eq, W.bind]
@[simp] theorem W.pure_bind (a : α) (f : α → W β) : (W.pure a >>= f) = f a := by
  simp [W.bind_eq, W.bind, W.pure]
@[simp] theorem W.write_bind (d : Bytes) (f : Unit → W β) :
    (W.write d >>= f) = ⟨d ++ (f ()).out, (f ()).res⟩ := by
  simp [W.bind_eq, W.bind, W.write]

/-- Bytewise addition modulo 256. -/
abbrev addMod (a b : Bytes) : Bytes := List.zipWith (· + ·) a b

/-- The remaining contents of the optional diff reader. -/
def dfRest (f : Option PyFile) : Option Bytes := f.map (fun f => f.data.drop f.pos)

/-- Adding the optional diff data. -/
def addDf (d : Option Bytes) (x : Bytes) : Bytes :=
  match d with
  | none => x
  | some d => addMod x d

def dropDf (d : Option Bytes) (n : Nat) : Option Bytes := d.map (List.drop n)
def enoughDf (d : Option Bytes) (n : Nat) : Prop := ∀ x, d = some x → n ≤ x.length

theorem PyFile.read_len (f : PyFile) (n : Nat) (h : f.pos + n ≤ f.data.length) :
    (f.read n).1 = (f.data.drop f.pos).take n ∧ (f.read n).1.length = n ∧
    (f.read n).2 = { f with pos := f.pos + n } := by
  have : ((f.data.drop f.pos).take n).length = n := by simp; omega
  refine ⟨rfl, this, ?_⟩
  simp only [PyFile.read]
  rw [this]

theorem zipWith_take_right (a b : Bytes) (n : Nat) (h : a.length ≤ n) :
    List.zipWith (· + ·) a (b.take n) = List.zipWith (· + ·) a b := by
  induction a generalizing b n with
  | nil => simp
  | cons x a ih =>
    cases b with
    | nil => simp
    | cons y b =>
      cases n with
      | zero => simp at h
      | succ n => simp at h ⊢; exact ih _ _ h

theorem zipWith_append_left (a b d : Bytes) (h : a.length ≤ d.length) :
    List.zipWith (· + ·) (a ++ b) d = List.zipWith (· + ·) a d ++ List.zipWith (· + ·) b (d.drop a.length) := by
  induction a generalizing d with
  | nil => simp
  | cons x a ih =>
    cases d with
    | nil => simp at h
    | cons y d => simp at h ⊢; exact ih _ h

theorem addDf_append (d : Option Bytes) (a b : Bytes) (h : enoughDf d a.length) :
    addDf d (a ++ b) = addDf d a ++ addDf (dropDf d a.length) b := by
  cases d with
  | none => rfl
  | some d => exact zipWith_append_left a b d (h d rfl)

theorem enoughDf_drop {d : Option Bytes} {n m : Nat} (h : enoughDf d (n + m)) : enoughDf (dropDf d n) m := by
  intro x hx
  cases d with
  | none => simp [dropDf] at hx
  | some d =>
    simp [dropDf] at hx; subst hx
    have := h d rfl
    simp; omega

theorem enoughDf_le {d : Option Bytes} {n m : Nat} (h : enoughDf d n) (hm : m ≤ n) : enoughDf d m := by
  intro x hx; have := h x hx; omega

theorem dropDf_drop (d : Option Bytes) (n m : Nat) : dropDf (dropDf d n) m = dropDf d (n + m) := by
  cases d <;> simp [dropDf]

theorem applyDfdiff_ok (f : Option PyFile) (x : Bytes) (h : enoughDf (dfRest f) x.length) :
    ∃ f', applyDfdiff f x x.length = .ok (addDf (dfRest f) x, f') ∧ dfRest f' = dropDf (dfRest f) x.length := by
  cases f with
  | none => exact ⟨none, rfl, rfl⟩
  | some f =>
    have h1 := h (f.data.drop f.pos) rfl
    simp at h1
    by_cases h2 : f.pos + x.length ≤ f.data.length
    · obtain ⟨e1, e2, e3⟩ := PyFile.read_len f x.length h2
      refine ⟨some { f with pos := f.pos + x.length }, ?_, ?_⟩
      · simp only [applyDfdiff, addBytes, e2]
        simp [e1, e3, bind, Except.bind, pure, Except.pure, dfRest, addDf, zipWith_take_right]
      · simp [dfRest, dropDf]
    · have hx : x = [] := by
        apply List.eq_nil_of_length_eq_zero; omega
      subst hx
      refine ⟨some f, ?_, by simp [dfRest, dropDf]⟩
      simp [applyDfdiff, PyFile.read, addBytes, bind, Except.bind, pure, Except.pure, dfRest, addDf, addMod]

/-- What one chunk loop writes. -/
def chunkOut (diff : Bool) (fr : Bytes) (pos : Nat) (dd : Option Bytes) (a : Bytes) : Bytes :=
  addDf dd (if diff then addMod a (fr.drop pos) else a)

theorem chunkLoop_ok {D : Decompressor} (L : Delivers D) (diff : Bool) (n : Nat) :
    ∀ (s : Streams D) (a b : Bytes), a.length = n → L.owes s.reader.st s.reader.file (a ++ b) →
    (diff = true → s.from_.pos + a.length ≤ s.from_.data.length) → enoughDf (dfRest s.dfdiff) a.length →
    ∃ F s', (∀ fuel, F ≤ fuel → chunkLoop diff fuel a.length s =
        ⟨chunkOut diff s.from_.data s.from_.pos (dfRest s.dfdiff) a, .ok s'⟩) ∧
      L.owes s'.reader.st s'.reader.file b ∧
      s'.from_ = { s.from_ with pos := s.from_.pos + if diff then a.length else 0 } ∧
      dfRest s'.dfdiff = dropDf (dfRest s.dfdiff) a.length := by
  induction n using Nat.strongRecOn with
  | _ n ih =>
  intro s a b hn hO hfrom hdf
  by_cases h0 : a.length = 0
  · have ha : a = [] := List.eq_nil_of_length_eq_zero h0
    subst ha
    refine ⟨0, s, ?_, by simpa using hO, by simp, by cases dfRest s.dfdiff <;> simp [dropDf]⟩
    intro fuel _
    have hpure : (W.pure s : W (Streams D)) = ⟨[], .ok s⟩ := rfl
    have hout : chunkOut diff s.from_.data s.from_.pos (dfRest s.dfdiff) [] = [] := by
      cases diff <;> cases hd : dfRest s.dfdiff <;> simp [chunkOut, addDf, addMod]
    rw [hout]
    cases fuel <;> simp [chunkLoop, hpure]
  · -- one chunk
    obtain ⟨c, hc⟩ : ∃ c, c = min a.length 4096 := ⟨_, rfl⟩
    have hc1 : 0 < c := by omega
    have hc2 : c ≤ a.length := by omega
    have hlc : (a.take c).length = c := by simp; omega
    have hO1 : L.owes s.reader.st s.reader.file (a.take c ++ (a.drop c ++ b)) := by
      rw [← List.append_assoc, List.take_append_drop]; exact hO
    obtain ⟨F1, r1, hr1, hOr1⟩ := PatchReader.read_ok L s.reader _ _ hO1
    rw [hlc] at hr1
    -- data after the from bytes
    have hfr : ∃ data from1, (if diff = true then
          (W.lift ((addBytes (a.take c) (s.from_.read c).1).map (·, (s.from_.read c).2)) : W (Bytes × PyFile))
        else W.pure (a.take c, s.from_)) = W.lift (.ok (data, from1)) ∧ data.length = c ∧
        data = (if diff then addMod (a.take c) (s.from_.data.drop s.from_.pos) else a.take c) ∧
        from1 = { s.from_ with pos := s.from_.pos + if diff then c else 0 } := by
      cases diff with
      | false => exact ⟨_, _, rfl, hlc, by simp, by simp⟩
      | true =>
        obtain ⟨e1, e2, e3⟩ := PyFile.read_len s.from_ c (by have := hfrom rfl; omega)
        refine ⟨addMod (a.take c) (s.from_.read c).1, (s.from_.read c).2, ?_, ?_, ?_, ?_⟩
        · simp only [if_true, addBytes, e2, hlc]
          simp [Except.map]
        · simp [addMod, e2]; omega
        · simp only [if_true, e1]
          exact zipWith_take_right _ _ _ (by omega)
        · simp [e3]
    obtain ⟨data, from1, hdat, hdl, hdeq, hfr1⟩ := hfr
    obtain ⟨f', hf1, hf2⟩ := applyDfdiff_ok s.dfdiff data (by rw [hdl]; exact enoughDf_le hdf hc2)
    rw [hdl] at hf1 hf2
    obtain ⟨F2, s2, hs2, hO2, hfrom2, hdf2⟩ := ih (a.length - c) (by omega)
      { reader := r1, from_ := from1, dfdiff := f' } (a.drop c) b (by simp) hOr1
      (by intro hd; have := hfrom hd; simp [hfr1, hd]; omega)
      (by simp only [hf2]; apply enoughDf_drop; simp; rw [Nat.add_sub_cancel' hc2]; exact hdf)
    simp only [List.length_drop] at hs2 hfrom2 hdf2
    refine ⟨max F1 F2 + 1, s2, ?_, hO2, ?_, ?_⟩
    · intro fuel hf
      obtain ⟨k, rfl⟩ : ∃ k, fuel = k + 1 := ⟨fuel - 1, by omega⟩
      rw [chunkLoop, if_neg h0, ← hc]
      simp only [hr1 k (by omega), W.lift_bind_ok]
      have hdat' := hdat
      cases diff with
      | false =>
        simp only [Bool.false_eq_true, if_false] at hdat' ⊢
        rw [hdat']
        simp only [W.lift_bind_ok, hf1, W.write_bind, hs2 k (by omega)]
        congr 1
        simp only [chunkOut, Bool.false_eq_true, if_false] at hdeq ⊢
        rw [hf2, hdeq]
        conv => rhs; rw [← List.take_append_drop c a]
        rw [addDf_append _ _ _ (by rw [hlc]; exact enoughDf_le hdf hc2), hlc]
      | true =>
        simp only [if_true] at hdat' ⊢
        rw [hdat']
        simp only [W.lift_bind_ok, hf1, W.write_bind, hs2 k (by omega)]
        congr 1
        simp only [chunkOut, if_true] at hdeq hfr1 ⊢
        rw [hf2, hfr1]
        have hle : (a.take c).length ≤ (s.from_.data.drop s.from_.pos).length := by
          have := hfrom rfl; simp; omega
        have hsp : addMod a (s.from_.data.drop s.from_.pos) =
            data ++ addMod (a.drop c) (s.from_.data.drop (s.from_.pos + c)) := by
          conv => lhs; rw [← List.take_append_drop c a]
          rw [addMod, zipWith_append_left _ _ _ hle, hlc, hdeq, List.drop_drop]
        rw [hsp, addDf_append _ _ _ (by rw [hdl]; exact enoughDf_le hdf hc2), hdl]
    · rw [hfrom2, hfr1]
      cases diff <;> simp; omega
    · rw [hdf2, hf2, dropDf_drop, Nat.add_sub_cancel' hc2]

/-- The result of one triple on streams. -/
theorem applyLoop_ok {D : Decompressor} (L : Delivers D) (ops : List Op) :
    ∀ (s : Streams D) (to : Bytes) (tail : Bytes) (pos : Nat) (toPos toSize : Int),
    Rebuilds s.from_.data pos ops to → s.from_.pos = pos →
    L.owes s.reader.st s.reader.file (encodeOps ops ++ tail) →
    toPos + to.length = toSize → enoughDf (dfRest s.dfdiff) to.length →
    ∃ F s', (∀ fuel, F ≤ fuel → applyLoop fuel toPos toSize s = ⟨addDf (dfRest s.dfdiff) to, .ok s'⟩) ∧
      L.owes s'.reader.st s'.reader.file tail := by
  induction ops with
  | nil =>
    intro s to tail pos toPos toSize hR hp hO hts hdf
    simp only [Rebuilds] at hR
    subst hR
    refine ⟨0, s, ?_, by simpa [encodeOps] using hO⟩
    intro fuel _
    simp at hts
    subst hts
    have : addDf (dfRest s.dfdiff) [] = [] := by cases dfRest s.dfdiff <;> simp [addDf, addMod]
    cases fuel <;> simp [applyLoop, this, W.pure]
  | cons op ops ih =>
    intro s to tail pos toPos toSize hR hp hO hts hdf
    obtain ⟨hne, h1, h2, h3, h4, rest, hto, hR'⟩ := hR
    have henc : encodeOps (op :: ops) ++ tail = packSize op.diff.length ++ (op.diff ++ (packSize op.extra.length ++
        (op.extra ++ (packSize op.adjustment ++ (encodeOps ops ++ tail))))) := by
      simp [encodeOps, Op.chunks]
    rw [henc] at hO
    simp only [Int.toNat_natCast] at hto
    have hzl : (List.zipWith (· + ·) op.diff (s.from_.data.drop pos)).length = op.diff.length := by
      simp; omega
    have htl : to.length = op.diff.length + op.extra.length + rest.length := by
      rw [hto]; simp only [List.length_append, hzl]
    have htp : 0 < to.length := List.length_pos_iff.2 hne
    -- diff
    obtain ⟨Fa, ra, hra, hOa⟩ := PatchReader.unpackSize_ok L s.reader _ _ hO
    obtain ⟨Fb, sb, hsb, hOb, hfb, hdb⟩ := chunkLoop_ok L true op.diff.length
      { s with reader := ra } op.diff _ rfl hOa (by intro _; simp only; omega) (enoughDf_le hdf (by omega))
    -- extra
    obtain ⟨Fc, rc, hrc, hOc⟩ := PatchReader.unpackSize_ok L sb.reader _ _ hOb
    obtain ⟨Fd, sd, hsd, hOd, hfd, hdd⟩ := chunkLoop_ok L false op.extra.length
      { sb with reader := rc } op.extra _ rfl hOc (by simp)
      (by simp only [hdb]; apply enoughDf_drop; exact enoughDf_le hdf (by omega))
    -- adjustment
    obtain ⟨Fe, re, hre, hOe⟩ := PatchReader.unpackSize_ok L sd.reader _ _ hOd
    have hsfrom : sd.from_ = { s.from_ with pos := s.from_.pos + op.diff.length } := by
      rw [hfd, hfb]; simp
    have hseek : sd.from_.seekCur op.adjustment =
        .ok { s.from_ with pos := ((pos : Int) + op.diff.length + op.adjustment).toNat } := by
      simp only [hsfrom, PyFile.seekCur, hp]
      rw [if_neg (by simp; omega)]
      simp
    have hdfs : dfRest sd.dfdiff = dropDf (dfRest s.dfdiff) (op.diff.length + op.extra.length) := by
      rw [hdd]; simp only [hdb]; rw [dropDf_drop]
    obtain ⟨Fg, sg, hsg, hOg⟩ := ih
      { sd with reader := re, from_ := { s.from_ with pos := ((pos : Int) + op.diff.length + op.adjustment).toNat } }
      rest tail ((pos : Int) + op.diff.length + op.adjustment).toNat
      (toPos + op.diff.length + op.extra.length) toSize
      (by simp only; rw [Int.toNat_of_nonneg (by omega)]; exact hR') rfl hOe (by omega)
      (by simp only [hdfs]; apply enoughDf_drop; exact enoughDf_le hdf (by omega))
    refine ⟨max Fa (max Fb (max Fc (max Fd (max Fe Fg)))) + 1, sg, ?_, hOg⟩
    intro fuel hf
    obtain ⟨k, rfl⟩ : ∃ k, fuel = k + 1 := ⟨fuel - 1, by omega⟩
    rw [applyLoop, if_pos (by omega)]
    simp only [processChunks, hra k (by omega), W.lift_bind_ok]
    rw [if_neg (by omega)]
    simp only [Int.toNat_natCast, hsb k (by omega), W.mk_bind_ok, W.pure_eq]
    simp only [hrc k (by omega), W.lift_bind_ok]
    rw [if_neg (by omega)]
    simp only [Int.toNat_natCast, hsd k (by omega), W.mk_bind_ok]
    simp only [hre k (by omega), W.lift_bind_ok, hseek, hsg k (by omega)]
    congr 1
    simp only [chunkOut, hdb, hdfs, if_true, Bool.false_eq_true, if_false, List.append_nil, hp]
    rw [hto, addDf_append _ _ _ (by apply enoughDf_le hdf; simp only [List.length_append, hzl]; omega),
      addDf_append _ _ _ (by rw [hzl]; apply enoughDf_le hdf; omega)]
    simp only [List.length_append, hzl, List.append_assoc]


theorem pyPackSize_nat (n : Nat) (h : n < 2 ^ 62) : pyPackSize n = .ok (packSize n) := by
  unfold pyPackSize
  split
  · omega
  · split
    · omega
    · rfl

theorem unpackHeader_packHeader (t c : Nat) (ht : t < 8) (hc : c < 16) :
    ∃ b, packHeader t c = [b] ∧ unpackHeader b = (t, c) ∧ b.toNat < 128 := by
  refine ⟨_, rfl, ?_, ?_⟩
  · have : ∀ t < 8, ∀ c < 16, unpackHeader (UInt8.ofNat (((t &&& 7) <<< 4) ||| (c &&& 15))) = (t, c) := by decide
    exact this t ht c hc
  · have : ∀ t < 8, ∀ c < 16, (UInt8.ofNat (((t &&& 7) <<< 4) ||| (c &&& 15))).toNat < 128 := by decide
    exact this t ht c hc

theorem convertCompression_toNumber (c : Compression) : convertCompression c.toNumber = .ok c := by
  cases c <;> rfl

theorem Compression.toNumber_lt (c : Compression) : c.toNumber < 16 := by cases c <;> decide

theorem readHeaderSequential_ok (c : Compression) (n : Nat) (body : Bytes) :
    readHeaderSequential (packHeader PATCH_TYPE_SEQUENTIAL c.toNumber ++ packSize n ++ body) =
      .ok (c, (n : Int), body) := by
  obtain ⟨b, h1, h2, _⟩ := unpackHeader_packHeader PATCH_TYPE_SEQUENTIAL c.toNumber (by decide) c.toNumber_lt
  rw [h1]
  simp [readHeaderSequential, h2, convertCompression_toNumber, bind, Except.bind, pure, Except.pure,
    unpackSize_packSize]

theorem createChunks_ok (lib : Lib) (hsa : SuffixArrayInRange lib.suffixArray) (fr to : Bytes)
    (hsz : fr.length + to.length < 2 ^ 31) :
    ∃ ops, createChunks lib fr to = .ok (ops.flatMap Op.chunks) ∧ Rebuilds fr 0 ops to ∧
      (∀ op ∈ ops, op.diff.length ≤ to.length ∧ op.extra.length ≤ to.length ∧ op.adjustment.natAbs ≤ fr.length) := by
  obtain ⟨ops, h1, h2, h3⟩ := createOps_some (lib.suffixArray fr) fr to (to.length + 1) (hsa fr).1 (hsa fr).2 (by omega) hsz
  refine ⟨ops, ?_, h2, ?_⟩
  · simp [createChunks, bsdiffCreatePatch, h1, liftUb]
  · intro op hop; have := h3 op hop; omega

/-- The part after the header, for a body owing the right bytes. -/
theorem applySequentialBody_ok (codec : PyCodec) (L : Delivers codec.decomp) (formats : Int → Option DataFormat)
    (from_ : PyFile) (rest to : Bytes) (s0 : Streams codec.decomp) (ops : List Op) (to' : Bytes)
    (F0 : Nat)
    (hfmt : ∀ fuel, F0 ≤ fuel → createDataFormatReaders formats fuel
      { st := codec.initDecomp rest.length, file := rest } from_ to.length = .ok s0)
    (hs0 : s0.from_.pos = 0) (hO : L.owes s0.reader.st s0.reader.file (encodeOps ops))
    (hR : Rebuilds s0.from_.data 0 ops to') (hl : to'.length = to.length)
    (hdf : enoughDf (dfRest s0.dfdiff) to'.length) (hadd : addDf (dfRest s0.dfdiff) to' = to) :
    ∃ F, ∀ fuel, F ≤ fuel → applySequentialBody codec formats fuel from_ rest to.length = ⟨to, .ok to.length⟩ := by
  obtain ⟨F, s', h1, h2⟩ := applyLoop_ok L ops s0 to' [] 0 0 to'.length hR hs0 (by simpa using hO) (by simp) hdf
  refine ⟨max F F0, ?_⟩
  intro fuel hf
  simp only [applySequentialBody, hfmt fuel (by omega), W.lift_bind_ok]
  rw [← hl, h1 fuel (by omega)]
  have he := (L.eof_iff h2).2 rfl
  simp [he, W.pure_eq, hadd]

theorem sequential_roundtrip (lib : Lib) (hsa : SuffixArrayInRange lib.suffixArray)
    (formats : Int → Option DataFormat) (c : Compression) (L : Lossless (lib.codecOf c))
    (fmt : Option DataFormat) (fr to : Bytes) (clamp : Bool) (hto : fr.length + to.length < 2 ^ 31)
    (hfmt : ∀ f, fmt = some f → f.number < 2 ^ 62 ∧ ReadsFormat formats f ∧ f.LosslessOn fr to) :
    ∃ patch, createSequential lib c fmt fr to = .ok patch ∧
      ∃ F, ∀ fuel, F ≤ fuel →
        applySequential lib formats fuel { data := fr, pos := 0, clampSeek := clamp } patch =
          ⟨to, .ok to.length⟩ := by
  by_cases h0 : to.length = 0
  · have : to = [] := List.eq_nil_of_length_eq_zero h0
    subst this
    refine ⟨packHeader PATCH_TYPE_SEQUENTIAL c.toNumber ++ packSize (0 : Nat) ++ [], ?_, 0, ?_⟩
    · simp [createSequential, createSequentialData, pyPackSize, bind, Except.bind, pure, Except.pure]
    · intro fuel _
      rw [applySequential, readHeaderSequential_ok]
      simp [W.pure_eq]
  · have hcat : ∀ a (ops : List Op), (a :: ops.flatMap Op.chunks).flatten = a ++ encodeOps ops := by
      intro a ops; simp [encodeOps]
    cases fmt with
    | none =>
      obtain ⟨ops, h1, h2, h3⟩ := createChunks_ok lib hsa fr to hto
      obtain ⟨body, hb⟩ : ∃ body, body = (lib.codecOf c).comp.run (packSize 0 :: ops.flatMap Op.chunks) := ⟨_, rfl⟩
      refine ⟨packHeader PATCH_TYPE_SEQUENTIAL c.toNumber ++ packSize (to.length : Nat) ++ body, ?_, ?_⟩
      · simp only [createSequential, pyPackSize_nat to.length (by omega), createSequentialData, h0, if_false]
        have := pyPackSize_nat 0 (by decide)
        simp only [Int.natCast_zero] at this
        simp [this, h1, bind, Except.bind, pure, Except.pure, hb]
      · have hO := L.init (packSize 0 :: ops.flatMap Op.chunks) (by
          rw [hcat]; simp [packSize_ne_nil])
        rw [hcat, ← hb] at hO
        obtain ⟨F1, r1, hr1, hO1⟩ := PatchReader.unpackSize_ok L.toDelivers
          { st := (lib.codecOf c).initDecomp body.length, file := body } 0 (encodeOps ops) hO
        obtain ⟨F, hF⟩ := applySequentialBody_ok (lib.codecOf c) L.toDelivers formats
          { data := fr, pos := 0, clampSeek := clamp } body to
          { reader := r1, from_ := { data := fr, pos := 0, clampSeek := clamp }, dfdiff := none } ops to F1
          (by intro fuel hf; simp [createDataFormatReaders, hr1 fuel hf, bind, Except.bind, pure, Except.pure])
          rfl hO1 h2 rfl (by intro x hx; simp [dfRest] at hx) rfl
        refine ⟨F, ?_⟩
        intro fuel hf
        rw [applySequential, readHeaderSequential_ok]
        simp only [W.lift_bind_ok]
        rw [if_neg (by omega), hF fuel hf]
    | some f =>
      obtain ⟨hnum, ⟨g, hlook, hgr⟩, fr', to', dfpatch, dfd, henc, hfl, htl, hpne, hpl, hrd, hdl, hz⟩ := hfmt f rfl
      rw [← hgr] at hrd
      obtain ⟨ops, h1, h2, h3⟩ := createChunks_ok lib hsa fr' to' (by omega)
      obtain ⟨hd, hhd⟩ : ∃ hd, hd = packSize dfpatch.length ++ packSize f.number ++ dfpatch := ⟨_, rfl⟩
      obtain ⟨body, hb⟩ : ∃ body, body = (lib.codecOf c).comp.run (hd :: ops.flatMap Op.chunks) := ⟨_, rfl⟩
      refine ⟨packHeader PATCH_TYPE_SEQUENTIAL c.toNumber ++ packSize (to.length : Nat) ++ body, ?_, ?_⟩
      · simp only [createSequential, pyPackSize_nat to.length (by omega), createSequentialData, h0, if_false, henc]
        simp [pyPackSize_nat _ hpl, pyPackSize_nat _ hnum, h1, bind, Except.bind, pure, Except.pure, hb, hhd]
      · have hO := L.init (hd :: ops.flatMap Op.chunks) (by
          rw [hcat, hhd]; simp [packSize_ne_nil])
        rw [hcat, ← hb, hhd, List.append_assoc, List.append_assoc] at hO
        obtain ⟨F1, r1, hr1, hO1⟩ := PatchReader.unpackSize_ok L.toDelivers
          { st := (lib.codecOf c).initDecomp body.length, file := body } _ _ hO
        obtain ⟨F2, r2, hr2, hO2⟩ := PatchReader.unpackSize_ok L.toDelivers r1 _ _ hO1
        obtain ⟨F3, r3, hr3, hO3⟩ := PatchReader.read_ok L.toDelivers r2 _ _ hO2
        have hpp : 0 < dfpatch.length := List.length_pos_iff.2 hpne
        obtain ⟨F, hF⟩ := applySequentialBody_ok (lib.codecOf c) L.toDelivers formats
          { data := fr, pos := 0, clampSeek := clamp } body to
          { reader := r3, from_ := { data := fr', pos := 0, clampSeek := true },
            dfdiff := some { data := dfd, pos := 0, clampSeek := true } } ops to' (max F1 (max F2 F3))
          (by
            intro fuel hf
            simp only [createDataFormatReaders, hr1 fuel (by omega), bind, Except.bind]
            rw [if_pos (by omega)]
            simp [hr2 fuel (by omega), hr3 fuel (by omega), hlook, hrd, pure, Except.pure])
          rfl hO3 h2 htl (by intro x hx; simp [dfRest] at hx; subst hx; omega)
          (by simpa [dfRest, addDf] using hz)
        refine ⟨F, ?_⟩
        intro fuel hf
        rw [applySequential, readHeaderSequential_ok]
        simp only [W.lift_bind_ok]
        rw [if_neg (by omega), hF fuel hf]

end Detools
