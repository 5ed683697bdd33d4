import Verif.Spec.Containers
import Verif.Proofs.PySequential
import Verif.Proofs.Crle

namespace Detools

/-! ### Integers -/

theorem leBytes_length (n v : Nat) : (leBytes n v).length = n := by
  induction n generalizing v with
  | zero => rfl
  | succ n ih => simp [leBytes, ih]

theorem leValue_leBytes (n v : Nat) : leValue (leBytes n v) = v % 256 ^ n := by
  induction n generalizing v with
  | zero => simp [leBytes, leValue, Nat.mod_one]
  | succ n ih =>
    simp only [leBytes, leValue, ih]
    have : (UInt8.ofNat (v % 256)).toNat = v % 256 := by
      simp [UInt8.toNat_ofNat']
    rw [this, Nat.pow_succ, Nat.mul_comm (256 ^ n) 256, Nat.mod_mul]

theorem offtout_ok (x : Int) (h : x.natAbs < 2 ^ 63) :
    ∃ bs, offtout x = .ok bs ∧ bs.length = 8 ∧ offtin bs = .ok x := by
  unfold offtout
  by_cases hx : x < 0
  · have hor : x.natAbs ||| 2 ^ 63 = 2 ^ 63 + x.natAbs := by
      have := Nat.two_pow_add_eq_or_of_lt h 1
      rw [Nat.or_comm, ← Nat.mul_one (2 ^ 63), ← this]
    simp only [hx, if_true, hor]
    rw [if_neg (by omega)]
    refine ⟨_, rfl, leBytes_length _ _, ?_⟩
    unfold offtin
    rw [if_neg (by simp [leBytes_length])]
    simp only [leValue_leBytes]
    have e : (2 ^ 63 + x.natAbs) % 256 ^ 8 = 2 ^ 63 + x.natAbs := Nat.mod_eq_of_lt (by omega)
    rw [e, if_pos (by omega)]
    have e' : -(((2 ^ 63 + x.natAbs - 2 ^ 63 : Nat)) : Int) = x := by omega
    exact congrArg Except.ok e'
  · simp only [hx, if_false]
    rw [if_neg (by omega)]
    refine ⟨_, rfl, leBytes_length _ _, ?_⟩
    unfold offtin
    rw [if_neg (by simp [leBytes_length])]
    simp only [leValue_leBytes]
    have e : x.natAbs % 256 ^ 8 = x.natAbs := Nat.mod_eq_of_lt (by omega)
    rw [e, if_neg (by omega)]
    have e' : ((x.natAbs : Nat) : Int) = x := by omega
    exact congrArg Except.ok e'

theorem offtout_eq (x : Int) (h : x.natAbs < 2 ^ 63) : offtout x = .ok (off8 x) := by
  unfold offtout off8
  have hlt : (if x < 0 then x.natAbs ||| 2 ^ 63 else x.natAbs) < 2 ^ 64 := by
    split
    · exact Nat.or_lt_two_pow (by omega) (by omega)
    · omega
  exact if_neg (Nat.not_le.2 hlt)

theorem off8_length (x : Int) : (off8 x).length = 8 := leBytes_length _ _

theorem offtin_off8 (x : Int) (h : x.natAbs < 2 ^ 63) : offtin (off8 x) = .ok x := by
  obtain ⟨bs, h1, _, h3⟩ := offtout_ok x h
  rw [offtout_eq x h] at h1
  cases h1
  exact h3

/-! ### BSDIFF40 -/

theorem sizeChunk_packSize (v : Int) (h : v.natAbs < 2 ^ 63) : sizeChunk (packSize v) = .ok (off8 v) := by
  have := unpackSize_packSize v []
  rw [List.append_nil] at this
  simp [sizeChunk, this, bind, Except.bind, offtout_eq v h]

theorem bsdiffSplit_ok (ops : List Op) (h : ∀ op ∈ ops, op.Fits) :
    bsdiffSplit (ops.flatMap Op.chunks) = .ok (ops.flatMap Op.ctrl, ops.map Op.diff, ops.map Op.extra) := by
  induction ops with
  | nil => rfl
  | cons op ops ih =>
    obtain ⟨h1, h2, h3⟩ := h op (by simp)
    have := ih (fun o ho => h o (by simp [ho]))
    simp only [List.flatMap_cons, Op.chunks, List.cons_append, List.nil_append, bsdiffSplit]
    rw [sizeChunk_packSize _ (by simpa using h1), sizeChunk_packSize _ (by simpa using h2), sizeChunk_packSize _ h3, this]
    rfl

theorem readCtrl_ok {C : PyCodec} (S : WholeStream C) {st : C.decomp.σ} {v : Int} {rest : Bytes} (h : v.natAbs < 2 ^ 63)
    (hO : S.owes st (off8 v ++ rest)) : ∃ st', readCtrl st = .ok (v, st') ∧ S.owes st' rest := by
  obtain ⟨st', h1, h2⟩ := S.read hO (by intro e; have := off8_length v; rw [e] at this; cases this)
  rw [off8_length] at h1
  exact ⟨st', by simp [readCtrl, h1, bind, Except.bind, pure, Except.pure, offtin_off8 v h], h2⟩

theorem bsdiffDiff_ok {C : PyCodec} (S : WholeStream C) (s : BsdiffStreams C.decomp) (toPos toSize : Int) (a b : Bytes)
    (hle : toPos + a.length ≤ toSize) (hO : S.owes s.diff (a ++ b)) (hfr : s.from_.pos + a.length ≤ s.from_.data.length) :
    ∃ d, bsdiffDiff s toPos toSize a.length = ⟨List.zipWith (· + ·) a (s.from_.data.drop s.from_.pos),
        .ok (toPos + a.length, { s with diff := d, from_ := { s.from_ with pos := s.from_.pos + a.length } })⟩ ∧ S.owes d b := by
  unfold bsdiffDiff
  rw [if_neg (by omega)]
  by_cases h : a = []
  · subst h
    exact ⟨s.diff, by simp [W.pure], hO⟩
  · have hp : 0 < a.length := List.length_pos_iff.2 h
    obtain ⟨d, h1, h2⟩ := S.read hO h
    obtain ⟨e1, e2, e3⟩ := PyFile.read_len s.from_ a.length hfr
    refine ⟨d, ?_, h2⟩
    rw [if_pos (by omega)]
    simp only [Int.toNat_natCast, h1, W.lift_bind_ok, addBytes, e2]
    simp only [ne_eq, not_true, if_false, W.lift_bind_ok, W.write_bind, W.pure_eq, e1, e3, List.append_nil]
    rw [zipWith_take_right _ _ _ (Nat.le_refl _)]

theorem bsdiffExtra_ok {C : PyCodec} (S : WholeStream C) (s : BsdiffStreams C.decomp) (toPos toSize : Int) (a b : Bytes)
    (hle : toPos + a.length ≤ toSize) (hO : S.owes s.extra (a ++ b)) :
    ∃ d, bsdiffExtra s toPos toSize a.length = ⟨a, .ok (toPos + a.length, { s with extra := d })⟩ ∧ S.owes d b := by
  unfold bsdiffExtra
  rw [if_neg (by omega)]
  by_cases h : a = []
  · subst h
    exact ⟨s.extra, by simp [W.pure], hO⟩
  · have hp : 0 < a.length := List.length_pos_iff.2 h
    obtain ⟨d, h1, h2⟩ := S.read hO h
    refine ⟨d, ?_, h2⟩
    rw [if_pos (by omega)]
    simp only [Int.toNat_natCast, h1, W.lift_bind_ok, W.write_bind, W.pure_eq, List.append_nil]

theorem bsdiffLoop_ok {C : PyCodec} (S : WholeStream C) (ops : List Op) :
    ∀ (s : BsdiffStreams C.decomp) (to : Bytes) (pos : Nat) (toPos toSize : Int) (x y z : Bytes),
    (∀ op ∈ ops, op.Fits) → Rebuilds s.from_.data pos ops to → s.from_.pos = pos →
    S.owes s.ctrl ((ops.flatMap Op.ctrl).flatten ++ x) → S.owes s.diff ((ops.map Op.diff).flatten ++ y) →
    S.owes s.extra ((ops.map Op.extra).flatten ++ z) →
    toPos + to.length = toSize →
    ∃ s', (∀ fuel, ops.length ≤ fuel → bsdiffLoop fuel toPos toSize s = ⟨to, .ok s'⟩) ∧
      S.owes s'.ctrl x ∧ S.owes s'.diff y ∧ S.owes s'.extra z := by
  induction ops with
  | nil =>
    intro s to pos toPos toSize x y z _ hR _ h1 h2 h3 hts
    simp only [Rebuilds] at hR
    subst hR
    refine ⟨s, ?_, h1, h2, h3⟩
    intro fuel _
    simp at hts
    subst hts
    cases fuel <;> simp [bsdiffLoop, W.pure]
  | cons op ops ih =>
    intro s to pos toPos toSize x y z hfit hR hp o1 o2 o3 hts
    obtain ⟨f1, f2, f3⟩ := hfit op (by simp)
    obtain ⟨hne, h1, h2, h3, h4, rest, hto, hR'⟩ := hR
    simp only [Int.toNat_natCast] at hto
    have hzl : (List.zipWith (· + ·) op.diff (s.from_.data.drop pos)).length = op.diff.length := by
      simp; omega
    have htl : to.length = op.diff.length + op.extra.length + rest.length := by
      rw [hto]; simp only [List.length_append, hzl]
    have htp : 0 < to.length := List.length_pos_iff.2 hne
    simp only [List.flatMap_cons, Op.ctrl, List.cons_append, List.nil_append, List.flatten_cons, List.append_assoc] at o1
    obtain ⟨c1, k1, q1⟩ := readCtrl_ok S (by simpa using f1) o1
    obtain ⟨c2, k2, q2⟩ := readCtrl_ok S (by simpa using f2) q1
    obtain ⟨c3, k3, q3⟩ := readCtrl_ok S f3 q2
    simp only [List.map_cons, List.flatten_cons, List.append_assoc] at o2 o3
    obtain ⟨d, hd, od⟩ := bsdiffDiff_ok S { s with ctrl := c3 } toPos toSize op.diff _ (by omega) o2 (by simp only; omega)
    obtain ⟨e, he, oe⟩ := bsdiffExtra_ok S { ctrl := c3, diff := d, extra := s.extra, from_ := { s.from_ with pos := s.from_.pos + op.diff.length } }
      (toPos + op.diff.length) toSize op.extra _ (by omega) o3
    have hseek : PyFile.seekCur { s.from_ with pos := s.from_.pos + op.diff.length } op.adjustment =
        .ok { s.from_ with pos := ((pos : Int) + op.diff.length + op.adjustment).toNat } := by
      simp only [PyFile.seekCur, hp]
      rw [if_neg (by simp; omega)]
      simp
    obtain ⟨s', hs', t1, t2, t3⟩ := ih
      { ctrl := c3, diff := d, extra := e, from_ := { s.from_ with pos := ((pos : Int) + op.diff.length + op.adjustment).toNat } }
      rest ((pos : Int) + op.diff.length + op.adjustment).toNat
      (toPos + op.diff.length + op.extra.length) toSize x y z (fun o ho => hfit o (by simp [ho]))
      (by simp only; rw [Int.toNat_of_nonneg (by omega)]; exact hR') rfl q3 od oe (by omega)
    refine ⟨s', ?_, t1, t2, t3⟩
    intro fuel hf
    obtain ⟨k, rfl⟩ : ∃ k, fuel = k + 1 := ⟨fuel - 1, by simp at hf; omega⟩
    rw [bsdiffLoop, if_pos (by omega)]
    simp only [k1, k2, k3, W.lift_bind_ok, hd, W.mk_bind_ok, he, hseek, hs' k (by simp at hf; omega)]
    congr 1
    rw [hto, hp]
    simp

theorem bsdiff_created (lib : Lib) (hsa : SuffixArrayInRange lib.suffixArray) (fr to : Bytes)
    (hsz : fr.length + to.length < 2 ^ 31) :
    ∃ ops, Rebuilds fr 0 ops to ∧ (∀ op ∈ ops, op.Fits) ∧
      createBsdiff lib fr to = (do
        let a ← offtout ((lib.codecOf .bz2).comp.run (ops.flatMap Op.ctrl)).length
        let b ← offtout ((lib.codecOf .bz2).comp.run (ops.map Op.diff)).length
        return bsdiffMagic ++ a ++ b ++ off8 to.length ++ (lib.codecOf .bz2).comp.run (ops.flatMap Op.ctrl) ++
          (lib.codecOf .bz2).comp.run (ops.map Op.diff) ++ (lib.codecOf .bz2).comp.run (ops.map Op.extra)) := by
  obtain ⟨ops, h1, h2, h3⟩ := createChunks_ok lib hsa fr to hsz
  have hfit : ∀ op ∈ ops, op.Fits := by
    intro op ho
    obtain ⟨a, b, c⟩ := h3 op ho
    exact ⟨by omega, by omega, by omega⟩
  refine ⟨ops, h2, hfit, ?_⟩
  unfold createBsdiff
  rw [h1]
  simp only [bind, Except.bind, bsdiffSplit_ok ops hfit, offtout_eq (to.length : Int) (by omega), pure, Except.pure]

theorem readHeaderBsdiff_ok (a b c : Int) (rest : Bytes) (ha : a.natAbs < 2 ^ 63) (hb : b.natAbs < 2 ^ 63) (hc : c.natAbs < 2 ^ 63) :
    readHeaderBsdiff (bsdiffMagic ++ off8 a ++ off8 b ++ off8 c ++ rest) = .ok (a, b, c, rest) := by
  have l := off8_length
  have hm : bsdiffMagic.length = 8 := rfl
  have e1 : (bsdiffMagic ++ off8 a ++ off8 b ++ off8 c ++ rest).take 8 = bsdiffMagic := by
    simp [List.take_append, hm]
  have e2 : ((bsdiffMagic ++ off8 a ++ off8 b ++ off8 c ++ rest).drop 8).take 8 = off8 a := by
    rw [show bsdiffMagic ++ off8 a ++ off8 b ++ off8 c ++ rest = bsdiffMagic ++ (off8 a ++ (off8 b ++ off8 c ++ rest)) by simp,
      List.drop_left' hm, List.take_left' (l a)]
  have e3 : ((bsdiffMagic ++ off8 a ++ off8 b ++ off8 c ++ rest).drop 16).take 8 = off8 b := by
    rw [show bsdiffMagic ++ off8 a ++ off8 b ++ off8 c ++ rest = (bsdiffMagic ++ off8 a) ++ (off8 b ++ (off8 c ++ rest)) by simp,
      List.drop_left' (by simp [hm, l]), List.take_left' (l b)]
  have e4 : ((bsdiffMagic ++ off8 a ++ off8 b ++ off8 c ++ rest).drop 24).take 8 = off8 c := by
    rw [show bsdiffMagic ++ off8 a ++ off8 b ++ off8 c ++ rest = (bsdiffMagic ++ off8 a ++ off8 b) ++ (off8 c ++ rest) by simp,
      List.drop_left' (by simp [hm, l]), List.take_left' (l c)]
  have e5 : (bsdiffMagic ++ off8 a ++ off8 b ++ off8 c ++ rest).drop 32 = rest :=
    List.drop_left' (by simp [hm, l])
  unfold readHeaderBsdiff
  rw [e1, e2, e3, e4, e5]
  simp [offtin_off8, ha, hb, hc, bind, Except.bind, pure, Except.pure]

theorem bsdiff_streams (lib : Lib) (S : WholeStream (lib.codecOf .bz2)) (fr to : Bytes) (clamp : Bool) (ops : List Op)
    (hfit : ∀ op ∈ ops, op.Fits) (hR : Rebuilds fr 0 ops to) (hto : to.length < 2 ^ 63) (ctrl diff extra : List Bytes) (x y z : Bytes)
    (h1 : ctrl.flatten = (ops.flatMap Op.ctrl).flatten ++ x) (h2 : diff.flatten = (ops.map Op.diff).flatten ++ y)
    (h3 : extra.flatten = (ops.map Op.extra).flatten ++ z)
    (hA : ((lib.codecOf .bz2).comp.run ctrl).length < 2 ^ 63) (hB : ((lib.codecOf .bz2).comp.run diff).length < 2 ^ 63) :
    ∃ F, ∀ fuel, F ≤ fuel →
      applyBsdiff lib fuel { data := fr, pos := 0, clampSeek := clamp } (bsdiffFile (lib.codecOf .bz2) to.length ctrl diff extra) =
        ⟨to, if x ≠ [] then .error (.error "End of control data not found.")
          else if y ≠ [] then .error (.error "End of diff data not found.")
          else if z ≠ [] then .error (.error "End of extra data not found.") else .ok to.length⟩ := by
  obtain ⟨sc, c1, c2⟩ := S.start ctrl
  obtain ⟨sd, d1, d2⟩ := S.start diff
  obtain ⟨se, e1, e2⟩ := S.start extra
  rw [h1] at c2
  rw [h2] at d2
  rw [h3] at e2
  unfold bsdiffFile
  rw [show magic40 = bsdiffMagic by decide +kernel]
  generalize (lib.codecOf .bz2).comp.run ctrl = A at hA c1
  generalize (lib.codecOf .bz2).comp.run diff = B at hB d1
  generalize (lib.codecOf .bz2).comp.run extra = D at e1
  obtain ⟨s', hs', t1, t2, t3⟩ := bsdiffLoop_ok S ops
    { ctrl := sc, diff := sd, extra := se, from_ := { data := fr, pos := 0, clampSeek := clamp } } to 0 0 to.length x y z hfit hR rfl c2 d2 e2 (by simp)
  refine ⟨ops.length, fun fuel hf => ?_⟩
  have hh : readHeaderBsdiff (bsdiffMagic ++ off8 A.length ++ off8 B.length ++ off8 to.length ++ A ++ B ++ D) =
      .ok ((A.length : Int), (B.length : Int), (to.length : Int), A ++ B ++ D) := by
    rw [List.append_assoc _ A B, List.append_assoc _ (A ++ B) D]
    exact readHeaderBsdiff_ok _ _ _ _ (by simpa using hA) (by simpa using hB) (by simpa using hto)
  unfold applyBsdiff
  rw [hh]
  have r1 : readInt (A ++ B ++ D) (A.length : Int) = (A, B ++ D) := by
    unfold readInt
    rw [if_neg (by omega), Int.toNat_natCast, List.append_assoc, List.take_left, List.drop_left]
  have r2 : readInt (B ++ D) (B.length : Int) = (B, D) := by
    unfold readInt
    rw [if_neg (by omega), Int.toNat_natCast, List.take_left, List.drop_left]
  simp only [W.lift_bind_ok, r1, r2, c1, d1, e1, hs' fuel hf, W.mk_bind_ok]
  have i1 := S.eof_iff t1
  have i2 := S.eof_iff t2
  have i3 := S.eof_iff t3
  simp only [i1, i2, i3]
  by_cases hx : x = []
  · by_cases hy : y = []
    · by_cases hz : z = [] <;> simp [hx, hy, hz, W.pure_eq, W.lift]
    · simp [hx, hy, W.lift]
  · simp [hx, W.lift]

theorem bsdiff_roundtrip (lib : Lib) (hsa : SuffixArrayInRange lib.suffixArray) (S : WholeStream (lib.codecOf .bz2))
    (fr to patch : Bytes) (clamp : Bool) (hsz : fr.length + to.length < 2 ^ 31)
    (hcreate : createBsdiff lib fr to = .ok patch) (hp : patch.length < 2 ^ 63) :
    ∃ F, ∀ fuel, F ≤ fuel →
      applyBsdiff lib fuel { data := fr, pos := 0, clampSeek := clamp } patch = ⟨to, .ok to.length⟩ := by
  obtain ⟨ops, hR, hfit, hc⟩ := bsdiff_created lib hsa fr to hsz
  rw [hcreate] at hc
  have hAB : ((lib.codecOf .bz2).comp.run (ops.flatMap Op.ctrl)).length < 2 ^ 63 ∧ ((lib.codecOf .bz2).comp.run (ops.map Op.diff)).length < 2 ^ 63 := by
    generalize (lib.codecOf .bz2).comp.run (ops.flatMap Op.ctrl) = A at hc
    generalize (lib.codecOf .bz2).comp.run (ops.map Op.diff) = B at hc
    cases ha : offtout A.length with
    | error e => rw [ha] at hc; cases hc
    | ok a =>
      cases hb : offtout B.length with
      | error e => rw [ha, hb] at hc; cases hc
      | ok b =>
        rw [ha, hb] at hc
        simp only [bind, Except.bind, pure, Except.pure, Except.ok.injEq] at hc
        rw [hc] at hp
        simp only [List.length_append] at hp
        omega
  rw [offtout_eq _ (by simpa using hAB.1), offtout_eq _ (by simpa using hAB.2)] at hc
  simp only [bind, Except.bind, pure, Except.pure, Except.ok.injEq] at hc
  obtain ⟨F, hF⟩ := bsdiff_streams lib S fr to clamp ops hfit hR (by omega) (ops.flatMap Op.ctrl) (ops.map Op.diff) (ops.map Op.extra) [] [] []
    (by simp) (by simp) (by simp) hAB.1 hAB.2
  refine ⟨F, fun fuel hf => ?_⟩
  have := hF fuel hf
  rw [hc]
  simpa [bsdiffFile, show magic40 = bsdiffMagic by decide +kernel] using this

/-! ### hdiffpatch -/

theorem pyPackSize_eq {v : Int} {p : Bytes} (h : pyPackSize v = .ok p) : p = packSize v := by
  unfold pyPackSize at h
  split at h
  · cases h
  · split at h
    · cases h
    · cases h; rfl

theorem readHeaderHdiffpatch_ok (c : Compression) (n m : Int) (body : Bytes) :
    readHeaderHdiffpatch (packHeader PATCH_TYPE_HDIFFPATCH c.toNumber ++ packSize n ++ packSize m ++ body) =
      .ok (c, n, m, body) := by
  obtain ⟨b, h1, h2, _⟩ := unpackHeader_packHeader PATCH_TYPE_HDIFFPATCH c.toNumber (by decide) c.toNumber_lt
  rw [h1]
  simp [readHeaderHdiffpatch, h2, convertCompression_toNumber, bind, Except.bind, pure, Except.pure,
    unpackSize_packSize]

theorem hdiffpatch_read (lib : Lib) (c : Compression) (L : Lossless (lib.codecOf c)) (patch : Bytes) :
    ∃ F r, ∀ fuel, F ≤ fuel → PatchReader.read fuel
      ({ st := (lib.codecOf c).initDecomp ((lib.codecOf c).comp.run [patch]).length, file := (lib.codecOf c).comp.run [patch] } : PatchReader (lib.codecOf c).decomp)
      patch.length = .ok (patch, r) := by
  by_cases hp : patch = []
  · refine ⟨0, { st := (lib.codecOf c).initDecomp ((lib.codecOf c).comp.run [patch]).length, file := (lib.codecOf c).comp.run [patch] }, fun fuel _ => ?_⟩
    subst hp
    unfold PatchReader.read
    rw [PatchReader.loop_zero _ _ _ _ (by simp)]
  · have hO := L.init [patch] (by simpa using hp)
    obtain ⟨F, r, h1, _⟩ := PatchReader.read_ok L.toDelivers
      { st := (lib.codecOf c).initDecomp ((lib.codecOf c).comp.run [patch]).length, file := (lib.codecOf c).comp.run [patch] }
      patch [] (by simpa using hO)
    exact ⟨F, r, h1⟩

theorem applyHdiffpatch_ok (lib : Lib) (h : HDiff) (c : Compression) (L : Lossless (lib.codecOf c)) (fr to patch : Bytes) (clamp : Bool)
    (ha : h.apply fr patch = .ok to) :
    ∃ F, ∀ fuel, F ≤ fuel → applyHdiffpatch lib h fuel { data := fr, pos := 0, clampSeek := clamp }
      (packHeader PATCH_TYPE_HDIFFPATCH c.toNumber ++ packSize to.length ++ packSize patch.length ++ (lib.codecOf c).comp.run [patch]) =
      ⟨to, .ok to.length⟩ := by
  by_cases h0 : to = []
  · subst h0
    refine ⟨0, fun fuel _ => ?_⟩
    unfold applyHdiffpatch
    rw [readHeaderHdiffpatch_ok]
    simp [W.pure_eq]
  · obtain ⟨F, r, hr⟩ := hdiffpatch_read lib c L patch
    refine ⟨F, fun fuel hf => ?_⟩
    have hl : ¬ ((to.length : Int) = 0) := by
      have : 0 < to.length := List.length_pos_iff.2 h0
      omega
    unfold applyHdiffpatch
    rw [readHeaderHdiffpatch_ok]
    simp only [W.lift_bind_ok, hl, if_false, Int.toNat_natCast, hr fuel hf, ha, W.write_bind, W.pure_eq, List.append_nil]

/-- What the application does with a patch of to-data that is not empty, for any from-data: it
is what the extension module does with the patch. -/
theorem applyHdiffpatch_any (lib : Lib) (h : HDiff) (c : Compression) (L : Lossless (lib.codecOf c)) (to patch : Bytes) (h0 : to ≠ []) :
    ∃ F, ∀ fuel, F ≤ fuel → ∀ from_, applyHdiffpatch lib h fuel from_
      (packHeader PATCH_TYPE_HDIFFPATCH c.toNumber ++ packSize to.length ++ packSize patch.length ++ (lib.codecOf c).comp.run [patch]) =
      match h.apply from_.data patch with
      | .ok out => ⟨out, .ok out.length⟩
      | .error e => ⟨[], .error e⟩ := by
  obtain ⟨F, r, hr⟩ := hdiffpatch_read lib c L patch
  refine ⟨F, fun fuel hf from_ => ?_⟩
  have hl : ¬ ((to.length : Int) = 0) := by
    have : 0 < to.length := List.length_pos_iff.2 h0
    omega
  unfold applyHdiffpatch
  rw [readHeaderHdiffpatch_ok]
  simp only [W.lift_bind_ok, hl, if_false, Int.toNat_natCast, hr fuel hf]
  cases h.apply from_.data patch with
  | ok out => simp only [W.lift_bind_ok, W.write_bind, W.pure_eq, List.append_nil]
  | error e => simp only [W.lift_bind_error]

/-! ### match-blocks -/

theorem applySequential_ops (lib : Lib) (formats : Int → Option DataFormat) (c : Compression) (L : Lossless (lib.codecOf c))
    (fr to : Bytes) (clamp : Bool) (ops : List Op) (hR : Rebuilds fr 0 ops to) (chunks : List Bytes)
    (hc : chunks.flatten = packSize 0 ++ encodeOps ops) :
    ∃ F, ∀ fuel, F ≤ fuel → applySequential lib formats fuel { data := fr, pos := 0, clampSeek := clamp }
      (packHeader PATCH_TYPE_SEQUENTIAL c.toNumber ++ packSize to.length ++ (lib.codecOf c).comp.run chunks) = ⟨to, .ok to.length⟩ := by
  by_cases h0 : to = []
  · subst h0
    refine ⟨0, fun fuel _ => ?_⟩
    rw [applySequential, readHeaderSequential_ok]
    simp [W.pure_eq]
  · have hO := L.init chunks (by rw [hc]; simp [packSize_ne_nil])
    rw [hc] at hO
    generalize (lib.codecOf c).comp.run chunks = body at hO
    obtain ⟨F1, r1, hr1, hO1⟩ := PatchReader.unpackSize_ok L.toDelivers
      { st := (lib.codecOf c).initDecomp body.length, file := body } 0 (encodeOps ops) hO
    obtain ⟨F, hF⟩ := applySequentialBody_ok (lib.codecOf c) L.toDelivers formats
      { data := fr, pos := 0, clampSeek := clamp } body to
      { reader := r1, from_ := { data := fr, pos := 0, clampSeek := clamp }, dfdiff := none } ops to F1
      (by intro fuel hf; simp [createDataFormatReaders, hr1 fuel hf, bind, Except.bind, pure, Except.pure])
      rfl hO1 hR rfl (by intro x hx; simp [dfRest] at hx) rfl
    refine ⟨F, fun fuel hf => ?_⟩
    rw [applySequential, readHeaderSequential_ok]
    simp only [W.lift_bind_ok]
    have : 0 < to.length := List.length_pos_iff.2 h0
    rw [if_neg (by omega), hF fuel hf]

theorem peek_header (t : Nat) (ht : t < 8) (c : Compression) (rest : Bytes) :
    peekHeaderType (packHeader t c.toNumber ++ rest) = .ok t := by
  obtain ⟨b, h1, h2, _⟩ := unpackHeader_packHeader t c.toNumber ht c.toNumber_lt
  rw [h1]
  simp [peekHeaderType, h2]

theorem createHdiffGeneric_ok {h : HDiff} {real mmap : Bool} {fr to patch : Bytes} {score block t : Nat}
    (e : createHdiffGeneric h real mmap fr to score block t = .ok patch) : h.create fr to score block t = .ok patch := by
  unfold createHdiffGeneric at e
  split at e
  · have hm : ∀ (d x : Bytes), mmapReadOnly real d = .ok x → x = d := by
      intro d x hx
      unfold mmapReadOnly at hx
      repeat' split at hx
      all_goals cases hx
      rfl
    cases h1 : mmapReadOnly real fr with
    | error _ => rw [h1] at e; cases e
    | ok a =>
      cases h2 : mmapReadOnly real to with
      | error _ => rw [h1, h2] at e; cases e
      | ok b =>
        rw [h1, h2, hm _ _ h1, hm _ _ h2] at e
        exact e
  · exact e

/-- What a patch of type hdiffpatch consists of. -/
theorem createPatch_hdiffpatch_shape {lib : Lib} {h : HDiff} {realFiles : Bool} {args : CreateArgs} {fr to patch : Bytes}
    (halg : args.algorithm = .hdiffpatch ∨ args.algorithm = .matchBlocks) (htype : args.patchType = .hdiffpatch)
    (hcreate : createPatch lib h realFiles args fr to = .ok patch) :
    ∃ p n1 n2 score block, h.create fr to score block PATCH_TYPE_HDIFFPATCH = .ok p ∧
      pyPackSize to.length = .ok n1 ∧ pyPackSize p.length = .ok n2 ∧
      patch = packHeader PATCH_TYPE_HDIFFPATCH args.compression.toNumber ++ n1 ++ n2 ++ (lib.codecOf args.compression).comp.run [p] := by
  rcases halg with ha | ha
  · simp only [createPatch, ha, htype, createHdiffpatch, bind, Except.bind, pure, Except.pure] at hcreate
    cases hg : createHdiffGeneric h realFiles args.useMmap fr to args.matchScore 0 PATCH_TYPE_HDIFFPATCH with
    | error e => rw [hg] at hcreate; cases hcreate
    | ok p =>
      rw [hg] at hcreate
      cases e1 : pyPackSize to.length with
      | error e => rw [e1] at hcreate; cases hcreate
      | ok n1 =>
        cases e2 : pyPackSize p.length with
        | error e => rw [e1] at hcreate; simp only [e2] at hcreate; cases hcreate
        | ok n2 =>
          rw [e1] at hcreate
          simp only [e2, Except.ok.injEq] at hcreate
          exact ⟨p, n1, n2, _, _, createHdiffGeneric_ok hg, rfl, e2, hcreate.symm⟩
  · simp only [createPatch, ha, htype, createMatchBlocks, PatchType.number, bind, Except.bind, pure, Except.pure] at hcreate
    cases hg : createHdiffGeneric h realFiles args.useMmap fr to 0 args.matchBlockSize PATCH_TYPE_HDIFFPATCH with
    | error e => rw [hg] at hcreate; cases hcreate
    | ok p =>
      rw [hg] at hcreate
      cases e1 : pyPackSize to.length with
      | error e => rw [e1] at hcreate; cases hcreate
      | ok n1 =>
        cases e2 : pyPackSize p.length with
        | error e => rw [e1] at hcreate; simp only [e2] at hcreate; cases hcreate
        | ok n2 =>
          rw [e1] at hcreate
          simp only [e2, Except.ok.injEq] at hcreate
          exact ⟨p, n1, n2, _, _, createHdiffGeneric_ok hg, rfl, e2, hcreate.symm⟩

end Detools
