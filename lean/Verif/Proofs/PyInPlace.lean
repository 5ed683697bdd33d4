import Verif.Proofs.MemFile
import Verif.Proofs.PySequential
import Verif.Spec.Segments
/-
In-place patches in Python: creation and application.
-/
namespace Detools

theorem Mem.bind_eq (x : Mem α) (f : α → Mem β) (m : Bytes) : (x >>= f) m = Mem.bind x f m := rfl

@[simp] theorem Mem.lift_bind_ok (a : α) (f : α → Mem β) : (Mem.lift (.ok a) >>= f) = f a := rfl
@[simp] theorem Mem.pure_bind (a : α) (f : α → Mem β) : (Mem.pure a >>= f) = f a := rfl
@[simp] theorem Mem.pure_bind' (a : α) (f : α → Mem β) : ((Pure.pure a : Mem α) >>= f) = f a := rfl
@[simp] theorem Mem.lift_bind_error (e : PyErr) (f : α → Mem β) (m : Bytes) :
    ((Mem.lift (.error e) : Mem α) >>= f) m = (m, .error e) := rfl

theorem Mem.bind_ok {x : Mem α} {f : α → Mem β} {m m' : Bytes} {a : α} (h : x m = (m', .ok a)) :
    (x >>= f) m = f a m' := by
  rw [Mem.bind_eq, Mem.bind, h]

theorem Mem.readAt_ok {m : Bytes} {p : Nat} {d : Bytes} (h : Holds m p d) (q : Int) (hq : q = p) :
    Mem.readAt q d.length m = (m, .ok d) := by
  subst hq
  simp only [Mem.readAt, Int.toNat_natCast, h.read]
  rw [if_neg (by omega)]

theorem Mem.writeAt_ok (m : Bytes) (p : Nat) (d : Bytes) (q : Int) (hq : q = p) :
    Mem.writeAt q d m = (Detools.fileWrite m p d, .ok ()) := by
  subst hq
  simp only [Mem.writeAt, Int.toNat_natCast]
  rw [if_neg (by omega)]

theorem segmentChunkLoop_ok {D : Decompressor} (L : Delivers D) (diff : Bool) (toOffset : Int) (n : Nat) :
    ∀ (s : SegState D) (m a b fd : Bytes) (f t : Nat), a.length = n → L.owes s.reader.st s.reader.file (a ++ b) →
    toOffset + s.toPos = t →
    (diff = true → s.fromOffset = f ∧ fd.length = a.length ∧ Holds m f fd ∧ t + a.length ≤ f) →
    ∃ F r', (∀ fuel, F ≤ fuel → segmentChunkLoop diff toOffset fuel a.length s m =
        (fileWrite m t (if diff then addMod a fd else a),
          .ok { reader := r', toPos := s.toPos + a.length, fromOffset := if diff then s.fromOffset + a.length else s.fromOffset })) ∧
      L.owes r'.st r'.file b := by
  induction n using Nat.strongRecOn with
  | _ n ih =>
  intro s m a b fd f t hn hO ht hfrom
  by_cases h0 : a.length = 0
  · have ha : a = [] := List.eq_nil_of_length_eq_zero h0
    subst ha
    refine ⟨0, s.reader, ?_, by simpa using hO⟩
    intro fuel _
    have hz : (if diff = true then addMod [] fd else []) = [] := by cases diff <;> simp [addMod]
    rw [hz, fileWrite_nil]
    have : (⟨s.reader, s.toPos + (([] : Bytes).length : Nat), if diff = true then s.fromOffset + (([] : Bytes).length : Nat) else s.fromOffset⟩ : SegState D) = s := by
      cases s; simp
    rw [this]
    cases fuel <;> simp [segmentChunkLoop, Mem.pure]
  · obtain ⟨c, hc⟩ : ∃ c, c = min a.length 4096 := ⟨_, rfl⟩
    have hc1 : 0 < c := by omega
    have hc2 : c ≤ a.length := by omega
    have hlc : (a.take c).length = c := by simp; omega
    have hO1 : L.owes s.reader.st s.reader.file (a.take c ++ (a.drop c ++ b)) := by
      rw [← List.append_assoc, List.take_append_drop]; exact hO
    obtain ⟨F1, r1, hr1, hOr1⟩ := PatchReader.read_ok L s.reader _ _ hO1
    rw [hlc] at hr1
    obtain ⟨d, hd⟩ : ∃ d, d = (if diff then addMod (a.take c) (fd.take c) else a.take c) := ⟨_, rfl⟩
    have hdl : d.length = c := by
      cases diff with
      | false => simp [hd]; omega
      | true =>
        obtain ⟨_, g2, _⟩ := hfrom rfl
        simp [hd, addMod]; omega
    obtain ⟨F2, r2, hr2, hOr2⟩ := ih (a.length - c) (by omega)
      { reader := r1, toPos := s.toPos + c, fromOffset := if diff then s.fromOffset + c else s.fromOffset }
      (fileWrite m t d) (a.drop c) b (fd.drop c) (f + c) (t + c) (by simp) hOr1
      (by simp only; omega)
      (by
        intro hdf
        obtain ⟨g1, g2, g3, g4⟩ := hfrom hdf
        refine ⟨by simp only [hdf, if_true]; omega, by simp only [List.length_drop]; omega, ?_, by simp only [List.length_drop]; omega⟩
        exact (g3.drop c (by omega)).kept (.inr (by omega)))
    refine ⟨max F1 F2 + 1, r2, ?_, hOr2⟩
    intro fuel hf
    obtain ⟨k, rfl⟩ : ∃ k, fuel = k + 1 := ⟨fuel - 1, by omega⟩
    rw [segmentChunkLoop, if_neg h0, ← hc]
    simp only [hr1 k (by omega), Mem.lift_bind_ok]
    have hdata : segmentData diff s.fromOffset c (a.take c) m = (m, .ok d) := by
      unfold segmentData
      cases diff with
      | false => simp [hd, Mem.pure]
      | true =>
        obtain ⟨g1, g2, g3, g4⟩ := hfrom rfl
        have hfl : (fd.take c).length = c := by simp; omega
        have hra := Mem.readAt_ok (g3.take c) s.fromOffset g1
        rw [hfl] at hra
        simp only [if_true] at hd ⊢
        rw [Mem.bind_ok hra, hd]
        simp only [Mem.lift, addBytes, hlc, hfl]
        simp [addMod]
    have hw := Mem.writeAt_ok m t d (toOffset + s.toPos) ht
    rw [Mem.bind_ok hdata, Mem.bind_ok hw]
    have := hr2 k (by omega)
    simp only [List.length_drop] at this
    rw [this]
    refine Prod.ext ?_ ?_
    · show fileWrite (fileWrite m t d) (t + c) _ = _
      rw [← hdl, fileWrite_append, hdl]
      congr 1
      cases diff with
      | false => simp [hd]
      | true =>
        obtain ⟨g1, g2, g3, g4⟩ := hfrom rfl
        simp only [hd, if_true, addMod]
        have h1 : List.zipWith (· + ·) (a.take c ++ a.drop c) (fd.take c ++ fd.drop c) =
            List.zipWith (· + ·) (a.take c) (fd.take c) ++ List.zipWith (· + ·) (a.drop c) (fd.drop c) :=
          List.zipWith_append (by simp; omega)
        rw [List.take_append_drop, List.take_append_drop] at h1
        exact h1.symm
    · cases diff <;> simp only [Bool.false_eq_true, if_true, if_false] <;> congr 2 <;> omega

theorem segmentLoop_ok {D : Decompressor} (L : Delivers D) (frd : Bytes) (base : Nat) (toOffset : Int) (ops : List Op) :
    ∀ (s : SegState D) (m to tail : Bytes) (pos t : Nat) (toSize : Int),
    Rebuilds frd pos ops to → Holds m base frd → s.fromOffset = (base + pos : Nat) → toOffset + s.toPos = t →
    L.owes s.reader.st s.reader.file (encodeOps ops ++ tail) →
    s.toPos + to.length = toSize → t + to.length ≤ base →
    ∃ F s', (∀ fuel, F ≤ fuel → segmentLoop fuel toOffset toSize s m = (fileWrite m t to, .ok s')) ∧
      L.owes s'.reader.st s'.reader.file tail := by
  induction ops with
  | nil =>
    intro s m to tail pos t toSize hR hH hf ht hO hts hb
    simp only [Rebuilds] at hR
    subst hR
    refine ⟨0, s, ?_, by simpa [encodeOps] using hO⟩
    intro fuel _
    simp at hts
    subst hts
    rw [fileWrite_nil]
    cases fuel <;> simp [segmentLoop, Mem.pure]
  | cons op ops ih =>
    intro s m to tail pos t toSize hR hH hf ht hO hts hb
    obtain ⟨hne, h1, h2, h3, h4, rest, hto, hR'⟩ := hR
    have henc : encodeOps (op :: ops) ++ tail = packSize op.diff.length ++ (op.diff ++ (packSize op.extra.length ++
        (op.extra ++ (packSize op.adjustment ++ (encodeOps ops ++ tail))))) := by
      simp [encodeOps, Op.chunks]
    rw [henc] at hO
    simp only [Int.toNat_natCast] at hto
    have hfdl : ((frd.drop pos).take op.diff.length).length = op.diff.length := by simp; omega
    have hzl : (List.zipWith (· + ·) op.diff (frd.drop pos)).length = op.diff.length := by simp; omega
    have htl : to.length = op.diff.length + op.extra.length + rest.length := by
      rw [hto]; simp only [List.length_append, hzl]
    have htp : 0 < to.length := List.length_pos_iff.2 hne
    -- diff
    obtain ⟨Fa, ra, hra, hOa⟩ := PatchReader.unpackSize_ok L s.reader _ _ hO
    obtain ⟨Fb, rb, hrb, hOb⟩ := segmentChunkLoop_ok L true toOffset op.diff.length
      { s with reader := ra } m op.diff _ ((frd.drop pos).take op.diff.length) (base + pos) t rfl hOa ht
      (fun _ => ⟨hf, hfdl, (hH.drop pos (by omega)).take _, by omega⟩)
    -- extra
    obtain ⟨Fc, rc, hrc, hOc⟩ := PatchReader.unpackSize_ok L rb _ _ hOb
    obtain ⟨Fd, rd, hrd, hOd⟩ := segmentChunkLoop_ok L false toOffset op.extra.length
      { reader := rc, toPos := s.toPos + op.diff.length, fromOffset := s.fromOffset + op.diff.length }
      (fileWrite m t (addMod op.diff (frd.drop pos))) op.extra _ [] 0 (t + op.diff.length) rfl hOc
      (by simp only; omega) (by simp)
    -- adjustment
    obtain ⟨Fe, re, hre, hOe⟩ := PatchReader.unpackSize_ok L rd _ _ hOd
    have hwm : fileWrite (fileWrite m t (addMod op.diff (frd.drop pos))) (t + op.diff.length) op.extra =
        fileWrite m t (addMod op.diff (frd.drop pos) ++ op.extra) := by
      conv => lhs; rw [← hzl]
      exact fileWrite_append _ _ _ _
    obtain ⟨Fg, sg, hsg, hOg⟩ := ih
      { reader := re, toPos := s.toPos + op.diff.length + op.extra.length,
        fromOffset := s.fromOffset + op.diff.length + op.adjustment }
      (fileWrite m t (addMod op.diff (frd.drop pos) ++ op.extra))
      rest tail ((pos : Int) + op.diff.length + op.adjustment).toNat (t + op.diff.length + op.extra.length) toSize
      (by rw [Int.toNat_of_nonneg (by omega)]; exact hR')
      (hH.kept (.inr (by simp only [List.length_append, hzl]; omega)))
      (by simp only; omega) (by simp only; omega) hOe (by simp only; omega) (by omega)
    refine ⟨max Fa (max Fb (max Fc (max Fd (max Fe Fg)))) + 1, sg, ?_, hOg⟩
    intro fuel hfu
    obtain ⟨k, rfl⟩ : ∃ k, fuel = k + 1 := ⟨fuel - 1, by omega⟩
    rw [segmentLoop, if_pos (by omega)]
    have e1 : segmentChunks k true toOffset toSize s m = (fileWrite m t (addMod op.diff (frd.drop pos)),
        .ok { reader := rb, toPos := s.toPos + op.diff.length, fromOffset := s.fromOffset + op.diff.length }) := by
      simp only [segmentChunks, hra k (by omega), Mem.lift_bind_ok]
      rw [if_neg (by omega), Int.toNat_natCast, hrb k (by omega)]
      simp only [if_true, addMod]
      rw [zipWith_take_right _ _ _ (Nat.le_refl _)]
    have e2 : segmentChunks k false toOffset toSize
        { reader := rb, toPos := s.toPos + op.diff.length, fromOffset := s.fromOffset + op.diff.length }
        (fileWrite m t (addMod op.diff (frd.drop pos))) =
        (fileWrite m t (addMod op.diff (frd.drop pos) ++ op.extra),
        .ok { reader := rd, toPos := s.toPos + op.diff.length + op.extra.length, fromOffset := s.fromOffset + op.diff.length }) := by
      simp only [segmentChunks, hrc k (by omega), Mem.lift_bind_ok]
      rw [if_neg (by omega), Int.toNat_natCast, hrd k (by omega)]
      simp only [Bool.false_eq_true, if_false]
      rw [hwm]
    rw [Mem.bind_ok e1, Mem.bind_ok e2]
    simp only [hre k (by omega), Mem.lift_bind_ok]
    rw [hsg k (by omega)]
    congr 1
    have hx : t + op.diff.length + op.extra.length = t + (addMod op.diff (frd.drop pos) ++ op.extra).length := by
      simp only [List.length_append, hzl]; omega
    rw [hx, fileWrite_append, hto]

theorem applySegments_ok {D : Decompressor} (L : Delivers D) (fr to m0 : Bytes) (seg shift : Nat) (hseg : 0 < seg) (opss : List (List Op)) :
    ∀ (i : Nat) (r : PatchReader D) (tail : Bytes), SegOps fr to seg shift i opss →
    Holds m0 shift fr → L.owes r.st r.file (encodeSegments opss ++ tail) →
    ∃ F r', (∀ fuel, F ≤ fuel → applySegments fuel seg shift to.length opss.length i r (fileWrite m0 0 (to.take (i * seg))) =
        (fileWrite m0 0 (to.take ((i + opss.length) * seg)), .ok r')) ∧
      L.owes r'.st r'.file tail := by
  induction opss with
  | nil =>
    intro i r tail _ _ hO
    exact ⟨0, r, fun fuel _ => by simp [applySegments, Mem.pure], by simpa [encodeSegments] using hO⟩
  | cons ops opss ih =>
    intro i r tail hS hH hO
    obtain ⟨hlt, hR, hS'⟩ := hS
    have henc : encodeSegments (ops :: opss) ++ tail = packSize 0 ++ (encodeOps ops ++ (encodeSegments opss ++ tail)) := by
      simp [encodeSegments]
    rw [henc] at hO
    obtain ⟨Fa, ra, hra, hOa⟩ := PatchReader.unpackSize_ok L r _ _ hO
    have hsl : ((to.drop (i * seg)).take seg).length = min seg (to.length - i * seg) := by simp
    have hmul : seg * (i + 1) = i * seg + seg := by rw [Nat.mul_add, Nat.mul_comm]; omega
    have htk : (to.take (i * seg)).length = i * seg := by simp; omega
    -- from data above the written part
    have hHs : Holds (fileWrite m0 0 (to.take (i * seg))) (max (seg * (i + 1)) shift) (fr.drop (seg * (i + 1) - shift)) := by
      by_cases hle : seg * (i + 1) - shift ≤ fr.length
      · have h1 := hH.drop (seg * (i + 1) - shift) hle
        rw [show shift + (seg * (i + 1) - shift) = max (seg * (i + 1)) shift by omega] at h1
        exact h1.kept (.inr (by rw [htk]; omega))
      · rw [List.drop_of_length_le (by omega)]
        exact Holds.nil _ _
    obtain ⟨Fb, sb, hsb, hOb⟩ := segmentLoop_ok L (fr.drop (seg * (i + 1) - shift)) (max (seg * (i + 1)) shift) (i * seg : Nat) ops
      { reader := ra, toPos := 0, fromOffset := (max (seg * (i + 1)) shift : Nat) } (fileWrite m0 0 (to.take (i * seg)))
      ((to.drop (i * seg)).take seg) (encodeSegments opss ++ tail) 0 (i * seg) ((min seg (to.length - i * seg) : Nat)) hR hHs
      (by simp) (by simp) hOa (by simp only [hsl]; omega) (by rw [hsl]; omega)
    have hw : fileWrite (fileWrite m0 0 (to.take (i * seg))) (i * seg) ((to.drop (i * seg)).take seg) =
        fileWrite m0 0 (to.take ((i + 1) * seg)) := by
      have := fileWrite_append m0 0 (to.take (i * seg)) ((to.drop (i * seg)).take seg)
      rw [htk, Nat.zero_add] at this
      rw [this, Nat.add_mul, Nat.one_mul, List.take_add]
    obtain ⟨Fc, rc, hrc, hOc⟩ := ih (i + 1) sb.reader tail hS' hH hOb
    refine ⟨max Fa (max Fb Fc), rc, ?_, hOc⟩
    intro fuel hf
    rw [List.length_cons, applySegments]
    have e1 : applyInPlaceSegment fuel r ((i : Int) * seg) (min (seg : Int) (to.length - (i : Int) * seg)) (max ((seg : Int) * (i + 1)) shift)
        (fileWrite m0 0 (to.take (i * seg))) = (fileWrite m0 0 (to.take ((i + 1) * seg)), .ok sb.reader) := by
      simp only [applyInPlaceSegment, hra fuel (by omega), Mem.lift_bind_ok]
      rw [if_neg (by decide)]
      have a1 : (i : Int) * seg = (i * seg : Nat) := by simp
      have a2 : min (seg : Int) (to.length - (i : Int) * seg) = (min seg (to.length - i * seg) : Nat) := by
        rw [a1]; omega
      have a3 : max ((seg : Int) * (i + 1)) shift = (max (seg * (i + 1)) shift : Nat) := by
        have : (seg : Int) * (i + 1) = (seg * (i + 1) : Nat) := by simp
        rw [this]; omega
      rw [a2, a3, a1, Mem.bind_ok (hsb fuel (by omega)), hw]
      rfl
    have e1' := e1
    rw [Mem.bind_ok e1', hrc fuel (by omega)]
    rw [show i + 1 + opss.length = i + (opss.length + 1) by omega]

/-! Creation. -/

theorem divCeil_nat (n b : Nat) (hb : 0 < b) : divCeil n b = ((n + b - 1) / b : Nat) := by
  unfold divCeil
  rw [show (n : Int) + b - 1 = ((n + b - 1 : Nat) : Int) by omega]
  rw [Int.fdiv_eq_ediv_of_nonneg _ (by omega)]
  norm_cast

theorem noneRun_go (s : Unit) (chunks : List Bytes) : Compressor.run.go noneCompressor s chunks = chunks.flatten := by
  induction chunks generalizing s with
  | nil => rfl
  | cons c cs ih =>
    rw [List.flatten_cons, ← ih s]
    simp only [Compressor.run.go]
    rfl

theorem noneRun (chunks : List Bytes) : noneCodec.comp.run chunks = chunks.flatten := noneRun_go () chunks

theorem createSequentialData_none (lib : Lib) (hsa : SuffixArrayInRange lib.suffixArray) (fr to : Bytes) (h : to ≠ [])
    (hsz : fr.length + to.length < 2 ^ 31) :
    ∃ ops, createSequentialData lib noneCodec none fr to = .ok (packSize 0 ++ encodeOps ops) ∧ Rebuilds fr 0 ops to ∧
      (∀ op ∈ ops, op.diff.length ≤ to.length ∧ op.extra.length ≤ to.length ∧ op.adjustment.natAbs ≤ fr.length) := by
  obtain ⟨ops, h1, h2, h3⟩ := createChunks_ok lib hsa fr to hsz
  refine ⟨ops, ?_, h2, h3⟩
  have h0 : to.length ≠ 0 := by simpa using h
  have := pyPackSize_nat 0 (by decide)
  simp only [Int.natCast_zero] at this
  simp only [createSequentialData, h0, if_false]
  simp only [this, h1, bind, Except.bind, pure, Except.pure]
  rw [noneRun]
  simp [encodeOps]

theorem slice_nat (to : Bytes) (m n : Nat) : slice to m ((m : Int) + n) = (to.drop m).take n := by
  unfold slice sliceTo
  rw [if_pos (by omega), show ((m : Int) + n).toNat = m + n by omega, List.drop_take]
  congr 1; omega

theorem createSegments_ok (lib : Lib) (hsa : SuffixArrayInRange lib.suffixArray) (fr to : Bytes) (seg shift : Nat)
    (hseg : 0 < seg) (hsz : fr.length + to.length < 2 ^ 31) : ∀ (left i : Nat), (left = 0 ∨ (i + left - 1) * seg < to.length) →
    ∃ opss, createSegments lib none fr to seg shift left i = .ok (encodeSegments opss) ∧ opss.length = left ∧
      SegOps fr to seg shift i opss ∧
      (∀ ops ∈ opss, ∀ op ∈ ops, op.diff.length ≤ seg ∧ op.extra.length ≤ seg ∧ op.adjustment.natAbs ≤ fr.length) := by
  intro left
  induction left with
  | zero => intro i _; exact ⟨[], rfl, rfl, trivial, by simp⟩
  | succ left ih =>
    intro i h
    have hlt : (i + left) * seg < to.length := by
      rcases h with h | h
      · omega
      · rw [show i + (left + 1) - 1 = i + left by omega] at h; exact h
    have hi : i * seg < to.length := Nat.lt_of_le_of_lt (Nat.mul_le_mul_right _ (by omega)) hlt
    obtain ⟨opss, h1, h2, h3, h4⟩ := ih (i + 1) (by
      rcases Nat.eq_zero_or_pos left with h | h
      · exact .inl h
      · right; rw [show i + 1 + left - 1 = i + left by omega]; exact hlt)
    have hsl : ((to.drop (i * seg)).take seg).length = min seg (to.length - i * seg) := by simp
    obtain ⟨ops, g1, g2, g3⟩ := createSequentialData_none lib hsa (fr.drop (seg * (i + 1) - shift)) ((to.drop (i * seg)).take seg)
      (by intro he; rw [he] at hsl; simp at hsl; omega) (by rw [hsl, List.length_drop]; omega)
    refine ⟨ops :: opss, ?_, by simp [h2], ⟨hi, g2, h3⟩, ?_⟩
    · have hmul : seg * (i + 1) = i * seg + seg := by rw [Nat.mul_add, Nat.mul_comm]; omega
      have a1 : (i : Int) * seg = (i * seg : Nat) := by simp
      have a2 : (max ((i : Int) * seg + seg - shift) 0).toNat = seg * (i + 1) - shift := by rw [a1, hmul]; omega
      have a3 : slice to (((i : Int) * seg).toNat) ((i : Int) * seg + seg) = (to.drop (i * seg)).take seg := by
        rw [a1, Int.toNat_natCast]; exact slice_nat _ _ _
      simp only [createSegments, a2, a3, g1, h1, bind, Except.bind, pure, Except.pure]
      simp [encodeSegments]
    · intro o ho op hop
      rcases List.mem_cons.1 ho with rfl | ho
      · have := g3 op hop
        rw [hsl] at this
        simp only [List.length_drop] at this
        omega
      · exact h4 o ho op hop

theorem segments_count (n seg : Nat) (hseg : 0 < seg) (hn : 0 < n) :
    0 < (n + seg - 1) / seg ∧ ((n + seg - 1) / seg - 1) * seg < n ∧ n ≤ (n + seg - 1) / seg * seg := by
  have h1 : (n + seg - 1) / seg * seg ≤ n + seg - 1 := Nat.div_mul_le_self _ _
  have h2 : n + seg - 1 < ((n + seg - 1) / seg + 1) * seg := by
    have := Nat.lt_mul_div_succ (n + seg - 1) hseg
    rw [Nat.mul_comm] at this
    exact this
  have h3 : 0 < (n + seg - 1) / seg := Nat.div_pos (by omega) hseg
  refine ⟨h3, ?_, ?_⟩
  · rw [Nat.sub_mul, Nat.one_mul]; omega
  · rw [Nat.add_mul, Nat.one_mul] at h2; omega

/-- The shift written to the patch. -/
def shiftOf (memory seg minShift fromSize : Nat) : Nat :=
  max minShift ((memory + seg - 1) / seg * seg - (fromSize + seg - 1) / seg * seg)

theorem shiftOf_eq {memory seg k n : Nat} (hseg : 0 < seg) (hmem : seg ∣ memory) :
    shiftOf memory seg k n = max k (memory - (n + seg - 1) / seg * seg) := by
  obtain ⟨m, rfl⟩ := hmem
  unfold shiftOf
  have : (seg * m + seg - 1) / seg = m := by
    rw [Nat.mul_comm, show m * seg + seg - 1 = (seg - 1) + m * seg by omega, Nat.add_mul_div_right _ _ hseg, Nat.div_eq_of_lt (by omega), Nat.zero_add]
  rw [this, Nat.mul_comm m seg]

theorem calcShift_nat (memory seg minShift fromSize : Nat) (hseg : 0 < seg) :
    calcShift memory seg minShift fromSize = shiftOf memory seg minShift fromSize := by
  unfold calcShift shiftOf
  simp only [divCeil_nat _ _ hseg]
  rw [Int.sub_mul]
  generalize (memory + seg - 1) / seg = a
  generalize (fromSize + seg - 1) / seg = b
  rw [show (a : Int) * seg = (a * seg : Nat) by simp, show (b : Int) * seg = (b * seg : Nat) by simp]
  split <;> omega

theorem readHeaderInPlace_ok (c : Compression) (m s h f t : Int) (body : Bytes) :
    readHeaderInPlace (packHeader PATCH_TYPE_IN_PLACE c.toNumber ++ packSize m ++ packSize s ++ packSize h ++ packSize f ++
      packSize t ++ body) = .ok (⟨c, m, s, h, f, t⟩, body) := by
  obtain ⟨b, h1, h2, _⟩ := unpackHeader_packHeader PATCH_TYPE_IN_PLACE c.toNumber (by decide) c.toNumber_lt
  rw [h1]
  simp [readHeaderInPlace, h2, convertCompression_toNumber, bind, Except.bind, pure, Except.pure,
    unpackSize_packSize]

theorem sliceTo_nat (d : Bytes) (n : Nat) : sliceTo d n = d.take n := by
  unfold sliceTo
  rw [if_pos (by omega), Int.toNat_natCast]

/-- The patch made for in-place use. -/
structure InPlacePatch (lib : Lib) (c : Compression) (memory seg shift : Nat) (fr to patch : Bytes) : Prop where
  shape : ∃ opss,
    patch = packHeader PATCH_TYPE_IN_PLACE c.toNumber ++ packSize memory ++ packSize seg ++ packSize shift ++ packSize fr.length ++
      packSize to.length ++ (if to.length = 0 then [] else (lib.codecOf c).comp.run [encodeSegments opss]) ∧
    opss.length = (to.length + seg - 1) / seg ∧ SegOps (sliceTo fr ((memory : Int) - shift)) to seg shift 0 opss ∧
    (∀ ops ∈ opss, ∀ op ∈ ops, op.diff.length ≤ seg ∧ op.extra.length ≤ seg ∧ op.adjustment.natAbs ≤ fr.length)

/-- The operations do not depend on the compression. -/
theorem createInPlace_all (lib : Lib) (hsa : SuffixArrayInRange lib.suffixArray)
    (memory seg : Nat) (minShift : Option Nat) (fr to : Bytes) (hseg : 0 < seg) (hmem : seg ∣ memory)
    (hmin : seg ∣ minShift.getD (2 * seg)) (h1 : memory < 2 ^ 62) (h2 : minShift.getD (2 * seg) < 2 ^ 62)
    (h3 : fr.length + to.length < 2 ^ 31) (h5 : seg < 2 ^ 62) :
    ∃ opss, (∀ c, createInPlace lib c memory seg (minShift.map Int.ofNat) none fr to =
        .ok (packHeader PATCH_TYPE_IN_PLACE c.toNumber ++ packSize memory ++ packSize seg ++
          packSize (shiftOf memory seg (minShift.getD (2 * seg)) fr.length) ++ packSize fr.length ++
          packSize to.length ++ (if to.length = 0 then [] else (lib.codecOf c).comp.run [encodeSegments opss]))) ∧
      opss.length = (to.length + seg - 1) / seg ∧
      SegOps (sliceTo fr ((memory : Int) - shiftOf memory seg (minShift.getD (2 * seg)) fr.length)) to seg
        (shiftOf memory seg (minShift.getD (2 * seg)) fr.length) 0 opss ∧
      (∀ ops ∈ opss, ∀ op ∈ ops, op.diff.length ≤ seg ∧ op.extra.length ≤ seg ∧ op.adjustment.natAbs ≤ fr.length) := by
  have hms : (minShift.map Int.ofNat).getD (2 * (seg : Int)) = (minShift.getD (2 * seg) : Nat) := by
    cases minShift <;> simp
  obtain ⟨k, hk⟩ : ∃ k, k = minShift.getD (2 * seg) := ⟨_, rfl⟩
  rw [← hk] at hms hmin h2 ⊢
  have hf1 : Int.fmod (memory : Int) seg = 0 := by
    rw [Int.fmod_eq_emod_of_nonneg _ (by omega)]
    exact Int.emod_eq_zero_of_dvd (Int.natCast_dvd_natCast.2 hmem)
  have hf2 : Int.fmod (k : Int) seg = 0 := by
    rw [Int.fmod_eq_emod_of_nonneg _ (by omega)]
    exact Int.emod_eq_zero_of_dvd (Int.natCast_dvd_natCast.2 hmin)
  have hsh : shiftOf memory seg k fr.length < 2 ^ 62 := by
    unfold shiftOf
    have : (memory + seg - 1) / seg * seg ≤ memory := by
      obtain ⟨q, rfl⟩ := hmem
      rw [show (seg * q + seg - 1) = (seg - 1) + seg * q by omega, Nat.add_mul_div_left _ _ hseg,
        Nat.div_eq_of_lt (by omega), Nat.zero_add, Nat.mul_comm]
      exact Nat.le_refl _
    omega
  have hlen : (sliceTo fr ((memory : Int) - shiftOf memory seg k fr.length)).length ≤ fr.length := by
    unfold sliceTo; split <;> simp <;> omega
  obtain ⟨opss, g1, g2, g3, g4⟩ := createSegments_ok lib hsa (sliceTo fr ((memory : Int) - shiftOf memory seg k fr.length)) to seg
    (shiftOf memory seg k fr.length) hseg (by omega) ((to.length + seg - 1) / seg) 0 (by
      rcases Nat.eq_zero_or_pos to.length with h | h
      · left; rw [h]; exact Nat.div_eq_of_lt (by omega)
      · right; rw [Nat.zero_add]; exact (segments_count _ _ hseg h).2.1)
  refine ⟨opss, fun c => ?_, g2, g3, ?_⟩
  · unfold createInPlace
    rw [if_neg (by omega), if_neg (by simp [hf1])]
    simp only [hms]
    rw [if_neg (by simp [hf2])]
    simp only [calcShift_nat _ _ _ _ hseg, divCeil_nat _ _ hseg, Int.toNat_natCast, g1, pyPackSize_nat _ h1, pyPackSize_nat fr.length (by omega),
      pyPackSize_nat to.length (by omega), pyPackSize_nat _ h5, pyPackSize_nat _ hsh, bind, Except.bind, pure, Except.pure]
    by_cases h0 : to.length = 0
    · simp [h0]
    · simp [h0]
  · intro ops ho op hop
    have := g4 ops ho op hop
    omega

theorem createInPlace_ok (lib : Lib) (hsa : SuffixArrayInRange lib.suffixArray) (c : Compression)
    (memory seg : Nat) (minShift : Option Nat) (fr to : Bytes) (hseg : 0 < seg) (hmem : seg ∣ memory)
    (hmin : seg ∣ minShift.getD (2 * seg)) (h1 : memory < 2 ^ 62) (h2 : minShift.getD (2 * seg) < 2 ^ 62)
    (h3 : fr.length + to.length < 2 ^ 31) (h5 : seg < 2 ^ 62) :
    ∃ patch, createInPlace lib c memory seg (minShift.map Int.ofNat) none fr to = .ok patch ∧
      InPlacePatch lib c memory seg (shiftOf memory seg (minShift.getD (2 * seg)) fr.length) fr to patch := by
  obtain ⟨opss, g1, g2, g3, g4⟩ := createInPlace_all lib hsa memory seg minShift fr to hseg hmem hmin h1 h2 h3 h5
  exact ⟨_, g1 c, ⟨opss, rfl, g2, g3, g4⟩⟩

/-- A patch file whose body delivers the segments followed by `tail`. -/
theorem applyInPlace_tail (lib : Lib) (c : Compression) (L : Delivers (lib.codecOf c).decomp)
    (memory seg shift : Nat) (fr to body tail mem : Bytes) (opss : List (List Op)) (hseg : 0 < seg) (hpos : 0 < to.length)
    (g2 : opss.length = (to.length + seg - 1) / seg) (g3 : SegOps (sliceTo fr ((memory : Int) - shift)) to seg shift 0 opss)
    (hO : L.owes ((lib.codecOf c).initDecomp body.length) body (encodeSegments opss ++ tail))
    (hmem : memory ≤ mem.length) (hfr : fr <+: mem) :
    ∃ F, ∀ fuel, F ≤ fuel → applyInPlace lib fuel (packHeader PATCH_TYPE_IN_PLACE c.toNumber ++ packSize memory ++ packSize seg ++ packSize shift ++ packSize fr.length ++
      packSize to.length ++ body) mem =
      (fileWrite (fileWrite mem shift (sliceTo fr ((memory : Int) - shift))) 0 to,
        if tail = [] then .ok to.length else .error (.error "End of patch not found.")) := by
  obtain ⟨k1, k2, k3⟩ := segments_count to.length seg hseg hpos
  obtain ⟨F, r', h1, h2⟩ := applySegments_ok L (sliceTo fr ((memory : Int) - shift)) to
    (fileWrite mem shift (sliceTo fr ((memory : Int) - shift))) seg shift hseg opss 0
    { st := (lib.codecOf c).initDecomp body.length, file := body } tail g3 (Holds.written _ _ _) hO
  refine ⟨F, fun fuel hf => ?_⟩
  unfold applyInPlace
  rw [readHeaderInPlace_ok, Mem.lift_bind_ok]
  show (if (to.length : Int) > 0 then applyInPlaceBody (lib.codecOf c) fuel _ body else _) mem = _
  rw [if_pos (by omega)]
  unfold applyInPlaceBody
  have hsm : shiftMemory (memory : Int) shift fr.length mem = (fileWrite mem shift (sliceTo fr ((memory : Int) - shift)), .ok ()) := by
    unfold shiftMemory
    rw [if_neg (by omega), if_neg (by omega)]
    obtain ⟨t, rfl⟩ := hfr
    simp only [Int.toNat_natCast, List.take_left]
    exact Mem.writeAt_ok _ _ _ _ rfl
  rw [Mem.bind_ok hsm]
  have hs0 : ¬ ((seg : Int) = 0) := by omega
  simp only [hs0, if_false]
  have hr : rangeLength (to.length : Int) seg = opss.length := by
    unfold rangeLength
    rw [if_neg (by omega), divCeil_nat _ _ hseg, Int.toNat_natCast, g2]
  have h1' := h1 fuel hf
  simp only [Nat.zero_mul, List.take_zero, fileWrite_nil, Nat.zero_add] at h1'
  rw [List.take_of_length_le (by rw [g2]; exact k3)] at h1'
  simp only [hr]
  rw [Mem.bind_ok h1']
  by_cases ht : tail = []
  · have he := (L.eof_iff h2).2 ht
    simp only [he, ht, if_true]
    rfl
  · have he : (lib.codecOf c).decomp.eof r'.st = false := by
      cases h : (lib.codecOf c).decomp.eof r'.st with
      | false => rfl
      | true => exact absurd ((L.eof_iff h2).1 h) ht
    simp only [he, ht, if_false]
    rfl

theorem applyInPlace_ok (lib : Lib) (c : Compression) (L : Lossless (lib.codecOf c))
    (memory seg shift : Nat) (fr to patch mem : Bytes) (hseg : 0 < seg)
    (hp : InPlacePatch lib c memory seg shift fr to patch) (hmem : memory ≤ mem.length) (hfr : fr <+: mem) :
    ∃ F, ∀ fuel, F ≤ fuel → applyInPlace lib fuel patch mem =
      (if to.length = 0 then mem else fileWrite (fileWrite mem shift (sliceTo fr ((memory : Int) - shift))) 0 to, .ok to.length) := by
  obtain ⟨opss, rfl, g2, g3, g4⟩ := hp.shape
  by_cases h0 : to.length = 0
  · refine ⟨0, fun fuel _ => ?_⟩
    unfold applyInPlace
    rw [readHeaderInPlace_ok, Mem.lift_bind_ok]
    simp only [h0, if_true]
    rw [if_neg (by decide)]
    rfl
  · simp only [h0, if_false]
    have hne : opss ≠ [] := by
      intro h
      obtain ⟨k1, k2, k3⟩ := segments_count to.length seg hseg (by omega)
      rw [h] at g2; simp at g2; omega
    have hO := L.init [encodeSegments opss] (by
      obtain ⟨o, os, rfl⟩ := List.exists_cons_of_ne_nil hne
      simp [encodeSegments, packSize_ne_nil])
    obtain ⟨F, hF⟩ := applyInPlace_tail lib c L.toDelivers memory seg shift fr to _ [] mem opss hseg (by omega) g2 g3
      (by simpa using hO) hmem hfr
    exact ⟨F, hF⟩

end Detools
