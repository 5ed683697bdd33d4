import Verif.Proofs.PySize

namespace Detools

/-- Lexicographic order on pairs. -/
def lt2 (a b : Nat × Nat) : Prop := a.1 < b.1 ∨ (a.1 = b.1 ∧ a.2 < b.2)

theorem lt2_wf : WellFounded lt2 := by
  have h := (Prod.lex (WellFoundedRelation.mk (· < ·) Nat.lt_wfRel.wf : WellFoundedRelation Nat)
    (WellFoundedRelation.mk (· < ·) Nat.lt_wfRel.wf : WellFoundedRelation Nat)).wf
  refine Subrelation.wf ?_ h
  intro a b hab
  rcases hab with hab | ⟨h1, h2⟩
  · exact Prod.Lex.left _ _ hab
  · obtain ⟨a1, a2⟩ := a; obtain ⟨b1, b2⟩ := b
    simp at h1 h2; subst h1
    exact Prod.Lex.right _ h2

theorem lt2.trans {a b c : Nat × Nat} (h : lt2 a b) (h' : lt2 b c) : lt2 a c := by
  unfold lt2 at *; omega

def le2 (a b : Nat × Nat) : Prop := a = b ∨ lt2 a b
theorem le2.trans {a b c : Nat × Nat} (h : le2 a b) (h' : le2 b c) : le2 a c := by
  rcases h with rfl | h
  · exact h'
  · rcases h' with rfl | h'
    · exact Or.inr h
    · exact Or.inr (h.trans h')
theorem lt2.trans_le {a b c : Nat × Nat} (h : lt2 a b) (h' : le2 b c) : lt2 a c := by
  rcases h' with rfl | h'
  · exact h
  · exact h.trans h'
theorem le2.trans_lt {a b c : Nat × Nat} (h : le2 a b) (h' : lt2 b c) : lt2 a c := by
  rcases h with rfl | h
  · exact h'
  · exact h.trans h'

/-- A decompressor that makes progress on every call of the patch reader. -/
structure Terminating (D : Decompressor) where
  inv : D.σ → Prop
  μ : D.σ → Bytes → Nat × Nat
  step : ∀ (st : D.σ) (file : Bytes) (size : Nat) (st' : D.σ) (o : Bytes), inv st → D.eof st = false → 0 < size →
    (D.needsInput st = true → file ≠ []) →
    D.decompress st (if D.needsInput st then file.take 4096 else []) size = .ok (st', o) →
    inv st' ∧ lt2 (μ st' (if D.needsInput st then file.drop 4096 else file)) (μ st file)

def PatchReader.μ {D : Decompressor} (T : Terminating D) (r : PatchReader D) : Nat × Nat := T.μ r.st r.file

/-- `f fuel` has a value other than timeout for all large enough fuel; if it is a
result, it satisfies `P`. -/
def Conv (f : Nat → Except PyErr α) (P : α → Prop) : Prop :=
  ∃ v F, (∀ fuel, F ≤ fuel → f fuel = v) ∧ v ≠ .error .timeout ∧ ∀ a, v = .ok a → P a

theorem Conv.error {f : Nat → Except PyErr α} {P : α → Prop} (F : Nat) (e : PyErr) (he : e ≠ .timeout)
    (h : ∀ fuel, F ≤ fuel → f fuel = .error e) : Conv f P :=
  ⟨.error e, F, h, by simpa using he, by simp⟩

theorem Conv.ok {f : Nat → Except PyErr α} {P : α → Prop} (F : Nat) (a : α) (h : ∀ fuel, F ≤ fuel → f fuel = .ok a)
    (hP : P a) : Conv f P :=
  ⟨.ok a, F, h, by simp, by intro b hb; cases hb; exact hP⟩

/-- Case split on a converging first part. -/
theorem Conv.cases {f : Nat → Except PyErr α} {P : α → Prop} (h : Conv f P) :
    (∃ e F, e ≠ .timeout ∧ ∀ fuel, F ≤ fuel → f fuel = .error e) ∨
    (∃ a F, P a ∧ ∀ fuel, F ≤ fuel → f fuel = .ok a) := by
  obtain ⟨v, F, h1, h2, h3⟩ := h
  cases v with
  | error e => exact Or.inl ⟨e, F, by intro he; exact h2 (by rw [he]), h1⟩
  | ok a => exact Or.inr ⟨a, F, h3 a rfl, h1⟩

theorem PatchReader.loop_conv {D : Decompressor} (T : Terminating D) (m : Nat × Nat) :
    ∀ (r : PatchReader D) (size : Nat) (buf : Bytes), r.μ T = m → T.inv r.st →
    Conv (fun fuel => PatchReader.loop fuel r size buf)
      (fun x => T.inv x.2.st ∧ le2 (x.2.μ T) (r.μ T) ∧ (buf.length < size → lt2 (x.2.μ T) (r.μ T))) := by
  induction m using lt2_wf.induction with
  | _ m ih =>
  intro r size buf hm hinv
  by_cases hb : buf.length < size
  · cases he : D.eof r.st with
    | true =>
      refine Conv.error 1 (.error "Early end of patch data.") (by simp) ?_
      intro fuel hf
      obtain ⟨k, rfl⟩ : ∃ k, fuel = k + 1 := ⟨fuel - 1, by omega⟩
      simp [PatchReader.loop, hb, he]
    | false =>
      by_cases hn : D.needsInput r.st = true ∧ r.file = []
      · refine Conv.error 1 (.error "Out of patch data.") (by simp) ?_
        intro fuel hf
        obtain ⟨k, rfl⟩ : ∃ k, fuel = k + 1 := ⟨fuel - 1, by omega⟩
        simp [PatchReader.loop, hb, he, hn]
      · have hn' : D.needsInput r.st = true → r.file ≠ [] := fun a b => hn ⟨a, b⟩
        have hstep := T.step r.st r.file (size - buf.length)
        have hnot : ¬ (D.needsInput r.st = true ∧ (if D.needsInput r.st then r.file.take 4096 else []) = []) := by
          rintro ⟨a, b⟩
          simp [a] at b
          exact hn' a b
        generalize hd : D.decompress r.st (if D.needsInput r.st then r.file.take 4096 else []) (size - buf.length) = res
        cases res with
        | error e =>
          refine Conv.error 1 (.error "Patch decompression failed.") (by simp) ?_
          intro fuel hf
          obtain ⟨k, rfl⟩ : ∃ k, fuel = k + 1 := ⟨fuel - 1, by omega⟩
          unfold PatchReader.loop
          simp only [hb, if_true, he, Bool.false_eq_true, if_false, hnot, hd]
        | ok v =>
          obtain ⟨st', o⟩ := v
          obtain ⟨hi', hlt⟩ := hstep st' o hinv he (by omega) hn' hd
          have hlt' : lt2 (PatchReader.μ T { st := st', file := if D.needsInput r.st then r.file.drop 4096 else r.file }) m := by
            rw [← hm]; exact hlt
          have := ih _ hlt' { st := st', file := if D.needsInput r.st then r.file.drop 4096 else r.file } size (buf ++ o) rfl hi'
          obtain ⟨v, F, h1, h2, h3⟩ := this
          refine ⟨v, F + 1, ?_, h2, ?_⟩
          · intro fuel hf
            obtain ⟨k, rfl⟩ : ∃ k, fuel = k + 1 := ⟨fuel - 1, by omega⟩
            simp only
            unfold PatchReader.loop
            simp only [hb, if_true, he, Bool.false_eq_true, if_false, hnot, hd]
            exact h1 k (by omega)
          · intro a ha
            obtain ⟨b1, b2, b3⟩ := h3 a ha
            rw [← hm] at hlt'
            exact ⟨b1, Or.inr (b2.trans_lt hlt'), fun _ => b2.trans_lt hlt'⟩
  · refine Conv.ok 0 (buf, r) ?_ ⟨hinv, Or.inl rfl, fun h => absurd h hb⟩
    intro fuel _
    unfold PatchReader.loop
    simp [hb]

theorem PatchReader.read_conv {D : Decompressor} (T : Terminating D) (r : PatchReader D) (n : Nat) (hi : T.inv r.st) :
    Conv (fun fuel => r.read fuel n)
      (fun x => T.inv x.2.st ∧ le2 (x.2.μ T) (r.μ T) ∧ (0 < n → lt2 (x.2.μ T) (r.μ T))) :=
  PatchReader.loop_conv T _ r n [] rfl hi

theorem PatchReader.readByte_conv {D : Decompressor} (T : Terminating D) (r : PatchReader D) (msg : String) (hi : T.inv r.st) :
    Conv (fun fuel => r.readByte fuel msg) (fun x => T.inv x.2.st ∧ lt2 (x.2.μ T) (r.μ T)) := by
  rcases (PatchReader.read_conv T r 1 hi).cases with ⟨e, F, he, h⟩ | ⟨⟨d, r'⟩, F, ⟨p1, p2, p3⟩, h⟩
  · exact Conv.error F e he (fun fuel hf => by simp [PatchReader.readByte, h fuel hf])
  · cases d with
    | nil => exact Conv.error F (.error msg) (by simp) (fun fuel hf => by simp [PatchReader.readByte, h fuel hf])
    | cons b d => exact Conv.ok F (b, r') (fun fuel hf => by simp [PatchReader.readByte, h fuel hf]) ⟨p1, p3 (by omega)⟩

theorem PatchReader.unpackLoop_conv {D : Decompressor} (T : Terminating D) (m : Nat × Nat) :
    ∀ (r : PatchReader D) (value offset : Nat), r.μ T = m → T.inv r.st →
    ∃ v F, (∀ f1 f2, F ≤ f1 → F ≤ f2 → PatchReader.unpackLoop f1 f2 r value offset = v) ∧ v ≠ .error .timeout ∧
      ∀ a, v = .ok a → T.inv a.2.st ∧ lt2 (a.2.μ T) (r.μ T) := by
  induction m using lt2_wf.induction with
  | _ m ih =>
  intro r value offset hm hi
  rcases (PatchReader.readByte_conv T r "Failed to read consecutive size byte." hi).cases with
    ⟨e, F, he, h⟩ | ⟨⟨b, r'⟩, F, ⟨p1, p2⟩, h⟩
  · refine ⟨.error e, F + 1, ?_, by simpa using he, by simp⟩
    intro f1 f2 h1 h2
    obtain ⟨k, rfl⟩ : ∃ k, f2 = k + 1 := ⟨f2 - 1, by omega⟩
    simp [PatchReader.unpackLoop, h f1 (by omega), bind, Except.bind]
  · by_cases hb : b &&& 0x80 ≠ 0
    · obtain ⟨v, G, g1, g2, g3⟩ := ih _ (by rw [← hm]; exact p2) r' (value ||| ((b.toNat &&& 0x7f) <<< offset)) (offset + 7) rfl p1
      refine ⟨v, max F G + 1, ?_, g2, ?_⟩
      · intro f1 f2 h1 h2
        obtain ⟨k, rfl⟩ : ∃ k, f2 = k + 1 := ⟨f2 - 1, by omega⟩
        simp only [PatchReader.unpackLoop, h f1 (by omega), bind, Except.bind]
        rw [if_pos hb]
        exact g1 f1 k (by omega) (by omega)
      · intro a ha
        exact ⟨(g3 a ha).1, (g3 a ha).2.trans p2⟩
    · refine ⟨.ok (value ||| ((b.toNat &&& 0x7f) <<< offset), r'), F + 1, ?_, by simp, ?_⟩
      · intro f1 f2 h1 h2
        obtain ⟨k, rfl⟩ : ∃ k, f2 = k + 1 := ⟨f2 - 1, by omega⟩
        simp only [PatchReader.unpackLoop, h f1 (by omega), bind, Except.bind]
        rw [if_neg hb]
      · intro a ha; simp at ha; subst ha; exact ⟨p1, p2⟩

theorem PatchReader.unpackSize_conv {D : Decompressor} (T : Terminating D) (r : PatchReader D) (hi : T.inv r.st) :
    Conv (fun fuel => r.unpackSize fuel) (fun x => T.inv x.2.st ∧ lt2 (x.2.μ T) (r.μ T)) := by
  rcases (PatchReader.readByte_conv T r "Failed to read first size byte." hi).cases with
    ⟨e, F, he, h⟩ | ⟨⟨b, r'⟩, F, ⟨p1, p2⟩, h⟩
  · exact Conv.error F e he (fun fuel hf => by simp [PatchReader.unpackSize, h fuel hf, bind, Except.bind])
  · by_cases hb : b &&& 0x80 ≠ 0
    · obtain ⟨v, G, g1, g2, g3⟩ := PatchReader.unpackLoop_conv T _ r' (b.toNat &&& 0x3f) 6 rfl p1
      cases v with
      | error e =>
        refine Conv.error (max F G) e (by intro h'; exact g2 (by rw [h'])) ?_
        intro fuel hf
        simp only [PatchReader.unpackSize, h fuel (by omega), bind, Except.bind]
        rw [if_pos hb, g1 fuel fuel (by omega) (by omega)]
      | ok a =>
        obtain ⟨n, r2⟩ := a
        refine Conv.ok (max F G) (if b &&& 0x40 ≠ 0 then -(n : Int) else n, r2) ?_
          ⟨(g3 _ rfl).1, (g3 _ rfl).2.trans p2⟩
        intro fuel hf
        simp only [PatchReader.unpackSize, h fuel (by omega), bind, Except.bind]
        rw [if_pos hb, g1 fuel fuel (by omega) (by omega)]
        rfl
    · refine Conv.ok F (if b &&& 0x40 ≠ 0 then -((b.toNat &&& 0x3f : Nat) : Int) else ((b.toNat &&& 0x3f : Nat) : Int), r') ?_ ⟨p1, p2⟩
      intro fuel hf
      simp only [PatchReader.unpackSize, h fuel (by omega), bind, Except.bind]
      rw [if_neg hb]
      rfl

/-- As `Conv`, for computations that write. -/
def ConvW (f : Nat → W α) (P : α → Prop) : Prop :=
  ∃ v F, (∀ fuel, F ≤ fuel → f fuel = v) ∧ v.res ≠ .error .timeout ∧ ∀ a, v.res = .ok a → P a

theorem ConvW.pure {f : Nat → W α} {P : α → Prop} (F : Nat) (v : W α) (h : ∀ fuel, F ≤ fuel → f fuel = v)
    (h1 : v.res ≠ .error .timeout) (h2 : ∀ a, v.res = .ok a → P a) : ConvW f P := ⟨v, F, h, h1, h2⟩

theorem Conv.lift {f : Nat → Except PyErr α} {P : α → Prop} (h : Conv f P) : ConvW (fun fuel => W.lift (f fuel)) P := by
  obtain ⟨v, F, h1, h2, h3⟩ := h
  exact ⟨W.lift v, F, fun fuel hf => by simp [h1 fuel hf], h2, h3⟩

theorem ConvW.bind {f : Nat → W α} {g : Nat → α → W β} {P : α → Prop} {Q : β → Prop} (hf : ConvW f P)
    (hg : ∀ a, P a → ConvW (fun fuel => g fuel a) Q) : ConvW (fun fuel => f fuel >>= g fuel) Q := by
  obtain ⟨⟨o, res⟩, F, h1, h2, h3⟩ := hf
  cases res with
  | error e =>
    refine ⟨⟨o, .error e⟩, F, fun fuel hf => by simp [h1 fuel hf], ?_, by simp⟩
    intro h; apply h2; simp at h ⊢; exact h
  | ok a =>
    obtain ⟨v, G, g1, g2, g3⟩ := hg a (h3 a rfl)
    refine ⟨⟨o ++ v.out, v.res⟩, max F G, ?_, g2, g3⟩
    intro fuel hf
    simp only [h1 fuel (by omega), W.mk_bind_ok, g1 fuel (by omega)]

theorem ConvW.mono {f : Nat → W α} {P Q : α → Prop} (h : ConvW f P) (hpq : ∀ a, P a → Q a) : ConvW f Q := by
  obtain ⟨v, F, h1, h2, h3⟩ := h
  exact ⟨v, F, h1, h2, fun a ha => hpq a (h3 a ha)⟩

theorem ConvW.succ {f : Nat → W α} {g : Nat → W α} {P : α → Prop} (h : ConvW g P)
    (hfg : ∀ k, f (k + 1) = g k) : ConvW f P := by
  obtain ⟨v, F, h1, h2, h3⟩ := h
  refine ⟨v, F + 1, ?_, h2, h3⟩
  intro fuel hf
  obtain ⟨k, rfl⟩ : ∃ k, fuel = k + 1 := ⟨fuel - 1, by omega⟩
  rw [hfg]; exact h1 k (by omega)

/-- A constant computation. -/
theorem ConvW.const (e : Except PyErr α) (P : α → Prop) (h1 : e ≠ .error .timeout) (h2 : ∀ a, e = .ok a → P a) :
    ConvW (fun _ => W.lift e) P := ⟨W.lift e, 0, fun _ _ => rfl, h1, h2⟩

theorem addBytes_no_timeout (a b : Bytes) : addBytes a b ≠ .error .timeout := by
  unfold addBytes; split <;> simp

theorem applyDfdiff_no_timeout (f : Option PyFile) (a : Bytes) (n : Nat) : applyDfdiff f a n ≠ .error .timeout := by
  cases f with
  | none => simp [applyDfdiff]
  | some f =>
    simp only [applyDfdiff, bind, Except.bind]
    have := addBytes_no_timeout a (f.read n).1
    split
    · simp_all
    · simp [pure, Except.pure]

def StreamInv {D : Decompressor} (T : Terminating D) (m : Nat × Nat) (s : Streams D) : Prop :=
  T.inv s.reader.st ∧ le2 (s.reader.μ T) m

theorem chunkLoop_conv {D : Decompressor} (T : Terminating D) (diff : Bool) (m : Nat × Nat) (left : Nat) :
    ∀ (s : Streams D), StreamInv T m s → ConvW (fun fuel => chunkLoop diff fuel left s) (StreamInv T m) := by
  induction left using Nat.strongRecOn with
  | _ left ih =>
  intro s hs
  by_cases h0 : left = 0
  · refine ⟨W.pure s, 0, ?_, by simp [W.pure], ?_⟩
    · intro fuel _; cases fuel <;> simp [chunkLoop, h0]
    · intro a ha; simp [W.pure] at ha; subst ha; exact hs
  · refine ConvW.succ (g := fun k => chunkLoop diff (k+1) left s) ?_ (fun k => rfl)
    simp only [chunkLoop, if_neg h0]
    refine ConvW.bind (P := fun x => T.inv x.2.st ∧ le2 (x.2.μ T) m) ?_ ?_
    · refine ((PatchReader.read_conv T s.reader (min left 4096) hs.1).lift).mono ?_
      intro a ha
      exact ⟨ha.1, ha.2.1.trans hs.2⟩
    · rintro ⟨pd, r⟩ ⟨hr1, hr2⟩
      simp only
      have tail : ∀ (x : Bytes × PyFile), ConvW (fun fuel => W.lift (applyDfdiff s.dfdiff x.1 (min left 4096)) >>= fun y =>
          W.write y.1 >>= fun _ => chunkLoop diff fuel (left - min left 4096)
            { reader := r, from_ := x.2, dfdiff := y.2 }) (StreamInv T m) := by
        rintro ⟨data, from_⟩
        refine ConvW.bind (P := fun _ => True) (ConvW.const _ _ (applyDfdiff_no_timeout _ _ _) (by simp)) ?_
        rintro ⟨y, f'⟩ _
        refine ConvW.bind (f := fun _ => W.write y) (P := fun _ => True)
          ⟨W.write y, 0, fun _ _ => rfl, by simp [W.write], by simp⟩ ?_
        intro _ _
        exact ih (left - min left 4096) (by omega) { reader := r, from_ := from_, dfdiff := f' } ⟨hr1, hr2⟩
      cases diff with
      | true =>
        simp only [if_true]
        refine ConvW.bind (P := fun _ => True) (ConvW.const _ _ ?_ (by simp)) (fun x _ => tail x)
        have := addBytes_no_timeout pd (s.from_.read (min left 4096)).1
        cases hh : addBytes pd (s.from_.read (min left 4096)).1 <;> simp_all [Except.map]
      | false =>
        simp only [Bool.false_eq_true, if_false, W.pure_bind]
        exact tail (pd, s.from_)

theorem processChunks_conv {D : Decompressor} (T : Terminating D) (diff : Bool) (m : Nat × Nat) (toPos toSize : Int)
    (s : Streams D) (hs : StreamInv T m s) :
    ConvW (fun fuel => processChunks fuel diff toPos toSize s) (fun x => StreamInv T m x.2) := by
  unfold processChunks
  refine ConvW.bind (P := fun x => T.inv x.2.st ∧ le2 (x.2.μ T) m)
    (((PatchReader.unpackSize_conv T s.reader hs.1).lift).mono ?_) ?_
  · intro a ha; exact ⟨ha.1, Or.inr (ha.2.trans_le hs.2)⟩
  · rintro ⟨size, r⟩ ⟨h1, h2⟩
    simp only
    split
    · exact ConvW.const _ _ (by simp) (by simp)
    · refine ConvW.bind (chunkLoop_conv T diff m size.toNat { s with reader := r } ⟨h1, h2⟩) ?_
      intro s' hs'
      exact ⟨W.pure (toPos + size.toNat, s'), 0, fun _ _ => rfl, by simp [W.pure],
        by intro a ha; simp [W.pure] at ha; subst ha; exact hs'⟩

theorem seekCur_no_timeout (f : PyFile) (o : Int) : f.seekCur o ≠ .error .timeout := by
  unfold PyFile.seekCur
  simp only
  split
  · split <;> simp
  · simp

theorem applyLoop_conv {D : Decompressor} (T : Terminating D) (m : Nat × Nat) :
    ∀ (toPos toSize : Int) (s : Streams D), s.reader.μ T = m → T.inv s.reader.st →
    ConvW (fun fuel => applyLoop fuel toPos toSize s) (fun _ => True) := by
  induction m using lt2_wf.induction with
  | _ m ih =>
  intro toPos toSize s hm hi
  by_cases hlt : toPos < toSize
  · refine ConvW.succ (g := fun k => applyLoop (k+1) toPos toSize s) ?_ (fun k => rfl)
    simp only [applyLoop, if_pos hlt]
    refine ConvW.bind (processChunks_conv T true m toPos toSize s ⟨hi, by rw [hm]; exact Or.inl rfl⟩) ?_
    rintro ⟨q1, s1⟩ hs1
    simp only at hs1 ⊢
    refine ConvW.bind (processChunks_conv T false m q1 toSize s1 hs1) ?_
    rintro ⟨q2, s2⟩ hs2
    simp only at hs2 ⊢
    refine ConvW.bind (PatchReader.unpackSize_conv T s2.reader hs2.1).lift ?_
    rintro ⟨adj, r⟩ ⟨h1, h2⟩
    simp only at h1 h2 ⊢
    refine ConvW.bind (P := fun _ => True) (ConvW.const _ _ (seekCur_no_timeout _ _) (by simp)) ?_
    intro from_ _
    exact ih _ (h2.trans_le hs2.2) q2 toSize { s2 with reader := r, from_ := from_ } rfl h1
  · refine ⟨W.pure s, 0, ?_, by simp [W.pure], by simp⟩
    intro fuel _; cases fuel <;> simp [applyLoop, if_neg hlt]

/-- The data format readers do not fail by model timeout. -/
def FormatsTotal (formats : Int → Option DataFormat) : Prop :=
  ∀ n f, formats n = some f → ∀ a b c, f.readers a b c ≠ .error .timeout

theorem createDataFormatReaders_conv {D : Decompressor} (T : Terminating D) (formats : Int → Option DataFormat)
    (hF : FormatsTotal formats) (r : PatchReader D) (from_ : PyFile) (toSize : Int) (hi : T.inv r.st) :
    Conv (fun fuel => createDataFormatReaders formats fuel r from_ toSize) (fun s => T.inv s.reader.st) := by
  rcases (PatchReader.unpackSize_conv T r hi).cases with ⟨e, F, he, h⟩ | ⟨⟨n, r1⟩, F, ⟨p1, p2⟩, h⟩
  · exact Conv.error F e he (fun fuel hf => by simp [createDataFormatReaders, h fuel hf, bind, Except.bind])
  · by_cases hn : n > 0
    · rcases (PatchReader.unpackSize_conv T r1 p1).cases with ⟨e, F2, he, h2⟩ | ⟨⟨df, r2⟩, F2, ⟨q1, q2⟩, h2⟩
      · exact Conv.error (max F F2) e he (fun fuel hf => by
          simp [createDataFormatReaders, h fuel (by omega), hn, h2 fuel (by omega), bind, Except.bind])
      · rcases (PatchReader.read_conv T r2 n.toNat q1).cases with ⟨e, F3, he, h3⟩ | ⟨⟨d, r3⟩, F3, ⟨t1, t2, t3⟩, h3⟩
        · exact Conv.error (max F (max F2 F3)) e he (fun fuel hf => by
            simp [createDataFormatReaders, h fuel (by omega), hn, h2 fuel (by omega), h3 fuel (by omega), bind, Except.bind])
        · cases hl : formats df with
          | none => exact Conv.error (max F (max F2 F3)) (.error "Expected data format ...") (by simp) (fun fuel hf => by
              simp [createDataFormatReaders, h fuel (by omega), hn, h2 fuel (by omega), h3 fuel (by omega), bind, Except.bind, hl])
          | some f =>
            cases hr : f.readers from_.data d toSize with
            | error e =>
              refine Conv.error (max F (max F2 F3)) e (by intro h'; subst h'; exact hF df f hl _ _ _ hr) ?_
              intro fuel hf
              simp [createDataFormatReaders, h fuel (by omega), hn, h2 fuel (by omega), h3 fuel (by omega), bind, Except.bind, hl, hr]
            | ok v =>
              refine Conv.ok (max F (max F2 F3)) { reader := r3, from_ := { data := v.2, pos := 0, clampSeek := true }, dfdiff := some { data := v.1, pos := 0, clampSeek := true } } ?_ t1
              intro fuel hf
              simp [createDataFormatReaders, h fuel (by omega), hn, h2 fuel (by omega), h3 fuel (by omega), bind, Except.bind, hl, hr,
                pure, Except.pure]
    · exact Conv.ok F { reader := r1, from_ := from_, dfdiff := none } (fun fuel hf => by
        simp [createDataFormatReaders, h fuel (by omega), hn, bind, Except.bind, pure, Except.pure]) p1

theorem applySequentialBody_conv (codec : PyCodec) (T : Terminating codec.decomp)
    (hinit : ∀ n, T.inv (codec.initDecomp n)) (formats : Int → Option DataFormat)
    (hF : FormatsTotal formats) (from_ : PyFile) (rest : Bytes) (toSize : Int) :
    ConvW (fun fuel => applySequentialBody codec formats fuel from_ rest toSize) (fun _ => True) := by
  unfold applySequentialBody
  refine ConvW.bind (createDataFormatReaders_conv T formats hF _ from_ toSize (hinit _)).lift ?_
  intro s hs
  refine ConvW.bind (applyLoop_conv T _ 0 toSize s rfl hs) ?_
  intro s' _
  split
  · exact ⟨W.pure toSize, 0, fun _ _ => rfl, by simp [W.pure], by simp⟩
  · exact ConvW.const _ _ (by simp) (by simp)

/-! ### Instances -/

def noneTerminating : Terminating noneDecompressor where
  inv := fun _ => True
  μ := fun st file => (file.length, st.data.length)
  step := by
    intro st file size st' o _ he hs hn h
    simp only [noneDecompressor] at *
    simp only [he, Bool.not_false, Bool.and_true, Bool.false_eq_true, if_false] at *
    refine ⟨trivial, ?_⟩
    by_cases hd : st.data = []
    · have := hn (by simp [hd])
      have := List.length_pos_iff.2 this
      simp [hd, lt2]
      omega
    · have := List.length_pos_iff.2 hd
      simp [hd] at h
      rw [← (Prod.mk.inj h).1]
      simp [hd, lt2]
      omega

theorem crleUnpackSize_lt (inp : Bytes) : ∀ (v o : Nat) (n : Nat) (rest : Bytes), crleUnpackSize v o inp = some (n, rest) →
    rest.length < inp.length := by
  induction inp with
  | nil => intro v o n rest h; simp [crleUnpackSize] at h
  | cons b inp ih =>
    intro v o n rest h
    simp only [crleUnpackSize] at h
    split at h
    · have := ih _ _ _ _ h; simp; omega
    · simp at h; rw [← h.2]; simp

theorem crleSegment_shrinks {inp rest data : Bytes} {k k' : Nat} (h : crleSegment inp k = .seg data rest k') :
    rest.length < inp.length := by
  unfold crleSegment at h
  split at h
  · split at h
    · simp at h
    · rename_i kind t
      split at h
      · split at h
        · simp at h
        · rename_i n r hu
          have := crleUnpackSize_lt _ _ _ _ _ hu
          split at h
          · simp at h; rw [h.2.1]; simp
          · simp at h; rw [← h.2.1]; simp; omega
      · split at h
        · split at h
          · simp at h
          · rename_i n r hu
            have := crleUnpackSize_lt _ _ _ _ _ hu
            split at h
            · simp at h
            · rename_i b r'
              simp at h; rw [← h.2.1]; simp at this ⊢; omega
        · simp at h
  · split at h
    · simp at h
    · rename_i hk hne
      simp only [CrleSeg.seg.injEq] at h
      have := List.length_pos_iff.2 hne
      rw [← h.2.1]; simp; omega

/-- The segment loop never runs out of fuel, and stops where no whole segment is left. -/
theorem crleSegments_stuck (fuel : Nat) : ∀ (inp : Bytes) (k : Nat), inp.length < fuel →
    crleSegments fuel inp k ≠ .error .timeout ∧
    ∀ out rest k', crleSegments fuel inp k = .ok (out, rest, k') → crleSegment rest k' = .more k' := by
  induction fuel with
  | zero => intro inp k h; omega
  | succ fuel ih =>
    intro inp k hf
    unfold crleSegments
    split
    · rename_i l hm
      refine ⟨by simp, ?_⟩
      intro out rest k' h
      simp at h
      obtain ⟨_, rfl, rfl⟩ := h
      have : l = k := by
        unfold crleSegment at hm
        split at hm
        · split at hm
          · simp at hm; omega
          · split at hm
            · split at hm
              · simp at hm; omega
              · split at hm <;> simp at hm
            · split at hm
              · split at hm
                · simp at hm; omega
                · split at hm <;> simp at hm
                  omega
              · simp at hm
        · split at hm <;> simp at hm
          omega
      rw [this]
      rw [this] at hm
      exact hm
    · exact ⟨by simp, by simp⟩
    · rename_i data rest left hseg
      obtain ⟨i1, i2⟩ := ih rest left (by have := crleSegment_shrinks hseg; omega)
      simp only [bind, Except.bind]
      cases hr : crleSegments fuel rest left with
      | error e => rw [hr] at i1; simp at i1 ⊢; exact i1
      | ok v =>
        simp only [pure, Except.pure]
        refine ⟨by simp, ?_⟩
        intro out' rest' k' h
        simp at h
        obtain ⟨_, rfl, rfl⟩ := h
        exact i2 _ _ _ hr

def crleTerminating : Terminating crleDecompressor where
  inv := fun st => crleSegment st.indata st.scatteredLeft = .more st.scatteredLeft
  μ := fun st file => (file.length, st.outdata.length)
  step := by
    intro st file size st' o hinv he hs hn h
    simp only [crleDecompressor] at *
    simp only [he, Bool.not_false, Bool.and_true, Bool.false_eq_true, if_false] at *
    by_cases hd : st.outdata = []
    · have := hn (by simp [hd])
      have := List.length_pos_iff.2 this
      simp only [hd, List.isEmpty_nil, if_true, bind, Except.bind] at h
      split at h
      · simp at h
      · rename_i v hv
        simp only [pure, Except.pure, Except.ok.injEq] at h
        obtain ⟨rfl, _⟩ := Prod.mk.inj h
        refine ⟨(crleSegments_stuck _ _ _ (by omega)).2 _ _ _ hv, ?_⟩
        left
        simp [hd]
        omega
    · have hpos := List.length_pos_iff.2 hd
      have hne : st.outdata.isEmpty = false := by simp [hd]
      simp only [hne, Bool.false_eq_true, if_false, List.take_nil, List.append_nil, bind, Except.bind] at h ⊢
      simp only [crleSegments, hinv, pure, Except.pure, Except.ok.injEq, List.append_nil] at h
      obtain ⟨rfl, _⟩ := Prod.mk.inj h
      refine ⟨hinv, ?_⟩
      right
      simp
      omega

theorem crleInit_inv (n : Nat) : crleTerminating.inv (crleCodec.initDecomp n) := by
  simp [crleTerminating, crleCodec, crleSegment]

end Detools
