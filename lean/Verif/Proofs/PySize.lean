import Verif.Proofs.PySequential

namespace Detools

/-- A decompressor never returns more than asked for. -/
def Decompressor.Bounded (D : Decompressor) : Prop :=
  ∀ st data size st' o, D.decompress st data size = .ok (st', o) → o.length ≤ size

theorem PatchReader.loop_length {D : Decompressor} (hD : D.Bounded) (fuel : Nat) :
    ∀ (r : PatchReader D) (size : Nat) (buf d : Bytes) (r' : PatchReader D), buf.length ≤ size →
    PatchReader.loop fuel r size buf = .ok (d, r') → d.length = size := by
  induction fuel with
  | zero =>
    intro r size buf d r' hb h
    unfold PatchReader.loop at h
    split at h
    · simp at h
    · simp at h; rw [← h.1]; omega
  | succ fuel ih =>
    intro r size buf d r' hb h
    unfold PatchReader.loop at h
    split at h
    · simp only at h
      split at h
      · simp at h
      · generalize (if D.needsInput r.st = true then List.take 4096 r.file else []) = data at h
        generalize (if D.needsInput r.st = true then List.drop 4096 r.file else r.file) = file at h
        split at h
        · simp at h
        · split at h
          · simp at h
          · rename_i st o hd
            have := hD _ _ _ _ _ hd
            exact ih _ _ _ _ _ (by simp; omega) h
    · simp at h; rw [← h.1]; omega

theorem PatchReader.read_length {D : Decompressor} (hD : D.Bounded) {fuel : Nat} {r : PatchReader D} {n : Nat}
    {d r'} (h : r.read fuel n = .ok (d, r')) : d.length = n :=
  PatchReader.loop_length hD fuel r n [] d r' (by simp) h

theorem addBytes_length {a b c : Bytes} (h : addBytes a b = .ok c) : c.length = a.length := by
  unfold addBytes at h
  split at h
  · simp at h
  · simp at h; subst h; simp; omega

theorem applyDfdiff_length {f f' : Option PyFile} {x y : Bytes} {n : Nat}
    (h : applyDfdiff f x n = .ok (y, f')) : y.length = x.length := by
  cases f with
  | none => simp [applyDfdiff] at h; simp [h]
  | some f =>
    simp only [applyDfdiff, bind, Except.bind] at h
    split at h
    · simp at h
    · rename_i v hv
      simp [pure, Except.pure] at h
      rw [← h.1]; exact addBytes_length hv

theorem W.lift_bind_cases (e : Except PyErr α) (f : α → W β) :
    (∃ x, e = .error x ∧ (W.lift e >>= f) = ⟨[], .error x⟩) ∨ (∃ a, e = .ok a ∧ (W.lift e >>= f) = f a) := by
  cases e <;> simp

theorem chunkLoop_length {D : Decompressor} (hD : D.Bounded) (diff : Bool) (fuel : Nat) :
    ∀ (left : Nat) (s : Streams D),
    (chunkLoop diff fuel left s).out.length ≤ left ∧
    (∀ s', (chunkLoop diff fuel left s).res = .ok s' → (chunkLoop diff fuel left s).out.length = left) := by
  induction fuel with
  | zero =>
    intro left s
    unfold chunkLoop
    split
    · simp_all [W.pure]
    · simp [W.lift]
  | succ fuel ih =>
    intro left s
    unfold chunkLoop
    split
    · simp_all [W.pure]
    · simp only
      rcases W.lift_bind_cases (s.reader.read fuel (min left 4096)) _ with ⟨x, _, h⟩ | ⟨⟨pd, r⟩, hrd, h⟩
      · rw [h]; simp
      · rw [h]; clear h
        have hpl := PatchReader.read_length hD hrd
        simp only
        -- the data after adding from bytes
        have key : ∀ (data : Bytes) (from_ : PyFile), data.length = pd.length →
            ∀ (w : W (Streams D)), w = (W.lift (applyDfdiff s.dfdiff data (min left 4096)) >>= fun x =>
              W.write x.1 >>= fun _ => chunkLoop diff fuel (left - min left 4096)
                { reader := r, from_ := from_, dfdiff := x.2 }) →
            w.out.length ≤ left ∧ (∀ s', w.res = .ok s' → w.out.length = left) := by
          intro data from_ hdl w hw
          subst hw
          rcases W.lift_bind_cases (applyDfdiff s.dfdiff data (min left 4096)) (fun x =>
              W.write x.1 >>= fun _ => chunkLoop diff fuel (left - min left 4096)
                { reader := r, from_ := from_, dfdiff := x.2 }) with ⟨x, _, h⟩ | ⟨⟨y, f'⟩, hy, h⟩
          · rw [h]; simp
          · rw [h]
            have hyl := applyDfdiff_length hy
            simp only [W.write_bind, List.length_append]
            obtain ⟨i1, i2⟩ := ih (left - min left 4096) { reader := r, from_ := from_, dfdiff := f' }
            refine ⟨by omega, ?_⟩
            intro s' hs'
            have := i2 s' hs'
            omega
        split
        · cases hadd : addBytes pd (s.from_.read (min left 4096)).1 with
          | error e => simp [Except.map]
          | ok data =>
            simp only [Except.map, W.lift_bind_ok]
            exact key data _ (addBytes_length hadd) _ rfl
        · simp only [W.pure_bind]
          exact key pd _ rfl _ rfl

theorem processChunks_length {D : Decompressor} (hD : D.Bounded) (fuel : Nat) (diff : Bool) (toPos toSize : Int)
    (s : Streams D) (hle : toPos ≤ toSize) :
    toPos + (processChunks fuel diff toPos toSize s).out.length ≤ toSize ∧
    ∀ p s', (processChunks fuel diff toPos toSize s).res = .ok (p, s') →
      p = toPos + (processChunks fuel diff toPos toSize s).out.length := by
  unfold processChunks
  rcases W.lift_bind_cases (s.reader.unpackSize fuel) (fun (x : Int × PatchReader D) =>
      if toPos + x.1 > toSize then W.lift (.error (.error "Patch data too long."))
      else do
        let s ← chunkLoop diff fuel x.1.toNat { s with reader := x.2 }
        return (toPos + x.1.toNat, s)) with ⟨x, _, h⟩ | ⟨⟨size, r⟩, hrd, h⟩
  · rw [h]; simp; omega
  · rw [h]; clear h
    simp only
    split
    · simp [W.lift]; omega
    · obtain ⟨c1, c2⟩ := chunkLoop_length hD diff fuel size.toNat { s with reader := r }
      cases hc : chunkLoop diff fuel size.toNat { s with reader := r } with
      | mk o res =>
      rw [hc] at c1 c2
      cases res with
      | error e =>
        simp only [W.mk_bind_error]
        refine ⟨by simp only at c1; omega, by simp⟩
      | ok s1 =>
        have := c2 s1 rfl
        simp only at this c1
        simp only [W.mk_bind_ok, W.pure_eq, List.append_nil]
        refine ⟨by omega, ?_⟩
        intro p s' hp
        simp at hp
        omega

theorem applyLoop_length {D : Decompressor} (hD : D.Bounded) (fuel : Nat) :
    ∀ (toPos toSize : Int) (s : Streams D), toPos ≤ toSize →
    toPos + (applyLoop fuel toPos toSize s).out.length ≤ toSize ∧
    ∀ s', (applyLoop fuel toPos toSize s).res = .ok s' → toPos + (applyLoop fuel toPos toSize s).out.length = toSize := by
  induction fuel with
  | zero =>
    intro toPos toSize s hle
    unfold applyLoop
    split
    · simp [W.lift]; omega
    · simp [W.pure]; omega
  | succ fuel ih =>
    intro toPos toSize s hle
    unfold applyLoop
    split
    · obtain ⟨p1, p2⟩ := processChunks_length hD fuel true toPos toSize s hle
      cases h1 : processChunks fuel true toPos toSize s with
      | mk o1 res1 =>
      rw [h1] at p1 p2
      cases res1 with
      | error e => simp only [W.mk_bind_error]; exact ⟨p1, by simp⟩
      | ok v =>
      obtain ⟨q1, s1⟩ := v
      have e1 := p2 q1 s1 rfl
      simp only at p1 e1
      simp only [W.mk_bind_ok]
      obtain ⟨p3, p4⟩ := processChunks_length hD fuel false q1 toSize s1 (by omega)
      cases h2 : processChunks fuel false q1 toSize s1 with
      | mk o2 res2 =>
      rw [h2] at p3 p4
      cases res2 with
      | error e => simp only [W.mk_bind_error, List.length_append]; simp only at p3; exact ⟨by omega, by simp⟩
      | ok v =>
      obtain ⟨q2, s2⟩ := v
      have e2 := p4 q2 s2 rfl
      simp only at p3 e2
      simp only [W.mk_bind_ok, List.length_append]
      cases h3 : s2.reader.unpackSize fuel with
      | error e => simp; omega
      | ok v =>
      obtain ⟨adj, r⟩ := v
      simp only [W.lift_bind_ok]
      cases h4 : s2.from_.seekCur adj with
      | error e => simp; omega
      | ok from_ =>
      simp only [W.lift_bind_ok]
      obtain ⟨i1, i2⟩ := ih q2 toSize { s2 with reader := r, from_ := from_ } (by omega)
      refine ⟨by omega, ?_⟩
      intro s' hs'
      have := i2 s' hs'
      omega
    · simp [W.pure]; omega

theorem noneBounded : noneDecompressor.Bounded := by
  intro st data size st' o h
  simp only [noneDecompressor] at h
  split at h
  · simp at h
  · simp only [Except.ok.injEq] at h; rw [← (Prod.mk.inj h).2]; simp; omega

theorem crleBounded : crleDecompressor.Bounded := by
  intro st data size st' o h
  simp only [crleDecompressor] at h
  split at h
  · simp at h
  · simp only [bind, Except.bind] at h
    split at h
    · simp at h
    · simp only [pure, Except.pure, Except.ok.injEq] at h; rw [← (Prod.mk.inj h).2]; simp; omega

end Detools
