import Verif.Spec.Callbacks
import Verif.Proofs.CSeqFailed
import Verif.Proofs.CAccept
/-
The callback functions make the same calls as a user of the low level API.
-/
namespace Detools

variable [Build]

/-- Attach the part of the user's state only used by `patch_read`. -/
def World.attach (r : ρ) (w : World τ) : World (τ × ρ) := { arg := (w.arg, r), trace := w.trace }

def attachRes (r : ρ) : SeqRes τ → SeqRes (τ × ρ) := fun (a, s, w) => (a, s, w.attach r)

variable (E : SeqEnv τ) (r : ρ)

theorem processInit_with (s : ApplyPatch) (w : World τ) :
    processInit s (w.attach r) = (processInit s w).map (attachRes r) := by
  unfold processInit
  cases s.initState with
  | fixedHeader =>
    simp only [processInitFixedHeader]
    rcases s.chunk.get with e | (_ | ⟨b, c⟩)
    · rfl
    · rfl
    · simp only [Bind.bind, Except.bind]
      split <;> rfl
  | toSize =>
    simp only [processInitToSize]
    rcases chunkUnpackHeaderSize (s.chunk.left + 1) s.chunk s.size with e | ⟨(_ | _ | _), c, a⟩
    · rfl
    all_goals simp only [Bind.bind, Except.bind]
    all_goals try rfl
    split
    · rfl
    · split
      · rfl
      · split <;> rfl

theorem processDfpatchSize_with (s : ApplyPatch) (w : World τ) :
    processDfpatchSize s (w.attach r) = (processDfpatchSize s w).map (attachRes r) := by
  unfold processDfpatchSize
  rcases s.unpackSize with e | ⟨(_ | _ | _), s⟩
  all_goals simp only [Bind.bind, Except.bind]
  all_goals try rfl
  split <;> rfl

theorem processSize_with (s : ApplyPatch) (w : World τ) (next : SeqPhase) :
    processSize s (w.attach r) next = (processSize s w next).map (attachRes r) := by
  unfold processSize
  rcases s.unpackSize with e | ⟨(_ | _ | _), s⟩
  all_goals simp only [Bind.bind, Except.bind]
  all_goals try rfl
  split <;> rfl

omit [Build] in
theorem processWrite_with (s : ApplyPatch) (w : World τ) (to : Bytes) :
    processWrite (E.with ρ) s (w.attach r) to = (processWrite E s w to).map (attachRes r) := by
  unfold processWrite
  have e : (E.with ρ).toWrite (w.attach r).arg to = ((E.toWrite w.arg to).1, ((E.toWrite w.arg to).2, r)) := rfl
  simp only [e]
  split <;> rfl

theorem processData_with (s : ApplyPatch) (w : World τ) (next : SeqPhase) (diff : Bool) :
    processData (E.with ρ) s (w.attach r) next diff = (processData E s w next diff).map (attachRes r) := by
  unfold processData
  simp only
  split
  · rfl
  · rcases s.reader with _ | rd
    · rfl
    · simp only
      rcases rd.decompress s.chunk dataCap (min dataCap s.chunkSize) with e | ⟨(_ | _ | _), c, a⟩
      all_goals simp only [Bind.bind, Except.bind]
      all_goals try rfl
      cases diff with
      | false => simp only [Bool.false_eq_true, if_false]; exact processWrite_with E r _ _ _
      | true =>
        simp only [if_true]
        rename_i to
        have e : (E.with ρ).fromRead (w.attach r).arg to.length =
          ((E.fromRead w.arg to.length).1, (E.fromRead w.arg to.length).2.1, ((E.fromRead w.arg to.length).2.2, r)) := rfl
        simp only [e]
        split
        · rfl
        · split
          · rfl
          · exact processWrite_with E r _ { arg := (E.fromRead w.arg to.length).2.2, trace := Ev.read to.length (E.fromRead w.arg to.length).1 :: w.trace } _

theorem processAdjustment_with (s : ApplyPatch) (w : World τ) :
    processAdjustment (E.with ρ) s (w.attach r) = (processAdjustment E s w).map (attachRes r) := by
  unfold processAdjustment
  rcases s.unpackSize with e | ⟨(_ | _ | _), s⟩
  all_goals simp only [Bind.bind, Except.bind]
  all_goals try rfl
  rename_i off
  have e : (E.with ρ).fromSeek (w.attach r).arg off =
    ((E.fromSeek w.arg off).1, ((E.fromSeek w.arg off).2, r)) := rfl
  simp only [e]
  split
  · rfl
  · split
    · rfl
    · split <;> rfl

theorem processOnce_with (s : ApplyPatch) (w : World τ) :
    processOnce (E.with ρ) s (w.attach r) = (processOnce E s w).map (attachRes r) := by
  have hs : processSwitch (E.with ρ) s (w.attach r) = (processSwitch E s w).map (attachRes r) := by
    unfold processSwitch
    cases s.state <;> simp only
    · exact processInit_with r s w
    · exact processDfpatchSize_with r s w
    · exact processSize_with r s w _
    · exact processData_with E r s w _ _
    · exact processSize_with r s w _
    · exact processData_with E r s w _ _
    · exact processAdjustment_with E r s w
    · rfl
    · rfl
  unfold processOnce
  split
  · rfl
  · rw [hs]
    rcases processSwitch E s w with e | ⟨a, s', w'⟩
    · rfl
    · simp only [Except.map, attachRes, Bind.bind, Except.bind]
      split <;> rfl

theorem processLoop_with (fuel : Nat) : ∀ (res : Int) (s : ApplyPatch) (w : World τ),
    processLoop (E.with ρ) fuel res s (w.attach r) = (processLoop E fuel res s w).map (attachRes r) := by
  induction fuel with
  | zero => intro _ _ _; rfl
  | succ fuel ih =>
    intro res s w
    unfold processLoop
    split
    · rw [processOnce_with]
      rcases processOnce E s w with e | ⟨a, s', w'⟩
      · rfl
      · exact ih a s' w'
    · rfl

theorem applyPatchProcess_with (s : ApplyPatch) (w : World τ) (p : Bytes) :
    applyPatchProcess (E.with ρ) s (w.attach r) p = (applyPatchProcess E s w p).map (attachRes r) := by
  unfold applyPatchProcess
  simp only
  rw [processLoop_with]
  generalize processLoop E _ 0 _ w = x
  rcases x with e | ⟨a, s', w'⟩
  · rfl
  · simp only [Except.map, attachRes, Bind.bind, Except.bind]
    split <;> rfl

theorem finalizeLoop_with (fuel : Nat) : ∀ (s : ApplyPatch) (w : World τ),
    finalizeLoop (E.with ρ) fuel s (w.attach r) = (finalizeLoop E fuel s w).map (attachRes r) := by
  induction fuel with
  | zero => intro _ _; rfl
  | succ fuel ih =>
    intro s w
    unfold finalizeLoop
    rw [processOnce_with]
    rcases processOnce E s w with e | ⟨a, s', w'⟩
    · rfl
    · simp only [Except.map, attachRes, Bind.bind, Except.bind]
      split
      · exact ih s' w'
      · rfl

theorem applyPatchFinalize_with (s : ApplyPatch) (w : World τ) :
    applyPatchFinalize (E.with ρ) s (w.attach r) = (applyPatchFinalize E s w).map (attachRes r) := by
  unfold applyPatchFinalize
  simp only
  rw [finalizeLoop_with]
  generalize finalizeLoop E _ _ w = x
  rcases x with e | ⟨a, s', w'⟩ <;> rfl

/-! ### The loop, for every behaviour of the callbacks -/

/-- What a call of process may do. -/
theorem process_failed (E : SeqEnv σ) {s : ApplyPatch} (h : SInv s) (w : World σ) (p : Bytes) {res s' w'}
    (hp : applyPatchProcess E s w p = .ok (res, s', w')) : SInv s' ∧ (res ≠ 0 → res < 0 ∧ s'.state = .failed) := by
  rcases process_ok E h w p with (e | e) | ⟨_, _, _, e, g1, g2, _⟩
  · rw [e] at hp; cases hp
  · rw [e] at hp; cases hp
  · rw [e] at hp
    cases hp
    refine ⟨g2.inv, fun hne => ?_⟩
    cases g1 with
    | ok => exact absurd rfl hne
    | fail _ _ _ k _ k2 => exact ⟨k, k2⟩
    | io _ _ _ _ _ k => exact ⟨by decide, k⟩

/-- How the loop ends. -/
inductive CbEnd (P off : Nat) (rs : Reads) (s' : ApplyPatch) : Int → Reads → Prop
  /-- The whole patch was read and processed. -/
  | all {evs} : (∀ x ∈ evs, x.2 = 0) → off + (evs.map Prod.fst).sum = P → CbEnd P off rs s' 0 (evs ++ rs)
  /-- Processing failed. -/
  | failed {evs e} : (∀ x ∈ evs, x.2 = 0) → e < 0 → s'.state = .failed → CbEnd P off rs s' e (evs ++ rs)
  /-- Reading the patch failed. -/
  | read {evs x} : (∀ x ∈ evs, x.2 = 0) → x.2 ≠ 0 → CbEnd P off rs s' IO_FAILED (x :: evs ++ rs)

omit [Build] in
theorem good_snoc {evs : Reads} {n : Nat} (h : ∀ x ∈ evs, x.2 = 0) : ∀ x ∈ evs ++ [(n, 0)], x.2 = 0 := by
  intro x hx
  simp only [List.mem_append, List.mem_singleton] at hx
  rcases hx with hx | rfl
  · exact h x hx
  · rfl

theorem callbacksLoop_ok (E : SeqEnv σ) (pr : PatchRead σ) (P : Nat) : ∀ (fuel off : Nat) (s : ApplyPatch) (w : World σ) (rs : Reads),
    SInv s → off ≤ P → P - off + 2 ≤ fuel →
    (callbacksLoop E pr P fuel 0 off s w rs = .error .uninit ∨ callbacksLoop E pr P fuel 0 off s w rs = .error .overflow) ∨
    ∃ res s' w' rs', callbacksLoop E pr P fuel 0 off s w rs = .ok (res, s', w', rs') ∧ SInv s' ∧ CbEnd P off rs s' res rs' := by
  intro fuel
  induction fuel with
  | zero => intro off s w rs _ _ h; omega
  | succ fuel ih =>
    intro off s w rs hs hoff hfuel
    unfold callbacksLoop
    by_cases hlt : off < P
    · rw [if_pos ⟨hlt, rfl⟩]
      simp only
      have hcap : 0 < callbackCap := by decide
      rcases hpr : pr w.arg (min (P - off) callbackCap) with ⟨res, chunk, arg⟩
      simp only
      by_cases hres : res = 0
      · subst hres
        rw [if_pos rfl]
        by_cases hl : chunk.length ≠ min (P - off) callbackCap
        · rw [if_pos hl]; exact .inl (.inl rfl)
        · rw [if_neg hl]
          rcases process_ok E hs { w with arg := arg } chunk with (e | e) | ⟨res, s1, w1, e, _, _, _⟩
          · rw [e]; exact .inl (.inl rfl)
          · rw [e]; exact .inl (.inr rfl)
          · rw [e]
            simp only [Bind.bind, Except.bind]
            obtain ⟨hi, hf⟩ := process_failed E hs _ _ e
            by_cases hr : res = 0
            · subst hr
              rcases ih (off + min (P - off) callbackCap) s1 w1 ((min (P - off) callbackCap, 0) :: rs) hi (by omega) (by omega) with h | ⟨res', s', w', rs', h1, h2, h3⟩
              · exact .inl h
              · refine .inr ⟨res', s', w', rs', h1, h2, ?_⟩
                cases h3 with
                | @all evs k1 k2 =>
                  have : CbEnd P off rs s' 0 ((evs ++ [(min (P - off) callbackCap, 0)]) ++ rs) :=
                    .all (good_snoc k1)
                      (by simp only [List.map_append, List.sum_append, List.map_cons, List.map_nil, List.sum_cons, List.sum_nil]; omega)
                  simpa using this
                | @failed evs e k1 k2 k3 =>
                  have : CbEnd P off rs s' res' ((evs ++ [(min (P - off) callbackCap, 0)]) ++ rs) :=
                    .failed (good_snoc k1) k2 k3
                  simpa using this
                | @read evs x k1 k2 =>
                  have : CbEnd P off rs s' IO_FAILED (x :: (evs ++ [(min (P - off) callbackCap, 0)]) ++ rs) :=
                    .read (good_snoc k1) k2
                  simpa using this
            · obtain ⟨f, rfl⟩ : ∃ f, fuel = f + 1 := ⟨fuel - 1, by omega⟩
              unfold callbacksLoop
              rw [if_neg (by rintro ⟨_, h⟩; exact hr h)]
              exact .inr ⟨res, s1, w1, _, rfl, hi, .failed (evs := [_]) (by simp) (hf hr).1 (hf hr).2⟩
      · rw [if_neg hres]
        obtain ⟨f, rfl⟩ : ∃ f, fuel = f + 1 := ⟨fuel - 1, by omega⟩
        unfold callbacksLoop
        rw [if_neg (by rintro ⟨_, h⟩; exact absurd h (by decide))]
        exact .inr ⟨_, _, _, _, rfl, hs, .read (evs := []) (by simp) hres⟩
    · rw [if_neg (by omega)]
      exact .inr ⟨_, _, _, _, rfl, hs, .all (evs := []) (by simp) (by simp; omega)⟩

/-- The parts of the patch have at most 512 bytes. -/
theorem callbacksLoop_cap (E : SeqEnv σ) (pr : PatchRead σ) (P : Nat) : ∀ (fuel : Nat) (res : Int) (off : Nat) (s : ApplyPatch) (w : World σ) (rs : Reads) {res' s' w' rs'},
    (∀ x ∈ rs, x.1 ≤ 512) → callbacksLoop E pr P fuel res off s w rs = .ok (res', s', w', rs') → ∀ x ∈ rs', x.1 ≤ 512 := by
  intro fuel
  induction fuel with
  | zero => intro res off s w rs res' s' w' rs' _ h; cases h
  | succ fuel ih =>
    intro res off s w rs res' s' w' rs' hrs h
    unfold callbacksLoop at h
    by_cases hc : off < P ∧ res = 0
    · rw [if_pos hc] at h
      simp only at h
      have hrs' : ∀ (r : Int), ∀ x ∈ (min (P - off) callbackCap, r) :: rs, x.1 ≤ 512 := by
        intro r x hx
        rcases List.mem_cons.1 hx with rfl | hx
        · simp only [callbackCap]; omega
        · exact hrs x hx
      by_cases hr : (pr w.arg (min (P - off) callbackCap)).1 = 0
      · rw [if_pos hr] at h
        by_cases hl : (pr w.arg (min (P - off) callbackCap)).2.1.length ≠ min (P - off) callbackCap
        · rw [if_pos hl] at h; cases h
        · rw [if_neg hl] at h
          generalize applyPatchProcess E s _ _ = y at h
          rcases y with e | ⟨a, s1, w1⟩
          · cases h
          · exact ih _ _ _ _ _ (hrs' _) h
      · rw [if_neg hr] at h
        exact ih _ _ _ _ _ (hrs' _) h
    · rw [if_neg hc] at h
      cases h
      exact hrs

/-! ### With a separate source of the patch -/

theorem callbacksLoop_with (E : SeqEnv τ) (read : PatchRead ρ) (P : Nat) : ∀ (fuel off : Nat) (s : ApplyPatch) (w : World τ) (r : ρ) (rs : Reads) (ps : List Bytes),
    SInv s → off ≤ P → P - off + 2 ≤ fuel → Supplies read r (P - off) ps →
    match processAll E s w ps with
    | .error u => callbacksLoop (E.with ρ) (patchReadWith τ read) P fuel 0 off s (w.attach r) rs = .error u
    | .ok (res, s', w') => ∃ r' rs', callbacksLoop (E.with ρ) (patchReadWith τ read) P fuel 0 off s (w.attach r) rs = .ok (res, s', w'.attach r', rs') ∧
        SInv s' ∧ (res ≠ 0 → s'.state = .failed) := by
  intro fuel
  induction fuel with
  | zero => intro off s w r rs ps _ _ h; omega
  | succ fuel ih =>
    intro off s w r rs ps hs hoff hfuel hsup
    generalize hn : P - off = n at hsup
    cases hsup with
    | done =>
      unfold callbacksLoop
      rw [if_neg (by omega)]
      exact ⟨r, rs, rfl, hs, fun h => absurd rfl h⟩
    | @part _ _ p r' ps h0 h1 h2 h3 =>
      unfold callbacksLoop processAll
      rw [if_pos ⟨by omega, rfl⟩]
      have hcap : callbackCap = 512 := rfl
      have e1 : patchReadWith τ read (w.attach r).arg (min n 512) = (0, p, (w.arg, r')) := by
        simp only [patchReadWith, World.attach, h1]
      rw [hn, hcap]
      simp only [e1, if_true]
      rw [if_neg (by rw [h2]; simp)]
      have e2 : ({ w.attach r with arg := (w.arg, r') } : World (τ × ρ)) = w.attach r' := rfl
      rw [e2, applyPatchProcess_with]
      cases hp : applyPatchProcess E s w p with
      | error u => rfl
      | ok x =>
        obtain ⟨res, s1, w1⟩ := x
        obtain ⟨hi, hf⟩ := process_failed E hs w p hp
        simp only [Except.map, attachRes, Bind.bind, Except.bind]
        by_cases hr : res = 0
        · subst hr
          rw [if_neg (by simp)]
          exact ih (off + min n 512) s1 w1 r' _ ps hi (by omega) (by omega) (by rw [show P - (off + min n 512) = n - min n 512 by omega]; exact h3)
        · rw [if_pos hr]
          obtain ⟨f, rfl⟩ : ∃ f, fuel = f + 1 := ⟨fuel - 1, by omega⟩
          unfold callbacksLoop
          rw [if_neg (by rintro ⟨_, h⟩; exact hr h)]
          exact ⟨r', _, rfl, hi, fun _ => (hf hr).2⟩

/-! ### Reading the patch from a file -/

omit [Build] in
theorem parts512_nil : parts512 [] = [] := rfl

omit [Build] in
theorem parts512_cons {xs : Bytes} (h : xs ≠ []) : parts512 xs = xs.take 512 :: parts512 (xs.drop 512) := by
  unfold parts512
  have hl : 0 < xs.length := List.length_pos_iff.2 h
  rw [show (xs.length + 511) / 512 = ((xs.drop 512).length + 511) / 512 + 1 by rw [List.length_drop]; omega, List.range_succ_eq_map]
  simp only [List.map_cons, Nat.mul_zero, List.drop_zero, List.map_map, List.cons.injEq, true_and]
  apply List.map_congr_left
  intro i _
  simp only [Function.comp, List.drop_drop]
  congr 2
  omega

omit [Build] in
theorem parts512_flatten (n : Nat) : ∀ xs : Bytes, xs.length ≤ n → (parts512 xs).flatten = xs := by
  induction n with
  | zero =>
    intro xs h
    have : xs = [] := List.length_eq_zero_iff.1 (by omega)
    subst this
    rfl
  | succ n ih =>
    intro xs h
    by_cases hx : xs = []
    · subst hx; rfl
    · have hl : 0 < xs.length := List.length_pos_iff.2 hx
      rw [parts512_cons hx, List.flatten_cons, ih _ (by rw [List.length_drop]; omega), List.take_append_drop]

omit [Build] in
theorem supplies_file (data : Bytes) (n : Nat) : ∀ pos : Nat, data.length - pos ≤ n →
    Supplies fileRead { data := data, pos := pos } (data.length - pos) (parts512 (data.drop pos)) := by
  induction n with
  | zero =>
    intro pos h
    rw [show data.length - pos = 0 by omega, List.drop_eq_nil_of_le (by omega)]
    exact .done
  | succ n ih =>
    intro pos h
    by_cases hp : data.length ≤ pos
    · rw [show data.length - pos = 0 by omega, List.drop_eq_nil_of_le hp]
      exact .done
    · have hne : data.drop pos ≠ [] := fun e => by
        have := congrArg List.length e
        rw [List.length_drop, List.length_nil] at this
        omega
      rw [parts512_cons hne]
      have hr : fileRead { data := data, pos := pos } (min (data.length - pos) 512) =
          (0, (data.drop pos).take 512, { data := data, pos := pos + min (data.length - pos) 512 }) := by
        unfold fileRead
        rw [if_pos (.inr (by simp only; omega))]
        simp only [Prod.mk.injEq, true_and, and_true]
        rw [show min (data.length - pos) 512 = min 512 (data.drop pos).length by rw [List.length_drop]; omega, ← List.take_take, List.take_length]
      refine .part (by omega) hr (by rw [List.length_take, List.length_drop]; omega) ?_
      have := ih (pos + min (data.length - pos) 512) (by omega)
      rw [show data.length - (pos + min (data.length - pos) 512) = data.length - pos - min (data.length - pos) 512 by omega] at this
      rw [List.drop_drop]
      by_cases h512 : data.length - pos ≤ 512
      · rw [List.drop_eq_nil_of_le (by omega)]
        rw [List.drop_eq_nil_of_le (by omega)] at this
        exact this
      · rw [show pos + min (data.length - pos) 512 = pos + 512 by omega] at this ⊢
        exact this

/-- An invariant of the object and the callbacks made holds through the loop. -/
theorem callbacksLoop_inv (E : SeqEnv σ) (pr : PatchRead σ) (P : Nat) (Q : ApplyPatch → List Ev → Prop)
    (hQ : ∀ s w p res s' w', SInv s → Q s w.trace → applyPatchProcess E s w p = .ok (res, s', w') → Q s' w'.trace) :
    ∀ (fuel : Nat) (res : Int) (off : Nat) (s : ApplyPatch) (w : World σ) (rs : Reads) {res' s' w' rs'},
    SInv s → Q s w.trace → callbacksLoop E pr P fuel res off s w rs = .ok (res', s', w', rs') → Q s' w'.trace := by
  intro fuel
  induction fuel with
  | zero => intro res off s w rs res' s' w' rs' _ _ h; cases h
  | succ fuel ih =>
    intro res off s w rs res' s' w' rs' hs hq h
    unfold callbacksLoop at h
    by_cases hc : off < P ∧ res = 0
    · rw [if_pos hc] at h
      simp only at h
      by_cases hr : (pr w.arg (min (P - off) callbackCap)).1 = 0
      · rw [if_pos hr] at h
        by_cases hl : (pr w.arg (min (P - off) callbackCap)).2.1.length ≠ min (P - off) callbackCap
        · rw [if_pos hl] at h; cases h
        · rw [if_neg hl] at h
          cases hy : applyPatchProcess E s { w with arg := (pr w.arg (min (P - off) callbackCap)).2.2 } (pr w.arg (min (P - off) callbackCap)).2.1 with
          | error e => rw [hy] at h; cases h
          | ok y =>
            obtain ⟨a, s1, w1⟩ := y
            rw [hy] at h
            exact ih _ _ _ _ _ (process_failed E hs _ _ hy).1 (hQ _ { w with arg := (pr w.arg (min (P - off) callbackCap)).2.2 } _ _ _ _ hs hq hy) h
      · rw [if_neg hr] at h
        exact ih _ _ _ { w with arg := (pr w.arg (min (P - off) callbackCap)).2.2 } _ hs hq h
    · rw [if_neg hc] at h
      cases h
      exact hq

omit [Build] in
/-- The header of a patch in parts of 512 bytes is not split. -/
theorem headerInFirst_parts (patch : Bytes) : HeaderInFirst patch.length (parts512 patch) := by
  intro b t v len rest h1 h2 h3 h4
  have hf := parts512_flatten _ patch (Nat.le_refl _)
  rw [hf] at h1
  have hlen : len + rest.length = t.length := by
    obtain ⟨c, rfl, rfl, _⟩ := unpackSizeWithLength_consumes _ _ _ _ h3
    rw [List.length_append]
  have h5 : patch.length = t.length + 1 := by rw [h1]; rfl
  refine ⟨by omega, fun piece hp => ?_⟩
  have hne : patch ≠ [] := by rw [h1]; simp
  rw [parts512_cons hne, List.find?_cons] at hp
  have : (decide (patch.take 512 ≠ [])) = true := by
    rw [h1]; rfl
  rw [this] at hp
  cases hp
  rw [List.length_take]
  omega

end Detools
