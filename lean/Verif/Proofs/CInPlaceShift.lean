import Verif.Proofs.Flash
/-
in_place_shift_memory on a memory that may lose power.
-/
namespace Detools

variable [Build]

omit [Build] in
theorem sz_small {n : Nat} (h : n < 2 ^ 64) : sz n = n := Nat.mod_eq_of_lt h

omit [Build] in
theorem szOfInt_nat {v : Int} (h0 : 0 ≤ v) (h : v < 2 ^ 64) : szOfInt v = v.toNat := by
  unfold szOfInt; omega

variable {G : Geo} {P : Power} {steps : Bool} {k0 : Nat}

omit [Build] in
theorem Ready.shiftSafe (hG : G.Ok) {k : Nat} (hk : k < G.nS) {m : Bytes} (h : Ready G k m) {addr : Nat} {d : Bytes}
    (h1 : G.H + (G.nS - 1 - k) * G.S ≤ addr) (h2 : addr + d.length ≤ G.H + (G.nS - 1 - k) * G.S + G.S) :
    Ready G k (fileWrite m addr d) := by
  obtain ⟨q, hq⟩ : ∃ q, q = G.nS - 1 - k := ⟨_, rfl⟩
  have hq1 : G.nS - k = q + 1 := by omega
  rw [← hq] at h1 h2
  have hqS : (q + 1) * G.S = q * G.S + G.S := by rw [Nat.add_mul, Nat.one_mul]
  have hle : (q + 1) * G.S ≤ G.nS * G.S := Nat.mul_le_mul_right _ (by omega)
  have hsh := hG.shift
  have hfit := hG.fit
  have hlen := h.len
  refine ⟨?_, fun _ => ?_, fun _ => ?_, fun hc => by omega, fun hc => by omega⟩
  · rw [fileWrite_length _ _ _ (by omega), hlen]
  · refine (h.src hk).kept (.inl ?_)
    rw [hq1, List.length_take]
    omega
  · refine (h.dst hk).kept (.inr ?_)
    rw [hq1]
    omega

omit [Build] in
theorem Ready.shiftNext (hG : G.Ok) {k : Nat} (hk : k < G.nS) {m : Bytes} (h : Ready G k m)
    (hs : Holds m (G.H + (G.nS - 1 - k) * G.S) ((G.D.drop ((G.nS - 1 - k) * G.S)).take G.S)) : Ready G (k + 1) m := by
  obtain ⟨q, hq⟩ : ∃ q, q = G.nS - 1 - k := ⟨_, rfl⟩
  have hq1 : G.nS - k = q + 1 := by omega
  rw [← hq] at hs
  have hqS : (q + 1) * G.S = q * G.S + G.S := by rw [Nat.add_mul, Nat.one_mul]
  have hle : (q + 1) * G.S ≤ G.nS * G.S := Nat.mul_le_mul_right _ (by omega)
  have hD := hG.len
  have hdst : Holds m (G.H + q * G.S) (G.D.drop (q * G.S)) := by
    have h1 := h.dst hk
    rw [hq1] at h1
    rw [← List.take_append_drop G.S (G.D.drop (q * G.S)), Holds.append]
    refine ⟨hs, ?_⟩
    rw [List.drop_drop, ← hqS]
    have : (List.take G.S (List.drop (q * G.S) G.D)).length = G.S := by
      simp only [List.length_take, List.length_drop]; omega
    rw [this, Nat.add_assoc, ← hqS]
    exact h1
  refine ⟨h.len, fun hc => ?_, fun hc => ?_, fun hc => ?_, fun hc => ?_⟩
  · rw [show G.nS - (k + 1) = q by omega]
    have := (h.src hk).take (q * G.S)
    rw [hq1, List.take_take, Nat.min_eq_left (by omega)] at this
    exact this
  · rw [show G.nS - (k + 1) = q by omega]
    exact hdst
  · have : k + 1 = G.nS := by omega
    rw [this, Nat.sub_self, Nat.zero_mul, List.take_zero]
    exact Holds.nil _ _
  · have hz : q = 0 := by omega
    have h0 : k + 1 - G.nS = 0 := by omega
    subst hz
    simp only [h0, Nat.zero_add, Nat.mul_one, Nat.zero_mul, Nat.add_zero, List.drop_zero] at hdst ⊢
    have hsh := hG.shift
    rw [Nat.max_eq_right hsh, show G.S - G.H = 0 by omega, List.drop_zero]
    obtain ⟨t, ht⟩ := hG.pre
    rw [← ht, Holds.append] at hdst
    exact hdst.1

omit [Build] in
theorem copy_live (hG : G.Ok) {o : Nat} (ho : k0 ≤ o) (hk : o < G.nS) :
    ∀ (fuel offset : Nat) (w : MWorld Flash), Live G P steps k0 o w → offset ≤ G.S →
    Holds w.arg.mem (G.H + (G.nS - 1 - o) * G.S) ((G.D.drop ((G.nS - 1 - o) * G.S)).take offset) → G.S - offset < fuel →
    ∃ w', (copyLoop (flashEnv P steps) (o + 1 : Nat) G.S ((G.nS - 1 - o) * G.S) ((G.nS - 1 - o) * G.S + G.H) fuel offset w = .ok (0, w') ∧
        Live G P steps k0 o w' ∧ Ready G (o + 1) w'.arg.mem) ∨
      (copyLoop (flashEnv P steps) (o + 1 : Nat) G.S ((G.nS - 1 - o) * G.S) ((G.nS - 1 - o) * G.S + G.H) fuel offset w = .ok (-1, w') ∧
        Dead G P steps k0 w') := by
  obtain ⟨q, hq⟩ : ∃ q, q = G.nS - 1 - o := ⟨_, rfl⟩
  have hsh := hG.shift
  have hfit := hG.fit
  have hsm := hG.small
  have hD := hG.len
  have hqS : (q + 1) * G.S = q * G.S + G.S := by rw [Nat.add_mul, Nat.one_mul]
  have hle : (q + 1) * G.S ≤ G.nS * G.S := Nat.mul_le_mul_right _ (by omega)
  intro fuel
  induction fuel with
  | zero => intro offset w _ _ _ h; omega
  | succ fuel ih =>
    intro offset w hL h1 h2 h3
    unfold copyLoop
    by_cases hlt : offset < G.S
    · rw [if_pos hlt]
      rw [← hq] at h2 ih ⊢
      obtain ⟨c, hc⟩ : ∃ c, c = min shiftCap (G.S - offset) := ⟨_, rfl⟩
      have hc1 : 0 < c ∧ c ≤ G.S - offset := by
        have : shiftCap = 128 := rfl
        omega
      rw [← hc, sz_small (by omega), sz_small (by omega)]
      obtain ⟨w1, e1, hL1, a1⟩ := live_read hL ho (addr := q * G.S + offset) (n := c) (by omega)
      simp only [e1, Bind.bind, Except.bind, ne_eq, not_true, if_false]
      -- the data read
      have hmax : max k0 o = o := by omega
      have hrec := hL1.mem
      rw [hmax] at hrec
      have hsrc : Holds w.arg.mem (q * G.S + offset) (((G.D.drop (q * G.S)).drop offset).take c) := by
        have := hrec.src hk
        rw [show G.nS - o = q + 1 by omega, a1] at this
        have := this.drop (q * G.S + offset) (by simp only [List.length_take]; omega)
        rw [Nat.zero_add, List.drop_take] at this
        have := this.take c
        rw [List.take_take, Nat.min_eq_left (by omega)] at this
        rw [List.drop_drop]
        exact this
      have hdl : (((G.D.drop (q * G.S)).drop offset).take c).length = c := by
        simp only [List.length_take, List.length_drop]; omega
      have hrd := hsrc.read
      rw [hdl] at hrd
      rw [hrd]
      obtain ⟨w2, hw2⟩ := live_write hL1 ho (addr := q * G.S + G.H + offset) (data := ((G.D.drop (q * G.S)).drop offset).take c)
        (by rw [hdl]; omega)
        (by
          intro d hd
          rw [hdl] at hd
          exact hrec.shiftSafe hG hk (by rw [← hq]; omega) (by rw [← hq]; omega))
      rcases hw2 with ⟨e2, hL2, m2⟩ | ⟨e2, hdead⟩
      · rw [e2]
        simp only [not_true, if_false]
        refine ih (offset + c) w2 hL2 (by omega) ?_ (by omega)
        rw [m2, a1, List.take_add, Holds.append]
        have hl : (List.take offset (List.drop (q * G.S) G.D)).length = offset := by
          simp only [List.length_take, List.length_drop]; omega
        refine ⟨h2.kept (.inl ?_), ?_⟩
        · rw [hl]; omega
        · rw [hl, show G.H + q * G.S + offset = q * G.S + G.H + offset by omega]
          exact Holds.written _ _ _
      · rw [e2]
        exact ⟨w2, .inr ⟨rfl, hdead⟩⟩
    · rw [if_neg hlt]
      have : offset = G.S := by omega
      rw [this] at h2
      have hmax : max k0 o = o := by omega
      have hrec := hL.mem
      rw [hmax] at hrec
      exact ⟨w, .inl ⟨rfl, hL, hrec.shiftNext hG hk h2⟩⟩

omit [Build] in
theorem copy_skip {o : Nat} (ho : o < k0) (S a b : Nat) :
    ∀ (fuel offset : Nat) (w : MWorld Flash), Live G P steps k0 o w → S - offset < fuel →
    ∃ w', copyLoop (flashEnv P steps) (o + 1 : Nat) S a b fuel offset w = .ok (0, w') ∧
        Live G P steps k0 o w' ∧ w'.arg = w.arg := by
  intro fuel
  induction fuel with
  | zero => intro offset w _ h; omega
  | succ fuel ih =>
    intro offset w hL h3
    unfold copyLoop
    by_cases hlt : offset < S
    · rw [if_pos hlt]
      obtain ⟨c, hc⟩ : ∃ c, c = min shiftCap (S - offset) := ⟨_, rfl⟩
      have hc1 : 0 < c ∧ c ≤ S - offset := by
        have : shiftCap = 128 := rfl
        omega
      rw [← hc]
      obtain ⟨w1, e1, hL1, a1⟩ := skip_read hL ho (sz (a + offset)) c
      simp only [e1, Bind.bind, Except.bind, ne_eq, not_true, if_false]
      obtain ⟨w2, e2, hL2, a2⟩ := skip_write hL1 ho (sz (b + offset)) (List.replicate c 0)
      rw [e2]
      simp only [not_true, if_false]
      obtain ⟨w3, e3, hL3, a3⟩ := ih (offset + c) w2 hL2 (by omega)
      exact ⟨w3, e3, hL3, by rw [a3, a2, a1]⟩
    · rw [if_neg hlt]
      exact ⟨w, rfl, hL, rfl⟩

omit [Build] in
theorem shiftOne_ok (hG : G.Ok) {o : Nat} (hk : o < G.nS) (hT : 0 < G.nT) {s : InPlace} {w : MWorld Flash} (hL : Live G P steps k0 o w)
    (hs : s.ongoingStep = (o + 1 : Nat)) (hS : s.segmentSize = G.S) :
    ∃ w', (shiftOne (flashEnv P steps) s w ((G.nS - 1 - o) * G.S) ((G.nS - 1 - o) * G.S + G.H) =
          .ok (0, { s with ongoingStep := (o + 2 : Nat) }, w') ∧ Live G P steps k0 (o + 1) w') ∨
      (∃ e s', (e < 0 ∧ e ≠ ALREADY_DONE) ∧ shiftOne (flashEnv P steps) s w ((G.nS - 1 - o) * G.S) ((G.nS - 1 - o) * G.S + G.H) = .ok (e, s', w') ∧
        Dead G P steps k0 w') := by
  have hn : o + 1 < G.n := by unfold Geo.n; omega
  unfold shiftOne
  rw [hs, hS]
  by_cases ho : o < k0
  · obtain ⟨w1, e1, hL1, a1⟩ := skip_erase hL ho ((G.nS - 1 - o) * G.S + G.H) G.S
    rw [e1]
    simp only [ne_eq, not_true, if_false]
    obtain ⟨w2, e2, hL2, a2⟩ := copy_skip ho G.S ((G.nS - 1 - o) * G.S) ((G.nS - 1 - o) * G.S + G.H) (G.S + 1) 0 w1 hL1 (by omega)
    rw [e2]
    simp only [Bind.bind, Except.bind, not_true, if_false]
    obtain ⟨w3, hw3⟩ := live_next hL2 hs hn (fun h => by omega)
    rcases hw3 with ⟨e3, hL3, _⟩ | ⟨e3, hd⟩
    · exact ⟨w3, .inl ⟨by rw [e3, ← hS], hL3⟩⟩
    · exact ⟨w3, .inr ⟨STEP_SET_FAILED, _, by decide, by rw [e3], hd⟩⟩
  · have ho : k0 ≤ o := by omega
    obtain ⟨q, hq⟩ : ∃ q, q = G.nS - 1 - o := ⟨_, rfl⟩
    have hsh := hG.shift
    have hfit := hG.fit
    have hqS : (q + 1) * G.S = q * G.S + G.S := by rw [Nat.add_mul, Nat.one_mul]
    have hle : (q + 1) * G.S ≤ G.nS * G.S := Nat.mul_le_mul_right _ (by omega)
    have hmax : max k0 o = o := by omega
    have hrec := hL.mem
    rw [hmax] at hrec
    obtain ⟨w1, hw1⟩ := live_erase hL ho (addr := (G.nS - 1 - o) * G.S + G.H) (n := G.S) (by rw [← hq]; omega)
      (fun d hd => hrec.shiftSafe hG hk (by omega) (by omega))
    rcases hw1 with ⟨e1, hL1, _⟩ | ⟨e1, hd⟩
    · rw [e1]
      simp only [ne_eq, not_true, if_false]
      obtain ⟨w2, hw2⟩ := copy_live hG ho hk (G.S + 1) 0 w1 hL1 (by omega) (by rw [List.take_zero]; exact Holds.nil _ _) (by omega)
      rcases hw2 with ⟨e2, hL2, hr2⟩ | ⟨e2, hd⟩
      · rw [e2]
        simp only [Bind.bind, Except.bind, not_true, if_false]
        obtain ⟨w3, hw3⟩ := live_next hL2 hs hn (fun _ => hr2)
        rcases hw3 with ⟨e3, hL3, _⟩ | ⟨e3, hd⟩
        · exact ⟨w3, .inl ⟨by rw [e3, ← hS], hL3⟩⟩
        · exact ⟨w3, .inr ⟨STEP_SET_FAILED, _, by decide, by rw [e3], hd⟩⟩
      · rw [e2]
        simp only [Bind.bind, Except.bind]
        exact ⟨w2, .inr ⟨-1, s, by decide, by simp, hd⟩⟩
    · rw [e1]
      exact ⟨w1, .inr ⟨-1, s, by decide, by simp, hd⟩⟩

omit [Build] in
theorem shiftLoop_ok (hG : G.Ok) (hT : 0 < G.nT) : ∀ (n o : Nat) (s : InPlace) (w : MWorld Flash) (ra wa : Nat), o + n = G.nS →
    Live G P steps k0 o w → s.ongoingStep = (o + 1 : Nat) → s.segmentSize = G.S →
    (0 < n → ra = (n - 1) * G.S ∧ wa = (n - 1) * G.S + G.H) →
    ∃ w', (shiftLoop (flashEnv P steps) n s w ra wa = .ok (0, { s with ongoingStep := (G.nS + 1 : Nat) }, w') ∧ Live G P steps k0 G.nS w') ∨
      (∃ e s', (e < 0 ∧ e ≠ ALREADY_DONE) ∧ shiftLoop (flashEnv P steps) n s w ra wa = .ok (e, s', w') ∧ Dead G P steps k0 w') := by
  intro n
  induction n with
  | zero =>
    intro o s w ra wa ho hL hs hS _
    have : o = G.nS := by omega
    subst this
    refine ⟨w, .inl ⟨?_, hL⟩⟩
    rw [shiftLoop, ← hs]
  | succ n ih =>
    intro o s w ra wa ho hL hs hS hra
    obtain ⟨r1, r2⟩ := hra (by omega)
    have hsh := hG.shift
    have hfit := hG.fit
    have hsm := hG.small
    have hle : (n + 1) * G.S ≤ G.nS * G.S := Nat.mul_le_mul_right _ (by omega)
    have hnS : (n + 1) * G.S = n * G.S + G.S := by rw [Nat.add_mul, Nat.one_mul]
    unfold shiftLoop
    rw [r1, r2, show n + 1 - 1 = G.nS - 1 - o by omega]
    obtain ⟨w1, hw1⟩ := shiftOne_ok hG (by omega) hT hL hs hS
    rcases hw1 with ⟨e1, hL1⟩ | ⟨e, s', he, e1, hd⟩
    · rw [e1]
      simp only [Bind.bind, Except.bind, ne_eq, not_true, if_false]
      rw [show G.nS - 1 - o = n by omega]
      exact ih (o + 1) { s with ongoingStep := (o + 2 : Nat) } w1 (szOfInt (((n * G.S : Nat) : Int) - s.segmentSize))
        (szOfInt (((n * G.S + G.H : Nat) : Int) - s.segmentSize)) (by omega) hL1 rfl hS (by
        intro hn
        have : n * G.S = (n - 1) * G.S + G.S := by
          conv => lhs; rw [show n = (n - 1) + 1 by omega, Nat.add_mul, Nat.one_mul]
        refine ⟨?_, ?_⟩
        · rw [hS, szOfInt_nat (by omega) (by omega)]; omega
        · rw [hS, szOfInt_nat (by omega) (by omega)]; omega)
    · rw [e1]
      simp only [Bind.bind, Except.bind]
      rw [if_pos (by omega)]
      exact ⟨w1, .inr ⟨e, s', he, rfl, hd⟩⟩

omit [Build] in
theorem sz_pred {z : Nat} (h1 : 0 < z) (h2 : z < 2 ^ 40) : sz (z + (2 ^ 64 - 1)) = z - 1 := by
  unfold sz; omega

omit [Build] in
theorem shift_ok (hG : G.Ok) (hT : 0 < G.nT) {s : InPlace} {w : MWorld Flash} (hL : Live G P steps k0 0 w)
    (hs : s.ongoingStep = 1) (hS : s.segmentSize = G.S) (hH : s.shiftSize = G.H) :
    ∃ w', (inPlaceShiftMemory (flashEnv P steps) s w G.M G.F = .ok (0, { s with ongoingStep := (G.nS + 1 : Nat) }, w') ∧
        Live G P steps k0 G.nS w') ∨
      (∃ e s', (e < 0 ∧ e ≠ ALREADY_DONE) ∧ inPlaceShiftMemory (flashEnv P steps) s w G.M G.F = .ok (e, s', w') ∧ Dead G P steps k0 w') := by
  have hseg := hG.seg
  have hsh := hG.shift
  have hfit := hG.fit
  have hsm := hG.small
  have hfs := hG.fsmall
  unfold inPlaceShiftMemory
  rw [if_neg (by rw [hS]; omega)]
  have hn : sz (sz (min G.F (szOfInt ((G.M : Int) - s.shiftSize)) + s.segmentSize) + (2 ^ 64 - 1)) / s.segmentSize = G.nS := by
    unfold Geo.nS
    rw [hS, hH, szOfInt_nat (by omega) (by omega), show ((G.M : Int) - G.H).toNat = G.M - G.H by omega, sz_small (n := _ + G.S) (by omega)]
    rw [sz_pred (by omega) (by omega)]
  simp only [hn]
  refine shiftLoop_ok hG hT G.nS 0 s w (szOfInt (((G.nS : Int) - 1) * s.segmentSize))
    (sz (szOfInt (((G.nS : Int) - 1) * s.segmentSize) + s.shiftSize)) (by omega) hL hs hS (fun h => ?_)
  have : G.nS * G.S = (G.nS - 1) * G.S + G.S := by
    conv => lhs; rw [show G.nS = (G.nS - 1) + 1 by omega, Nat.add_mul, Nat.one_mul]
  have hc : ((G.nS : Int) - 1) * G.S = ((G.nS - 1) * G.S : Nat) := by
    rw [show (G.nS : Int) - 1 = ((G.nS - 1 : Nat) : Int) by omega]; simp
  rw [hS, hH, hc, szOfInt_nat (by omega) (by omega), Int.toNat_natCast, sz_small (by omega)]
  exact ⟨rfl, rfl⟩

end Detools
