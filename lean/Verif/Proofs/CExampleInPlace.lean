import Verif.Spec.CExampleInPlace
import Verif.Props.CInPlaceSafety
/-
The update loop of the in-place example does what the loop over the pieces does.
-/
namespace Detools

theorem ipProcessAll_cons [Build] (E : MemEnv σ) {s s' : InPlace} {w w' : MWorld σ} {p : Bytes} {ps : List Bytes}
    (h : inPlaceProcess E s w p = .ok (0, s', w')) : inPlaceProcessAll E s w (p :: ps) = inPlaceProcessAll E s' w' ps := by
  simp only [inPlaceProcessAll, h, bind, Except.bind]
  exact if_neg (by decide)

theorem ipProcessAll_stop [Build] (E : MemEnv σ) {s s' : InPlace} {w w' : MWorld σ} {p : Bytes} {ps : List Bytes} {e : Int}
    (h : inPlaceProcess E s w p = .ok (e, s', w')) (he : e ≠ 0) : inPlaceProcessAll E s w (p :: ps) = .ok (e, s', w') := by
  simp only [inPlaceProcessAll, h, bind, Except.bind]
  exact if_pos he

/-- The loop does what the loop over the pieces that are not empty does, up to an error of the
serial line. -/
theorem updateLoop_pieces [Build] (E : MemEnv σ) : ∀ (reads : List SerialRead) (left : Nat) (s : InPlace) (w : MWorld σ) (out : LoopEnd σ),
    (serialBytes reads).length ≤ left → left < 2 ^ 64 → updateLoop E left s w reads = .ok out →
    ∃ pieces, pieces.flatten <+: serialBytes reads ∧ (∀ p ∈ pieces, p ≠ []) ∧
      (∀ p, pieces.head? = some p → (reads.map SerialRead.bytes).find? (· ≠ []) = some p) ∧
      match out with
      | .waiting s' w' => inPlaceProcessAll E s w pieces = .ok (0, s', w') ∧ pieces.flatten.length < left
      | .stopped res s' w' =>
        inPlaceProcessAll E s w pieces = .ok (res, s', w') ∧ (res = 0 → pieces.flatten.length = left) ∨
        res < 0 ∧ inPlaceProcessAll E s w pieces = .ok (0, s', w') ∧ ∃ n, .error n ∈ reads := by
  intro reads
  induction reads with
  | nil =>
    intro left s w out h1 h2 h
    unfold updateLoop at h
    refine ⟨[], List.nil_prefix, (fun p hp => by cases hp), (fun p hp => by cases hp), ?_⟩
    by_cases h0 : left = 0
    · rw [if_pos h0] at h
      cases h
      exact .inl ⟨rfl, fun _ => h0.symm⟩
    · rw [if_neg h0] at h
      cases h
      exact ⟨rfl, by simp only [List.flatten_nil, List.length_nil]; omega⟩
  | cons r rs ih =>
    intro left s w out h1 h2 h
    unfold updateLoop at h
    by_cases h0 : left = 0
    · rw [if_pos h0] at h
      cases h
      refine ⟨[], List.nil_prefix, (fun p hp => by cases hp), (fun p hp => by cases hp), ?_⟩
      exact .inl ⟨rfl, fun _ => h0.symm⟩
    · rw [if_neg h0] at h
      match r, h, h1 with
      | .error n, h, h1 =>
        simp only [] at h
        cases h
        exact ⟨[], List.nil_prefix, (fun p hp => by cases hp), (fun p hp => by cases hp),
          .inr ⟨by omega, rfl, n, List.mem_cons_self⟩⟩
      | .data [], h, h1 =>
        simp only [] at h
        obtain ⟨ps, g1, g2, g3, g4⟩ := ih left s w out h1 h2 h
        refine ⟨ps, g1, g2, fun p hp => ?_, ?_⟩
        · simp only [List.map_cons, SerialRead.bytes]
          rw [List.find?_cons_of_neg (by decide)]
          exact g3 p hp
        · cases out with
          | waiting s' w' => exact g4
          | stopped res s' w' =>
            rcases g4 with g4 | ⟨g4, g5, n, g6⟩
            · exact .inl g4
            · exact .inr ⟨g4, g5, n, List.mem_cons_of_mem _ g6⟩
      | .data (b :: bs), h, h1 =>
        have hsb : serialBytes (.data (b :: bs) :: rs) = (b :: bs) ++ serialBytes rs := rfl
        rw [hsb, List.length_append] at h1
        generalize hp : (b :: bs) = p at *
        have hpne : p ≠ [] := by rw [← hp]; exact List.cons_ne_nil _ _
        have hf : ∀ q : Bytes, some p = some q → ((SerialRead.data p :: rs).map SerialRead.bytes).find? (· ≠ []) = some q := by
          intro q hq
          simp only [List.map_cons, SerialRead.bytes]
          rw [List.find?_cons_of_pos (by simpa using hpne)]
          exact hq
        simp only [← hp] at h
        rw [hp] at h
        have hleft : szOfInt ((left : Int) - p.length) = left - p.length := by
          unfold szOfInt
          omega
        rw [hleft] at h
        cases hpr : inPlaceProcess E s w p with
        | error u => rw [hpr] at h; cases h
        | ok v =>
          obtain ⟨e, s1, w1⟩ := v
          rw [hpr] at h
          simp only [bind, Except.bind] at h
          by_cases he : e ≠ 0
          · rw [if_pos he] at h
            cases h
            refine ⟨[p], ?_, ?_, fun q hq => hf q hq, ?_⟩
            · rw [hsb]; simp
            · intro q hq
              rw [List.mem_singleton] at hq
              rw [hq]; exact hpne
            · exact .inl ⟨ipProcessAll_stop E hpr he, fun h => absurd h he⟩
          · rw [if_neg he] at h
            have he0 : e = 0 := by omega
            subst he0
            obtain ⟨ps, g1, g2, g3, g4⟩ := ih (left - p.length) s1 w1 out (by omega) (by omega) h
            refine ⟨p :: ps, ?_, ?_, fun q hq => hf q hq, ?_⟩
            · rw [hsb, List.flatten_cons]
              exact (List.prefix_append_right_inj _).2 g1
            · intro q hq
              rcases List.mem_cons.1 hq with rfl | hq
              · exact hpne
              · exact g2 q hq
            · have hall := ipProcessAll_cons E (ps := ps) hpr
              have hlen : (p :: ps).flatten.length = p.length + ps.flatten.length := by
                rw [List.flatten_cons, List.length_append]
              cases out with
              | waiting s' w' => exact ⟨by rw [hall]; exact g4.1, by have := g4.2; omega⟩
              | stopped res s' w' =>
                rcases g4 with ⟨g4, g5⟩ | ⟨g4, g5, n, g6⟩
                · exact .inl ⟨by rw [hall]; exact g4, fun h => by have := g5 h; omega⟩
                · exact .inr ⟨g4, by rw [hall]; exact g5, n, List.mem_cons_of_mem _ g6⟩

/-- The loop given all pieces. -/
theorem updateLoop_whole [Build] (E : MemEnv σ) (rest : List SerialRead) : ∀ (pieces : List Bytes) (s : InPlace) (w : MWorld σ),
    pieces.flatten.length < 2 ^ 64 →
    updateLoop E pieces.flatten.length s w (pieces.map .data ++ rest) =
      (inPlaceProcessAll E s w (pieces.filter (· ≠ []))).map fun r => .stopped r.1 r.2.1 r.2.2 := by
  intro pieces
  induction pieces with
  | nil =>
    intro s w _
    cases rest <;> rfl
  | cons p ps ih =>
    intro s w h2
    cases p with
    | nil =>
      rw [List.filter_cons_of_neg (by decide)]
      have hfl : (([] : Bytes) :: ps).flatten = ps.flatten := rfl
      rw [hfl] at h2 ⊢
      rw [List.map_cons, List.cons_append]
      unfold updateLoop
      by_cases h0 : ps.flatten.length = 0
      · rw [if_pos h0]
        have hall : ps.filter (· ≠ []) = [] := by
          rw [List.filter_eq_nil_iff]
          intro q hq
          have := List.eq_nil_of_length_eq_zero h0
          rw [List.flatten_eq_nil_iff] at this
          simpa using this q hq
        rw [hall]
        rfl
      · rw [if_neg h0]
        exact ih s w h2
    | cons b bs =>
      rw [List.filter_cons_of_pos (by simp), List.map_cons, List.cons_append]
      unfold updateLoop
      have hlen : ((b :: bs) :: ps).flatten.length = (b :: bs).length + ps.flatten.length := by
        rw [List.flatten_cons, List.length_append]
      rw [if_neg (by rw [hlen, List.length_cons]; omega)]
      have hleft : szOfInt ((((b :: bs) :: ps).flatten.length : Int) - (b :: bs).length) = ps.flatten.length := by
        unfold szOfInt
        omega
      simp only []
      rw [hleft]
      unfold inPlaceProcessAll
      cases hpr : inPlaceProcess E s w (b :: bs) with
      | error u => rfl
      | ok v =>
        obtain ⟨e, s1, w1⟩ := v
        simp only [bind, Except.bind]
        by_cases he : e ≠ 0
        · rw [if_pos he, if_pos he]; rfl
        · rw [if_neg he, if_neg he]
          exact ih s1 w1 (by omega)

theorem runCalls_cons [Build] {E : MemEnv σ} {s s1 s2 : InPlace} {w w1 w2 : MWorld σ} {p : Bytes} {e : Int} {cs : List Call} {rs : List Int}
    (h : inPlaceProcess E s w p = .ok (e, s1, w1)) (h' : runInPlaceCalls E s1 w1 cs = .ok (rs, s2, w2)) :
    runInPlaceCalls E s w (.process p :: cs) = .ok (e :: rs, s2, w2) := by
  simp only [runInPlaceCalls, h, h', bind, Except.bind]

theorem ipProcess_le [Build] {E : MemEnv σ} (hE : NeverPositive E) {s s1 : InPlace} {w w1 : MWorld σ} {p : Bytes} {e : Int} (hs : IPState s)
    (h : inPlaceProcess E s w p = .ok (e, s1, w1)) : e ≤ 0 ∧ IPState s1 := by
  rcases inPlaceProcess_safe (E := E) hs w p with ⟨u, e0, _⟩ | ⟨out, e1, e2, e3⟩
  · rw [h] at e0; cases e0
  · rw [h] at e1
    injection e1 with e1
    subst e1
    refine ⟨?_, e3⟩
    by_cases hf : s.state = .failed
    · obtain ⟨_, h4, _⟩ := ip_failed_process (E := E) hf w p
      rw [h] at h4
      injection h4 with h4; injection h4 with h4 _
      rw [h4]
      cases p
      · exact Int.le_refl 0
      · exact (by decide : ALREADY_FAILED ≤ 0)
    · cases e2 hf with
      | live _ _ _ h5 =>
        rcases h5 with h5 | ⟨_, h5⟩
        · omega
        · exact hE _ h5
      | fail _ _ h5 => rcases h5 with h5 | h5 <;> omega

/-- The loop is a history of calls, and its result is not positive. -/
theorem updateLoop_calls [Build] {E : MemEnv σ} (hE : NeverPositive E) : ∀ (reads : List SerialRead) (left : Nat) (s : InPlace) (w : MWorld σ)
    (res : Int) (s' : InPlace) (w' : MWorld σ), IPState s → updateLoop E left s w reads = .ok (.stopped res s' w') →
    res ≤ 0 ∧ ∃ (pieces : List Bytes) (rs : List Int), runInPlaceCalls E s w (pieces.map .process) = .ok (rs, s', w') := by
  intro reads
  induction reads with
  | nil =>
    intro left s w res s' w' _ h
    unfold updateLoop at h
    by_cases h0 : left = 0
    · rw [if_pos h0] at h
      injection h with h; injection h with h1 h2 h3
      subst h1 h2 h3
      exact ⟨Int.le_refl 0, [], [], rfl⟩
    · rw [if_neg h0] at h
      injection h with h; injection h
  | cons r rs ih =>
    intro left s w res s' w' hs h
    unfold updateLoop at h
    by_cases h0 : left = 0
    · rw [if_pos h0] at h
      injection h with h; injection h with h1 h2 h3
      subst h1 h2 h3
      exact ⟨Int.le_refl 0, [], [], rfl⟩
    · rw [if_neg h0] at h
      match r, h with
      | .error n, h =>
        simp only [] at h
        injection h with h; injection h with h1 h2 h3
        subst h1 h2 h3
        exact ⟨by omega, [], [], rfl⟩
      | .data [], h =>
        simp only [] at h
        exact ih left s w res s' w' hs h
      | .data (b :: bs), h =>
        simp only [] at h
        generalize szOfInt ((left : Int) - (b :: bs).length) = left' at h
        generalize b :: bs = p at h
        cases hpr : inPlaceProcess E s w p with
        | error u => rw [hpr] at h; cases h
        | ok v =>
          obtain ⟨e, s1, w1⟩ := v
          obtain ⟨hle, e3⟩ := ipProcess_le hE hs hpr
          rw [hpr] at h
          simp only [bind, Except.bind] at h
          by_cases he : e ≠ 0
          · rw [if_pos he] at h
            injection h with h; injection h with h1 h2 h3
            subst h1 h2 h3
            exact ⟨hle, [p], [e], runCalls_cons hpr rfl⟩
          · rw [if_neg he] at h
            obtain ⟨g1, ps, rs', g2⟩ := ih _ s1 w1 res s' w' e3 h
            exact ⟨g1, p :: ps, e :: rs', runCalls_cons hpr g2⟩

theorem updateRun_attempt [Build] {verify : Flash → Int → Int} {patch : Bytes} (hsize : patch.length < 2 ^ 64) {f f' : Flash}
    (h : UpdateRun verify patch f f') : Attempt patch f f' := by
  cases h with
  | run P reads later out h1 h2 h3 h4 =>
    unfold exampleUpdate at h3
    cases hl : updateLoop (flashEnv P true) patch.length (inPlaceInit patch.length) (powerOn f) reads with
    | error u => rw [hl] at h3; cases h3
    | ok le =>
      rw [hl] at h3
      simp only [bind, Except.bind] at h3
      obtain ⟨pieces, ⟨x, g1⟩, g2, g3, g4⟩ := updateLoop_pieces (flashEnv P true) reads patch.length _ _ le
        (by rw [← h1, List.length_append]; omega) hsize hl
      have hp : pieces.flatten ++ (x ++ later) = patch := by rw [← List.append_assoc, g1, h1]
      have hw : WholeHeader patch pieces := by
        intro hd body k1 k2 piece k3
        refine h2 hd body k1 k2 piece (g3 piece ?_)
        cases pieces with
        | nil => cases k3
        | cons q qs =>
          rw [List.find?_cons_of_pos (by simpa using g2 q List.mem_cons_self)] at k3
          exact k3
      cases le with
      | waiting s w =>
        simp only [] at h3
        cases h3
        exact .cut P pieces _ _ _ _ hp hw g4.1 h4
      | stopped res s w =>
        simp only [] at h3
        have key : ∃ res, inPlaceProcessAll (flashEnv P true) (inPlaceInit patch.length) (powerOn f) pieces = .ok (res, s, w) := by
          rcases g4 with ⟨g4, _⟩ | ⟨_, g4, _⟩
          · exact ⟨_, g4⟩
          · exact ⟨_, g4⟩
        obtain ⟨res', key⟩ := key
        cases hfin : inPlaceFinalize (flashEnv P true) s w with
        | error u =>
          rw [hfin] at h3
          by_cases h0 : res = 0
          · rw [if_pos h0] at h3; cases h3
          · rw [if_neg h0] at h3; cases h3
        | ok v =>
          obtain ⟨e2, s2, w2⟩ := v
          rw [hfin] at h3
          simp only [] at h3
          have hw2 : out.world = w2 := by
            by_cases h0 : res = 0
            · rw [if_pos h0] at h3
              by_cases h5 : 0 ≤ e2
              · rw [if_pos h5] at h3; cases h3; rfl
              · rw [if_neg h5] at h3; cases h3; rfl
            · rw [if_neg h0] at h3; cases h3; rfl
          rw [hw2] at h4 ⊢
          exact .early P pieces _ _ _ _ _ _ _ hp hw key hfin h4

theorem updateRuns_attempts [Build] {verify : Flash → Int → Int} {patch : Bytes} (hsize : patch.length < 2 ^ 64) {f f' : Flash}
    (h : UpdateRuns verify patch f f') : Attempts patch f f' := by
  induction h with
  | none => exact .none
  | one _ h2 ih => exact .one ih (updateRun_attempt hsize h2)

theorem find_filter_ne (l : List Bytes) : (l.filter (· ≠ [])).find? (· ≠ []) = l.find? (· ≠ []) := by
  induction l with
  | nil => rfl
  | cons a l ih =>
    by_cases h : a = []
    · rw [List.filter_cons_of_neg (by simpa using h), List.find?_cons_of_neg (by simpa using h), ih]
    · rw [List.filter_cons_of_pos (by simpa using h), List.find?_cons_of_pos (by simpa using h), List.find?_cons_of_pos (by simpa using h)]

theorem flatten_filter_ne (l : List Bytes) : (l.filter (· ≠ [])).flatten = l.flatten := by
  induction l with
  | nil => rfl
  | cons a l ih =>
    by_cases h : a = []
    · rw [List.filter_cons_of_neg (by simpa using h), ih, h]; rfl
    · rw [List.filter_cons_of_pos (by simpa using h), List.flatten_cons, List.flatten_cons, ih]

/-- `update` is the loop over the pieces, finalize and verify. -/
theorem update_of_pieces [Build] {E : MemEnv σ} {verify : σ → Int → Int} {w w' : MWorld σ} {patch : Bytes} {pieces : List Bytes} (rest : List SerialRead)
    {n : Nat} {s' : InPlace} (hp : pieces.flatten = patch) (hsize : patch.length < 2 ^ 64)
    (h : inPlacePieces E patch.length w (pieces.filter (· ≠ [])) = .ok ((n : Int), s', w'))
    (hneg : ∀ res s1 w1, inPlaceProcessAll E (inPlaceInit patch.length) w (pieces.filter (· ≠ [])) = .ok (res, s1, w1) → res ≤ 0) :
    exampleUpdate E verify patch.length w (pieces.map .data ++ rest) = .ok (.returned (verify w'.arg n) w') := by
  unfold exampleUpdate
  have hl := updateLoop_whole E rest pieces (inPlaceInit patch.length) w (by rw [hp]; exact hsize)
  rw [hp] at hl
  rw [hl]
  unfold inPlacePieces at h
  cases hpa : inPlaceProcessAll E (inPlaceInit patch.length) w (pieces.filter (· ≠ [])) with
  | error u => rw [hpa] at h; cases h
  | ok v =>
    obtain ⟨res, s1, w1⟩ := v
    have hr := hneg _ _ _ hpa
    rw [hpa] at h
    simp only [bind, Except.bind, Except.map] at h ⊢
    by_cases h0 : res = 0
    · rw [if_neg (by simpa using h0)] at h
      rw [if_pos h0, h]
      simp only []
      rw [if_pos (Int.natCast_nonneg n)]
    · rw [if_pos h0] at h
      injection h with h; injection h with h _
      omega

theorem ipProcessAll_le [Build] {E : MemEnv σ} (hE : NeverPositive E) : ∀ (ps : List Bytes) (s : InPlace) (w : MWorld σ) (res : Int) (s' : InPlace)
    (w' : MWorld σ), IPState s → inPlaceProcessAll E s w ps = .ok (res, s', w') → res ≤ 0 := by
  intro ps
  induction ps with
  | nil =>
    intro s w res s' w' _ h
    unfold inPlaceProcessAll at h
    injection h with h; injection h with h _
    omega
  | cons p ps ih =>
    intro s w res s' w' hs h
    unfold inPlaceProcessAll at h
    cases hpr : inPlaceProcess E s w p with
    | error u => rw [hpr] at h; cases h
    | ok v =>
      obtain ⟨e, s1, w1⟩ := v
      obtain ⟨hle, e3⟩ := ipProcess_le hE hs hpr
      rw [hpr] at h
      simp only [bind, Except.bind] at h
      by_cases he : e ≠ 0
      · rw [if_pos he] at h
        injection h with h; injection h with h _
        omega
      · rw [if_neg he] at h
        exact ih s1 w1 res s' w' e3 h

end Detools
