import Verif.Proofs.SaisMarks
/-
SA-IS: copying the names in place, and where the arrays are.
-/
namespace Detools
namespace Sais

/-- The non-zero elements among the first `i` of the names. -/
def named (m i : Nat) (mem : List Int) : List Int := ((mem.drop m).take i).filter (fun v => v ≠ 0)

theorem named_succ {m i : Nat} {mem : List Int} {v : Int} (h : mem[m + i]? = some v) :
    named m (i + 1) mem = named m i mem ++ if v = 0 then [] else [v] := by
  unfold named
  rw [List.take_add_one, List.getElem?_drop, h, List.filter_append]
  congr 1
  by_cases hv : v = 0
  · simp [hv]
  · simp [hv]

theorem named_add {m i : Nat} {mem : List Int} : ∀ {d : Nat}, ∃ r, named m (i + d) mem = named m i mem ++ r ∧ r.length ≤ d
  | 0 => ⟨[], by simp, by simp⟩
  | d + 1 => by
    obtain ⟨r, h1, h2⟩ := named_add (m := m) (i := i) (mem := mem) (d := d)
    cases h : mem[m + (i + d)]? with
    | none =>
      refine ⟨r, ?_, by omega⟩
      rw [← h1]
      unfold named
      rw [← Nat.add_assoc, List.take_add_one, List.getElem?_drop, h]
      simp
    | some v =>
      refine ⟨r ++ if v = 0 then [] else [v], ?_, ?_⟩
      · rw [← Nat.add_assoc, named_succ h, h1, List.append_assoc]
      · rw [List.length_append]
        split <;> simp <;> omega

theorem copyNames_ok {m base h : Nat} {mem0 : List Int} (hbase : m + h ≤ base + m) (hlen : base + m ≤ mem0.length) (hlen' : m + h ≤ mem0.length)
    (hnum : (named m h mem0).length = m) (hr : ∀ q v, mem0[m + q]? = some v → q < h → v ≠ 0 → -2 ^ 31 ≤ v - 1 ∧ v - 1 < 2 ^ 31) :
    ∀ (todo j : Nat) (mem : List Int), todo ≤ h → j = (named m todo mem0).length → mem.length = mem0.length →
      (∀ q, q < m + todo → mem[q]? = mem0[q]?) →
      (∀ r v, j ≤ r → (named m h mem0)[r]? = some v → mem[base + r]? = some (v - 1)) →
      ∃ mem', copyNames m base todo j mem = .ok mem' ∧ mem'.length = mem0.length ∧
        (∀ q, q < m → q < base → mem'[q]? = mem0[q]?) ∧
        ∀ r v, (named m h mem0)[r]? = some v → mem'[base + r]? = some (v - 1)
  | 0, j, mem, _, hj, hl, h1, h2 => by
    have hj0 : j = 0 := by rw [hj]; simp [named]
    exact ⟨mem, rfl, hl, fun q hq _ => h1 q (by omega), fun r v hv => h2 r v (by omega) hv⟩
  | todo + 1, j, mem, ht, hj, hl, h1, h2 => by
    have hq : m + todo < mem0.length := by omega
    have hget : mem0[m + todo]? = some mem0[m + todo] := List.getElem?_eq_getElem hq
    generalize mem0[m + todo] = v at hget
    have hget' : mem[m + todo]? = some v := (h1 _ (by omega)).trans hget
    have hs := named_succ hget
    obtain ⟨rest, hn1, hn2⟩ := named_add (m := m) (i := todo + 1) (mem := mem0) (d := h - (todo + 1))
    rw [show todo + 1 + (h - (todo + 1)) = h by omega] at hn1
    unfold copyNames
    rw [rd_ok hget']
    simp only [Bind.bind, Except.bind]
    by_cases hv : v = 0
    · rw [if_neg (by simp [hv])]
      rw [if_pos hv, List.append_nil] at hs
      exact copyNames_ok hbase hlen hlen' hnum hr todo j mem (by omega) (by rw [hj, hs]) hl (fun q hq => h1 q (by omega)) h2
    · rw [if_pos hv]
      rw [if_neg hv] at hs
      have hjl : j = (named m todo mem0).length + 1 := by rw [hj, hs]; simp
      rw [dec_ok hjl]
      simp only []
      have hcount : m = j + rest.length := by
        have := congrArg List.length hn1
        rw [List.length_append, hnum, ← hj] at this
        exact this
      rw [st_ok (hr todo v hget (by omega) hv) (by rw [hl]; omega)]
      simp only []
      refine copyNames_ok hbase hlen hlen' hnum hr todo _ _ (by omega) rfl (by rw [List.length_set, hl]) (fun q hq => ?_) (fun r w hr1 hw => ?_)
      · rw [get_set_ne (by omega), h1 q (by omega)]
      · by_cases he : r = (named m todo mem0).length
        · subst he
          rw [get_set_eq (by rw [hl]; omega)]
          rw [hn1, hs, List.append_assoc, List.getElem?_append_right (Nat.le_refl _), Nat.sub_self] at hw
          simp at hw
          rw [hw]
        · rw [get_set_ne (by omega), h2 r w (by omega) hw]

/-! ### Where the arrays are -/

theorem saisFlags_bucket (n k fs : Nat) :
    (saisFlags n k fs).f1 = (bucketFlags k fs).f1 ∧ (saisFlags n k fs).f2 = (bucketFlags k fs).f2 ∧
    (saisFlags n k fs).f4 = (bucketFlags k fs).f4 ∧ (saisFlags n k fs).f8 = (bucketFlags k fs).f8 := by
  unfold saisFlags
  simp only []
  split
  · split
    · split <;> exact ⟨rfl, rfl, rfl, rfl⟩
    · split <;> exact ⟨rfl, rfl, rfl, rfl⟩
  · exact ⟨rfl, rfl, rfl, rfl⟩

theorem keepCounts_fits {n k fs m name : Nat} (h : keepCounts n k fs m name = true) : k ≤ fs ∧ k + name ≤ n + fs - 2 * m := by
  obtain ⟨e1, _, e4, e8⟩ := saisFlags_bucket n k fs
  unfold keepCounts at h
  simp only [e1, e4, e8, Bool.and_eq_true, Bool.not_eq_true', decide_eq_true_eq] at h
  obtain ⟨⟨⟨h1, h4⟩, h8⟩, h⟩ := h
  refine ⟨?_, h⟩
  by_cases hk : k ≤ fs
  · exact hk
  · unfold bucketFlags at h1 h4
    by_cases h256 : k ≤ 256
    · rw [if_pos h256, if_neg hk] at h1
      cases h1
    · rw [if_neg h256, if_neg hk] at h4
      cases h4

theorem newFs_spec {n k fs m name : Nat} (hm : 2 * m ≤ n) :
    2 * m + newFs n k fs m name ≤ n + fs ∧ n ≤ newFs n k fs m name + 2 * m ∧
    (keepCounts n k fs m name = true → 2 * m + newFs n k fs m name + k = n + fs) := by
  unfold newFs
  by_cases h : keepCounts n k fs m name = true
  · obtain ⟨h1, h2⟩ := keepCounts_fits h
    rw [if_pos h]
    refine ⟨by omega, by omega, fun _ => by omega⟩
  · rw [if_neg h]
    exact ⟨by omega, by omega, fun h' => absurd h' h⟩

end Sais
end Detools
