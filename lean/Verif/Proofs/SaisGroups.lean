import Verif.Proofs.SaisBase
/-
SA-IS: groups of equal substrings while they are sorted.
-/
namespace Detools
namespace Sais

variable {n k i cur : Nat} {d : List Nat} {ch : Nat → Nat} {mem : Nat → Prop} {act : Nat → Bool} {τ : Nat → Nat} {W : Nat → List Nat}

/-- The positions `mem` are looked at in the order `τ`, in which those with equal `W` follow
each other. If a position is active, the one before it is put in place. -/
structure Groups (n : Nat) (ch : Nat → Nat) (mem : Nat → Prop) (act : Nat → Bool) (τ : Nat → Nat) (W : Nat → List Nat) : Prop where
  lt : ∀ {x}, mem x → x < n
  inj : ∀ {x y}, mem x → mem y → τ x = τ y → x = y
  convex : ∀ {x y z}, mem x → mem y → mem z → τ x < τ y → τ y < τ z → W x = W z → W y = W x
  child : ∀ {y}, mem (y + 1) → act (y + 1) = true → mem y
  word : ∀ {y z}, mem (y + 1) → act (y + 1) = true → mem (z + 1) → act (z + 1) = true →
    (W y = W z ↔ ch y = ch z ∧ W (y + 1) = W (z + 1))
  time : ∀ {y z}, mem (y + 1) → act (y + 1) = true → mem (z + 1) → act (z + 1) = true → ch y = ch z →
    (τ y < τ z ↔ τ (y + 1) < τ (z + 1))
  sibling : ∀ {y z}, mem (y + 1) → act (y + 1) = true → mem z → W z = W y → z ≠ y → mem (z + 1) ∧ act (z + 1) = true

/-- The first of a group to be looked at. -/
def flag (mem : Nat → Prop) (act : Nat → Bool) (τ : Nat → Nat) (W : Nat → List Nat) (x : Nat) : Prop :=
  ∀ y, mem y → τ y < τ x → ¬ (W y = W x ∧ act y = act x)

/-- The number of groups of active positions met before `i`. -/
noncomputable def met (n : Nat) (mem : Nat → Prop) (act : Nat → Bool) (τ : Nat → Nat) (W : Nat → List Nat) (i : Nat) : Nat :=
  cnt n (fun x => mem x ∧ act x = true ∧ flag mem act τ W x ∧ τ x < i)

theorem met_mono {i j : Nat} (h : i ≤ j) : met n mem act τ W i ≤ met n mem act τ W j :=
  cnt_mono fun x _ hx => ⟨hx.1, hx.2.1, hx.2.2.1, by have := hx.2.2.2; omega⟩

theorem met_zero : met n mem act τ W 0 = 0 := cnt_false fun x _ hx => by have := hx.2.2.2; omega

section
variable (g : Groups n ch mem act τ W)
include g

open Classical in
theorem Groups.met_here {x : Nat} (hx : mem x) (ha : act x = true) (hi : τ x = i) :
    met n mem act τ W (i + 1) = met n mem act τ W i + if flag mem act τ W x then 1 else 0 := by
  unfold met
  by_cases hf : flag mem act τ W x
  · rw [if_pos hf, ← cnt_insert (a := x) (g.lt hx) (fun h => by have := h.2.2.2; omega)]
    apply cnt_congr
    intro y _
    constructor
    · rintro ⟨h1, h2, h3, h4⟩
      by_cases he : τ y = i
      · exact .inr (g.inj h1 hx (by omega))
      · exact .inl ⟨h1, h2, h3, by omega⟩
    · rintro (⟨h1, h2, h3, h4⟩ | rfl)
      · exact ⟨h1, h2, h3, by omega⟩
      · exact ⟨hx, ha, hf, by omega⟩
  · rw [if_neg hf, Nat.add_zero]
    apply cnt_congr
    intro y _
    constructor
    · rintro ⟨h1, h2, h3, h4⟩
      refine ⟨h1, h2, h3, ?_⟩
      by_cases he : τ y = i
      · rw [g.inj h1 hx (by omega)] at h3
        exact absurd h3 hf
      · omega
    · rintro ⟨h1, h2, h3, h4⟩
      exact ⟨h1, h2, h3, by omega⟩

omit g in
theorem met_skip (hi : ∀ x, mem x → act x = true → τ x ≠ i) : met n mem act τ W (i + 1) = met n mem act τ W i := by
  apply cnt_congr
  intro y _
  constructor
  · rintro ⟨h1, h2, h3, h4⟩
    have := hi y h1 h2
    exact ⟨h1, h2, h3, by omega⟩
  · rintro ⟨h1, h2, h3, h4⟩
    exact ⟨h1, h2, h3, by omega⟩

omit g in
/-- Each group has a first position. -/
theorem flag_first : ∀ (u x : Nat), τ x < u → mem x → ∃ y, mem y ∧ act y = act x ∧ flag mem act τ W y ∧ W y = W x ∧ τ y ≤ τ x
  | 0, _, h, _ => by omega
  | u + 1, x, h, hx => by
    by_cases hf : flag mem act τ W x
    · exact ⟨x, hx, rfl, hf, rfl, Nat.le_refl _⟩
    · have : ∃ y, mem y ∧ τ y < τ x ∧ W y = W x ∧ act y = act x := by
        apply Classical.byContradiction
        intro hn
        exact hf fun y h1 h2 h3 => hn ⟨y, h1, h2, h3⟩
      obtain ⟨y, h1, h2, h3, h4⟩ := this
      obtain ⟨z, z1, z2, z3, z4, z5⟩ := flag_first u y (by omega) h1
      exact ⟨z, z1, z2.trans h4, z3, z4.trans h3, by omega⟩

/-- Two active positions are in the same group if no group starts between them. -/
theorem Groups.met_eq {x z : Nat} (hx : mem x) (hax : act x = true) (hz : mem z) (haz : act z = true) (h : τ z ≤ τ x) :
    met n mem act τ W (τ z + 1) = met n mem act τ W (τ x + 1) ↔ W z = W x := by
  constructor
  · intro he
    apply Classical.byContradiction
    intro hn
    obtain ⟨y, y1, y2, y3, y4, y5⟩ := flag_first (mem := mem) (act := act) (τ := τ) (W := W) (τ x + 1) x (by omega) hx
    have h1 : τ z < τ y := by
      rcases Nat.lt_trichotomy (τ z) (τ y) with h1 | h1 | h1
      · exact h1
      · rw [g.inj hz y1 h1] at hn
        exact absurd y4 hn
      · rcases Nat.lt_or_ge (τ z) (τ x) with h2 | h2
        · exact absurd ((g.convex y1 hz hx h1 h2 y4).trans y4) hn
        · rw [g.inj hz hx (by omega)] at hn
          exact absurd rfl hn
    have : met n mem act τ W (τ z + 1) < met n mem act τ W (τ x + 1) := by
      refine cnt_lt (a := y) (fun u _ hu => ⟨hu.1, hu.2.1, hu.2.2.1, by have := hu.2.2.2; omega⟩) (g.lt y1) ⟨y1, y2.trans hax, y3, by omega⟩ ?_
      rintro ⟨_, _, _, h⟩
      omega
    omega
  · intro he
    apply cnt_congr
    intro u _
    constructor
    · rintro ⟨h1, h2, h3, h4⟩
      exact ⟨h1, h2, h3, by omega⟩
    · rintro ⟨h1, h2, h3, h4⟩
      refine ⟨h1, h2, h3, ?_⟩
      rcases Nat.lt_or_ge (τ z) (τ u) with h5 | h5
      · exfalso
        refine h3 z hz h5 ⟨?_, by rw [haz, h2]⟩
        rcases Nat.lt_or_ge (τ u) (τ x) with h6 | h6
        · exact (g.convex hz h1 hx h5 h6 he).symm
        · rw [g.inj h1 hx (by omega)]
          exact he
      · omega
end

/-- The array that tells for each character, and for whether the position is active, when it
was last met. -/
structure DInv (n : Nat) (ch : Nat → Nat) (mem : Nat → Prop) (act : Nat → Bool) (τ : Nat → Nat) (W : Nat → List Nat)
    (k base i : Nat) (d : List Nat) (cur : Nat) : Prop where
  len : d.length = 2 * k
  count : cur = base + met n mem act τ W i
  ent : ∀ c, c < k → ∀ b : Bool, ∃ v, d[2 * c + (if b then 0 else 1)]? = some v ∧ v ≤ cur ∧
    (0 < met n mem act τ W i → (v = cur ↔ ∃ z, mem (z + 1) ∧ act (z + 1) = true ∧ τ (z + 1) < i ∧ ch z = c ∧ act z = b ∧
      met n mem act τ W (τ (z + 1) + 1) = met n mem act τ W i))

variable {base : Nat}

theorem DInv.skip (h : DInv n ch mem act τ W k base i d cur) (hi : ∀ x, mem x → act x = true → τ x ≠ i) :
    DInv n ch mem act τ W k base (i + 1) d cur := by
  have hm := met_skip (n := n) (W := W) hi
  refine ⟨h.len, by rw [hm]; exact h.count, fun c hc b => ?_⟩
  obtain ⟨v, h1, h2, h3⟩ := h.ent c hc b
  refine ⟨v, h1, h2, ?_⟩
  rw [hm]
  intro h0
  rw [h3 h0]
  constructor
  · rintro ⟨z, z1, z2, z3, z4⟩
    exact ⟨z, z1, z2, by omega, z4⟩
  · rintro ⟨z, z1, z2, z3, z4⟩
    have := hi _ z1 z2
    exact ⟨z, z1, z2, by omega, z4⟩

open Classical in
/-- The position before an active one is marked if it is the first of its group. -/
theorem DInv.push (g : Groups n ch mem act τ W) (h : DInv n ch mem act τ W k base i d cur) {y : Nat} (hy : mem (y + 1)) (ha : act (y + 1) = true)
    (hi : τ (y + 1) = i) (hk : ch y < k) {cur' : Nat} (hc' : cur' = if flag mem act τ W (y + 1) then cur + 1 else cur) :
    ∃ v, d[2 * ch y + (if act y then 0 else 1)]? = some v ∧ (v ≠ cur' ↔ flag mem act τ W y) ∧
      DInv n ch mem act τ W k base (i + 1) (if v ≠ cur' then d.set (2 * ch y + (if act y then 0 else 1)) cur' else d) cur' := by
  have hmet := g.met_here hy ha hi
  have hcur : cur' = base + met n mem act τ W (i + 1) := by
    rw [hmet, hc', h.count]
    by_cases hf : flag mem act τ W (y + 1)
    · rw [if_pos hf, if_pos hf]; omega
    · rw [if_neg hf, if_neg hf]; omega
  have hpos : 0 < met n mem act τ W (i + 1) := by
    obtain ⟨x, x1, x2, x3, x4, x5⟩ := flag_first (mem := mem) (act := act) (τ := τ) (W := W) (τ (y + 1) + 1) (y + 1) (by omega) hy
    exact cnt_pos (a := x) (g.lt x1) ⟨x1, x2.trans ha, x3, by omega⟩
  -- what the array tells about those met before
  have hE : ∀ c, c < k → ∀ b : Bool, ∃ v, d[2 * c + (if b then 0 else 1)]? = some v ∧ v ≤ cur' ∧
      (v = cur' ↔ ∃ z, mem (z + 1) ∧ act (z + 1) = true ∧ τ (z + 1) < i ∧ ch z = c ∧ act z = b ∧
        met n mem act τ W (τ (z + 1) + 1) = met n mem act τ W (i + 1)) := by
    intro c hc b
    obtain ⟨v, h1, h2, h3⟩ := h.ent c hc b
    by_cases hf : flag mem act τ W (y + 1)
    · rw [if_pos hf] at hc' hmet
      refine ⟨v, h1, by omega, ?_⟩
      constructor
      · intro h4; omega
      · rintro ⟨z, _, _, z3, _, _, z6⟩
        have := met_mono (n := n) (mem := mem) (act := act) (τ := τ) (W := W) (i := τ (z + 1) + 1) (j := i) (by omega)
        omega
    · rw [if_neg hf] at hc' hmet
      rw [hc', hmet]
      rw [hmet] at hpos
      exact ⟨v, h1, h2, h3 hpos⟩
  obtain ⟨v, h1, h2, h3⟩ := hE (ch y) hk (act y)
  refine ⟨v, h1, ?_, ⟨?_, hcur, ?_⟩⟩
  · -- the mark
    have : (∃ z, mem (z + 1) ∧ act (z + 1) = true ∧ τ (z + 1) < i ∧ ch z = ch y ∧ act z = act y ∧
        met n mem act τ W (τ (z + 1) + 1) = met n mem act τ W (i + 1)) ↔ ¬ flag mem act τ W y := by
      constructor
      · rintro ⟨z, z1, z2, z3, z4, z5, z6⟩ hf
        rw [← hi, g.met_eq hy ha z1 z2 (by omega)] at z6
        exact hf z (g.child z1 z2) ((g.time z1 z2 hy ha z4).2 (by omega)) ⟨(g.word z1 z2 hy ha).2 ⟨z4, z6⟩, z5⟩
      · intro hf
        apply Classical.byContradiction
        intro hn
        refine hf fun z z1 z2 ⟨z3, z4⟩ => hn ?_
        obtain ⟨s1, s2⟩ := g.sibling hy ha z1 z3 (fun e => by rw [e] at z2; exact Nat.lt_irrefl _ z2)
        obtain ⟨w1, w2⟩ := (g.word s1 s2 hy ha).1 z3
        have ht := (g.time s1 s2 hy ha w1).1 z2
        refine ⟨z, s1, s2, by omega, w1, z4, ?_⟩
        rw [← hi, g.met_eq hy ha s1 s2 (by omega)]
        exact w2
    rw [← h3] at this
    constructor
    · intro hv
      apply Classical.byContradiction
      intro hf
      exact hv (this.2 hf)
    · intro hf hv
      exact this.1 hv hf
  · by_cases hv : v ≠ cur'
    · rw [if_pos hv, List.length_set]; exact h.len
    · rw [if_neg hv]; exact h.len
  · intro c hc b
    by_cases he : c = ch y ∧ b = act y
    · obtain ⟨rfl, rfl⟩ := he
      refine ⟨cur', ?_, Nat.le_refl _, fun _ => ⟨fun _ => ⟨y, hy, ha, by omega, rfl, rfl, by rw [hi]⟩, fun _ => rfl⟩⟩
      by_cases hv : v ≠ cur'
      · rw [if_pos hv]
        exact get_set_eq (get_lt h1)
      · rw [if_neg hv]
        have : v = cur' := Decidable.not_not.1 hv
        rw [← this]
        exact h1
    · obtain ⟨w, w1, w2, w3⟩ := hE c hc b
      have hidx : 2 * ch y + (if act y then 0 else 1) ≠ 2 * c + (if b then 0 else 1) := by
        intro e
        apply he
        cases b <;> cases hay : act y <;> rw [hay] at e <;> simp at e <;> first | omega | exact ⟨by omega, rfl⟩
      refine ⟨w, ?_, w2, fun _ => ?_⟩
      · by_cases hv : v ≠ cur'
        · rw [if_pos hv, get_set_ne hidx]; exact w1
        · rw [if_neg hv]; exact w1
      · rw [w3]
        constructor
        · rintro ⟨z, z1, z2, z3, z4⟩
          exact ⟨z, z1, z2, by omega, z4⟩
        · rintro ⟨z, z1, z2, z3, z4, z5, z6⟩
          refine ⟨z, z1, z2, ?_, z4, z5, z6⟩
          by_cases h5 : τ (z + 1) = i
          · have := g.inj z1 hy (by omega)
            have : z = y := by omega
            subst this
            exact absurd ⟨z4.symm, z5.symm⟩ he
          · omega

end Sais
end Detools
