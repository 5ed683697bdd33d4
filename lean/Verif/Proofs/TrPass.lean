import Verif.Proofs.TrSegs
/-
trsort: a pass over the groups doubles the number of names that is compared.
-/
namespace Detools
namespace Dss

namespace Tr
open Sais

variable {w : List Nat} {h : Nat}

/-- The elements in place that are passed are made a segment. -/
def close (P : List Nat) : List Seg := if P.length = 0 then [] else [.sing P]

theorem close_sing (P : List Nat) : ∀ g, g ∈ close P → g.isSing = true := by
  intro g hg
  unfold close at hg
  split at hg
  · cases hg
  · rw [List.mem_singleton.1 hg]
    rfl

/-- The state of a pass at `b + |P|`: the segments `D` are done, those of `P` are in place and not
yet made a segment, and `gs` are left. -/
structure PInv (w : List Nat) (h b : Nat) (D : List Seg) (P : List Nat) (gs : List Seg) (p : TrPass) : Prop where
  ranks : Ranks w h p.x.isa
  len : p.x.sa.length = w.length
  skip : p.skip = -(P.length : Int)
  done : SegsTo w p.x.isa p.x.sa 0 D b
  pend : Sing w p.x.isa b P
  bound : ∀ y, y < w.length → ch p.x.isa y < w.length
  rest : SegsTo w p.x.isa p.x.sa (b + P.length) gs w.length
  agree : ∀ g, g ∈ D → g.isSing = false → ∀ y y', y ∈ g.els → y' ∈ g.els → Ag w (2 * h) y y'
  more : 0 ≤ p.unsorted
  zero : p.unsorted = 0 → ∀ g, g ∈ D → g.isSing = true
  big : w.length ≤ h → p.unsorted = 0

theorem putSkip_ok {b : Nat} {D : List Seg} {P : List Nat} {isa : List Nat} {sa : List Int} (hlen : sa.length = w.length) (hfit : b + P.length ≤ w.length)
    (done : SegsTo w isa sa 0 D b) (pend : Sing w isa b P) :
    ∃ sa', putSkip (b + P.length) (-(P.length : Int)) sa = .ok sa' ∧ sa'.length = w.length ∧ SegsTo w isa sa' 0 (D ++ close P) (b + P.length) ∧ Upd sa sa' b (b + P.length) := by
  unfold putSkip close
  by_cases h0 : P.length = 0
  · rw [if_neg (by omega), if_pos h0, List.append_nil, h0]
    exact ⟨sa, rfl, hlen, done, Upd.refl _ _ _⟩
  · rw [if_pos (by omega), if_neg h0, show ((b + P.length : Nat) : Int) + -(P.length : Int) = (b : Nat) by omega, idx_nat]
    simp only [Bind.bind, Except.bind]
    rw [wr_ok _ (by omega)]
    refine ⟨_, rfl, by simpa using hlen, segsTo_append (done.write (.inl (Nat.le_refl _))) ⟨⟨by omega, ?_, pend⟩, rfl⟩, by simp, fun p hp => List.getElem?_set_ne (by omega)⟩
    rw [List.getElem?_set_self (by omega)]

/-- Suffixes that begin with the same name are not more than that name occurs. -/
theorem agree_count (h0 : 0 < h) {X : List Nat} (hnd : X.Nodup) (hlt : ∀ y, y ∈ X → y < w.length) (hag : ∀ y y', y ∈ X → y' ∈ X → Ag w h y y') : ∃ v, X.length ≤ w.count v := by
  cases X with
  | nil => exact ⟨0, Nat.zero_le _⟩
  | cons x X =>
    have hx := hlt x (by simp)
    refine ⟨w[x], ?_⟩
    have hw : w = (List.range w.length).map (fun i => w[i]?.getD 0) := by
      apply List.ext_getElem
      · simp
      · intro i h1 h2
        simp [h1]
    have hcount : w.count w[x] = ((List.range w.length).filter fun i => (w[i]?.getD 0) == w[x]).length := by
      conv => lhs; arg 2; rw [hw]
      rw [List.count_eq_countP, List.countP_map, List.countP_eq_length_filter]
      rfl
    rw [hcount]
    refine List.Nodup.length_le_of_subset hnd fun y hy => List.mem_filter.2 ⟨List.mem_range.2 (hlt y hy), ?_⟩
    have h1 := hag y x hy (by simp)
    unfold Ag at h1
    have h2 := congrArg (fun l => l[0]?) h1
    simp only [List.getElem?_take, if_pos h0, List.getElem?_drop, Nat.add_zero] at h2
    rw [h2, List.getElem?_eq_getElem hx]
    simp

/-- The result of `passGroup`. -/
theorem passGroup_ok (U : LastUniq w) (hn : w.length < 2 ^ 32) (h0 : 0 < h) {f : Nat} {D gs : List Seg} {X : List Nat} {p : TrPass} (R : Ranks w h p.x.isa) (hlen : p.x.sa.length = w.length)
    (hskip : p.skip = 0) (done : SegsTo w p.x.isa p.x.sa 0 D f) (hX : SegOk w p.x.isa p.x.sa f (.grp X)) (rest : SegsTo w p.x.isa p.x.sa (f + X.length) gs w.length)
    (hag : ∀ g, g ∈ D → g.isSing = false → ∀ y y', y ∈ g.els → y' ∈ g.els → Ag w (2 * h) y y') (more : 0 ≤ p.unsorted) (zero : p.unsorted = 0 → ∀ g, g ∈ D → g.isSing = true)
    (big : w.length ≤ h → p.unsorted = 0) (bound : ∀ y, y < w.length → ch p.x.isa y < w.length) :
    ((∃ v, 3329021 < w.count v) ∧ passGroup h f (f + X.length) p = .error .stack) ∨ ∃ p' b D' P, passGroup h f (f + X.length) p = .ok p' ∧ b + P.length = f + X.length ∧ PInv w h b D' P gs p' := by
  obtain ⟨hX0, hat, C⟩ := hX
  unfold passGroup
  by_cases h1 : 1 < f + X.length - f
  · rw [if_pos h1]
    simp only [Bind.bind, Except.bind]
    have hXag : ∀ s s', s ∈ X → s' ∈ X → Ag w h s s' := fun s s' hs hs' => R.agree s s' (C.lt hs) (C.lt hs') ((C.cls s hs).trans (C.cls s' hs').symm)
    rcases trIntrosort_ok U hn h0 (x := { p.x with bud := { p.x.bud with count := 0 } }) R hlen C h1 hXag hat with ⟨hf, he⟩ | ⟨x', fl, he, Dd⟩
    · left
      rw [he]
      obtain ⟨v, hv⟩ := agree_count h0 C.nodup (fun y hy => C.lt hy) hXag
      exact ⟨⟨v, by omega⟩, rfl⟩
    · right
      rw [he]
      simp only []
      obtain ⟨hout, hin, hupd⟩ := Dd.one C
      obtain ⟨X', r1, r2, r3, r4, r5, r6, r7⟩ := Dd.res _ (List.mem_singleton.2 rfl)
      simp only [] at hout hin hupd r1 r2 r3 r4 r5 r6 r7
      have hXl : X'.length = X.length := r1.length_eq
      have hmem : ∀ y, y ∈ X' ↔ y < w.length ∧ f ≤ ch x'.isa y ∧ ch x'.isa y < f + X.length := by
        intro y
        rw [r1.mem_iff, C.mem y]
        by_cases hy : y < w.length
        · by_cases hc : f ≤ ch p.x.isa y ∧ ch p.x.isa y < f + X.length
          · have := hin y hy hc.1 hc.2
            omega
          · have := hout y hy (by omega)
            omega
        · omega
      have hfit := C.fit
      have done' := done.frame hout hin hupd (.inl (Nat.le_refl _))
      have rest' := rest.frame hout hin hupd (.inr (Nat.le_refl _))
      have bound' : ∀ y, y < w.length → ch x'.isa y < w.length := by
        intro y hy
        by_cases hc : f ≤ ch p.x.isa y ∧ ch p.x.isa y < f + X.length
        · have := hin y hy hc.1 hc.2
          omega
        · rw [hout y hy (by omega)]
          exact bound y hy
      cases fl with
      | true =>
        have hc := Dd.more rfl
        simp only [] at hc
        rw [if_pos (by omega)]
        obtain ⟨gs', k1, k2⟩ := blk_segs (w := w) (isa := x'.isa) (sa := x'.sa) X'.length (Nat.le_refl _) (by omega) hfit r5 r3 (r1.nodup_iff.2 C.nodup) hmem
        refine ⟨_, f + X.length, D ++ gs', [], rfl, rfl, ⟨Dd.ranks, by rw [← hlen]; exact Dd.len, by rw [hskip]; rfl, segsTo_append done' k1, sing_nil _ _, bound', rest', ?_, ?_, ?_, ?_⟩⟩
        · intro g hg hs y y' hy hy'
          rcases List.mem_append.1 hg with hg | hg
          · exact hag g hg hs y y' hy hy'
          · exact r7 y y' (r1.mem_iff.1 ((k2 g hg).1 y hy)) (r1.mem_iff.1 ((k2 g hg).1 y' hy')) ((k2 g hg).2 y y' hy hy')
        · show 0 ≤ p.unsorted + x'.bud.count
          omega
        · intro hz
          have hz : p.unsorted + x'.bud.count = 0 := hz
          omega
        · intro hb
          exfalso
          have g0 : 0 < X.length := by omega
          have g1 : 1 < X.length := by omega
          have := (hXag X[0] X[1] (List.getElem_mem g0) (List.getElem_mem g1)).fit U (C.lt (List.getElem_mem g0)) (C.lt (List.getElem_mem g1)) (fun he => by
            have := (List.getElem_inj C.nodup).1 he
            omega)
          omega
      | false =>
        have hc := Dd.same rfl
        simp only [] at hc
        rw [if_neg (by omega)]
        refine ⟨_, f, D, X', rfl, by omega, ⟨Dd.ranks, by rw [← hlen]; exact Dd.len, by show (f : Int) - (f + X.length : Nat) = _; omega, done', ⟨fun i y hi => r6 rfl i y hi, fun y => by rw [hXl]; exact hmem y⟩, bound', by rw [hXl]; exact rest', hag, more, zero, big⟩⟩
  · rw [if_neg h1]
    have hX1 : X.length = 1 := by omega
    rw [if_pos (by omega)]
    right
    match X, hX1 with
    | [y], _ => exact ⟨_, f, D, [y], rfl, rfl, ⟨R, hlen, rfl, done, C.sing, bound, rest, hag, more, zero, big⟩⟩

/-- The loop over the segments. -/
theorem passLoop_ok (U : LastUniq w) (hn : w.length < 2 ^ 32) (h0 : 0 < h) : ∀ {fuel b : Nat} {D gs : List Seg} {P : List Nat} {p : TrPass}, gs.length ≤ fuel → gs ≠ [] → PInv w h b D P gs p →
    ((∃ v, 3329021 < w.count v) ∧ passLoop w.length h fuel (b + P.length) p = .error .stack) ∨
      ∃ p' b' D' P', passLoop w.length h fuel (b + P.length) p = .ok (w.length, p') ∧ b' + P'.length = w.length ∧ PInv w h b' D' P' [] p'
  | _, _, _, [], _, _, _, hne, _ => absurd rfl hne
  | 0, _, _, _ :: _, _, _, hf, _, _ => by simp at hf
  | fuel + 1, b, D, g :: gs, P, p, hf, _, I => by
    unfold passLoop
    obtain ⟨hg, hgs⟩ := I.rest
    have hle := hgs.le
    have hgpos := hg.pos
    have next : ∀ (q : TrPass) (b1 : Nat) (D1 : List Seg) (P1 : List Nat), b1 + P1.length = b + P.length + g.els.length → PInv w h b1 D1 P1 gs q →
        ((∃ v, 3329021 < w.count v) ∧ (if b + P.length + g.els.length < w.length then passLoop w.length h fuel (b + P.length + g.els.length) q else .ok (b + P.length + g.els.length, q)) = .error .stack) ∨
        ∃ p' b' D' P', (if b + P.length + g.els.length < w.length then passLoop w.length h fuel (b + P.length + g.els.length) q else .ok (b + P.length + g.els.length, q)) = .ok (w.length, p') ∧
          b' + P'.length = w.length ∧ PInv w h b' D' P' [] p' := by
      intro q b1 D1 P1 e1 I1
      by_cases hend : b + P.length + g.els.length < w.length
      · rw [if_pos hend, ← e1]
        refine passLoop_ok U hn h0 (by simpa using hf) (fun hnil => ?_) I1
        rw [hnil] at hgs
        have hgs : b + P.length + g.els.length = w.length := hgs
        omega
      · rw [if_neg hend]
        have he : b + P.length + g.els.length = w.length := by omega
        have hnil : gs = [] := by
          cases gs with
          | nil => rfl
          | cons g' gs' => simp at hle; omega
        rw [hnil] at I1
        exact .inr ⟨q, b1, D1, P1, by rw [he], by omega, I1⟩
    cases g with
    | sing S =>
      obtain ⟨s1, s2, s3⟩ := hg
      rw [rd_ok s2]
      simp only [Bind.bind, Except.bind]
      rw [if_pos (by omega), show ((b + P.length : Nat) : Int) - -(S.length : Int) = ((b + P.length + S.length : Nat) : Int) by omega, idx_nat]
      simp only []
      refine next _ b D (P ++ S) (by rw [List.length_append]; show _ = b + P.length + S.length; omega) ⟨I.ranks, I.len, ?_, I.done, I.pend.append s3, I.bound, ?_, I.agree, I.more, I.zero, I.big⟩
      · show p.skip + -(S.length : Int) = _
        rw [I.skip, List.length_append]
        omega
      · rw [List.length_append, ← Nat.add_assoc]
        exact hgs
    | grp X =>
      obtain ⟨s1, s2, s3⟩ := hg
      have s1' : 0 < X.length := s1
      have hle' : b + P.length + X.length + gs.length ≤ w.length := hle
      obtain ⟨y, X0, hX⟩ : ∃ y X0, X = y :: X0 := by
        cases X with
        | nil => simp at s1'
        | cons y X0 => exact ⟨y, X0, rfl⟩
      subst hX
      · 
        have hy := s2 0 (by simp)
        simp only [Nat.add_zero, List.map_cons, List.getElem?_cons_zero] at hy
        rw [rd_ok hy]
        simp only [Bind.bind, Except.bind]
        rw [if_neg (by have : (0 : Int) ≤ Int.ofNat y := Int.natCast_nonneg y; omega), I.skip]
        obtain ⟨sa', k1, k2, k3, k4⟩ := putSkip_ok (w := w) I.len (by omega) I.done I.pend
        rw [k1]
        simp only []
        have hr : rd p.x.isa (Int.ofNat y).toNat = .ok (b + P.length + (y :: X0).length - 1) := by
          show rd p.x.isa y = _
          rw [rd_ch (by rw [I.ranks.len]; exact s3.lt (by simp)), s3.cls y (by simp)]
        rw [hr]
        simp only []
        rw [show b + P.length + (y :: X0).length - 1 + 1 = b + P.length + (y :: X0).length by simp; omega]
        have h5 := passGroup_ok U hn h0 (f := b + P.length) (D := D ++ close P) (gs := gs) (X := y :: X0) (p := { p with skip := 0, x := { p.x with sa := sa' } }) I.ranks k2 rfl k3
          ⟨s1, k4.at s2 (.inr (Nat.le_refl _)), s3⟩
          (hgs.frame (fun _ _ _ => rfl) (fun _ _ h1 h2 => ⟨h1, h2⟩) k4 (.inr (Nat.le_add_right _ _)))
          (fun g hg hs => by
            rcases List.mem_append.1 hg with hg | hg
            · exact I.agree g hg hs
            · rw [close_sing P g hg] at hs
              cases hs) I.more
          (fun hz g hg => by
            rcases List.mem_append.1 hg with hg | hg
            · exact I.zero hz g hg
            · exact close_sing P g hg) I.big I.bound
        rcases h5 with ⟨hf, h5⟩ | ⟨p', b', D', P', h5, h6, h7⟩
        · left
          rw [h5]
          exact ⟨hf, rfl⟩
        · rw [h5]
          exact next p' b' D' P' h6 h7

/-- At the end of a pass. -/
theorem pass_end {b : Nat} {D : List Seg} {P : List Nat} {p : TrPass} (I : PInv w h b D P [] p) (hbP : b + P.length = w.length) :
    ∃ sa', putSkip w.length p.skip p.x.sa = .ok sa' ∧ sa'.length = w.length ∧ SegsTo w p.x.isa sa' 0 (D ++ close P) w.length ∧ Ranks w (2 * h) p.x.isa := by
  obtain ⟨sa', k1, k2, k3, k4⟩ := putSkip_ok (w := w) I.len (by omega) I.done I.pend
  rw [hbP, ← I.skip] at k1
  rw [hbP] at k3
  refine ⟨sa', k1, k2, k3, ⟨I.ranks.len, I.ranks.mono, fun s s' hs hs' he => ?_⟩⟩
  obtain ⟨g, g1, g2, g3⟩ := k3.find s hs (Nat.zero_le _) (I.bound s hs)
  obtain ⟨g4, g5⟩ := g3 s' hs' he.symm
  cases hsg : g.isSing with
  | true => rw [g5 hsg]; exact rfl
  | false =>
    rcases List.mem_append.1 g1 with g1 | g1
    · exact I.agree g g1 hsg s s' g2 g4
    · rw [close_sing P g g1] at hsg
      cases hsg

end Tr

end Dss
end Detools
