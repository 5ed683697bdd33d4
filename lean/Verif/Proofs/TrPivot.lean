import Verif.Proofs.TrSorted
/-
trsort: the step that splits a range around a pivot.
-/
namespace Detools
namespace Dss

namespace Tr
open Sais

variable {w : List Nat} {h : Nat}

theorem todo_plain {isa : List Nat} {sa : List Int} {t : Task} (C : Cls w isa t.f.first t.f.last t.X) (hb : big t = true) (hag : ∀ s s', s ∈ t.X → s' ∈ t.X → Ag w t.f.d s s') (hd : h ≤ t.f.d)
    (hl : -1 ≤ t.f.limit) (h2 : t.f.limit = -1 → 2 * h ≤ t.f.d) (hat : At sa t.f.first (t.X.map Int.ofNat)) : Todo w h isa sa t := by
  have hl' := C.len
  have hb' : 1 < t.f.last - t.f.first := of_decide_eq_true hb
  refine ⟨C, by omega, hag, hd, .inl hl, h2, ?_⟩
  unfold Holds
  rw [if_neg (by omega)]
  exact hat

theorem cost_plain (t : Task) (hl : 0 ≤ t.f.limit) : cost w t = 8 * (t.X.length * (w.length + 1 - t.f.d)) + 2 := by
  unfold cost phase
  rw [if_neg (by omega), if_neg (by omega)]

theorem cost_le (t : Task) : cost w t ≤ 8 * (t.X.length * (w.length + 1 - t.f.d)) + 4 := by
  unfold cost phase
  split
  · omega
  · split <;> omega

/-- All have the same key. -/
theorem same_ok (U : LastUniq w) (hn : w.length < 2 ^ 32) (h0 : 0 < h) {t : Task} {s : TrStack} {x : TrSt} {E : List Nat} {sa : List Int} (R : Ranks w h x.isa) (hlen : x.sa.length = w.length) (T : Todo w h x.isa x.sa t)
    (hl : LinkOk t.f.trlink s) (hlim : 0 ≤ t.f.limit) (hp : E.Perm t.X) (hag : ∀ a b, a ∈ E → b ∈ E → Ag w (t.f.d + h) a b) (hat : At sa t.f.first (E.map Int.ofNat)) (hu : Upd x.sa sa t.f.first t.f.last)
    (hstep : trStep h t.f s x = sameStep h t.f s { x with sa := sa })
    (W : ∀ t' : Task, t.f.d < t'.f.d → Works w h t') : Goal w h t s x := by
  have hc := T.cost_ge U
  have hsz := T.size
  have hCl := T.cls.len
  have hfit := T.cls.fit
  have hEl := hp.length_eq
  have hd := T.depth U
  have hdeep := T.deep
  have C := T.cls.perm hp
  have hneed : 2 ≤ need h t := by
    rw [need_plain hlim]
    exact Nat.le_of_lt (lg3_two T.size)
  cases hck : x.bud.check (t.f.last - t.f.first) with
  | mk c bud =>
    cases c with
    | true =>
      have hpos := trIlg_nonneg (n := t.f.last - t.f.first) (by omega) (by omega)
      refine works_of_step (ts := [⟨⟨t.f.d + h, t.f.first, t.f.last, trIlg (t.f.last - t.f.first), t.f.trlink⟩, E, 0⟩]) (fl0 := false) (x1 := ⟨sa, x.isa, bud⟩) (.inr ?_) R (hu.1.trans hlen) ?_
        (List.pairwise_singleton _ _) hl ?_ (by omega) ⟨by
          show max (0 + need h _) 0 ≤ _
          rw [need_plain hpos, need_plain hlim]
          show max (0 + lg3 E.length) 0 ≤ _
          rw [hEl]
          omega, hneed⟩ ?_
      · rw [hstep]
        unfold sameStep
        simp only []
        rw [hck]
        rfl
      · intro t' ht
        rw [List.mem_singleton.1 ht]
        refine ⟨todo_plain C (decide_eq_true (by show 1 < t.f.last - t.f.first; omega)) hag (by show h ≤ t.f.d + h; omega) (by show -1 ≤ trIlg _; omega) (fun _ => by show 2 * h ≤ t.f.d + h; omega) hat,
          W _ (by show t.f.d < t.f.d + h; omega), rfl⟩
      · have h1 := mul_less (a := t.X.length) (q := w.length + 1 - t.f.d) (q' := w.length + 1 - (t.f.d + h)) (by omega)
        have h2 := cost_plain (w := w) t hlim
        have h3 := cost_plain (w := w) ⟨⟨t.f.d + h, t.f.first, t.f.last, trIlg (t.f.last - t.f.first), t.f.trlink⟩, E, 0⟩ hpos
        simp only [costs]
        simp only [hEl] at h3
        omega
      · intro x' fl D
        rw [Bool.or_false]
        exact D.retask rfl rfl hp rfl hu (check_true hck)
    | false =>
      refine works_of_step (ts := []) (fl0 := true) (x1 := ⟨sa, x.isa, bud⟩) (.inr ?_) R (hu.1.trans hlen) (fun _ h => (by cases h)) .nil hl (by simp only [costs]; omega) (by omega) ⟨Nat.zero_le _, hneed⟩ ?_
      · rw [hstep]
        unfold sameStep
        simp only []
        rw [hck]
        simp only [Bind.bind, Except.bind]
        rw [setLink_ok hl]
        rfl
      · intro x' fl D
        have hres := single_res (w := w) (h := h) (isa := x.isa) (sa := sa) (f := t.f.last) (P := []) (fl := true) at_nil (fun _ _ h => (by cases h))
        refine D.parts (a := t.f.last) (b := t.f.last) (L := E) (E := []) (G := []) (by simpa using hp) (fun _ _ _ => rfl) hu (fun _ h => (by cases h)) ?_ ?_ ?_ (fun h => (by cases h))
          (fun _ => by have := check_false hck; show x.bud.count < bud.count; omega)
        · exact .inr ⟨fun _ h => (by cases h), fun y hy => C.lt hy, C.res hat (fun a b ha hb => (hag a b ha hb).mono (by omega)) (fun h => (by cases h))⟩
        · exact .inr ⟨fun _ h => (by cases h), fun _ h => (by cases h), hres⟩
        · exact .inr ⟨fun _ h => (by cases h), fun _ h => (by cases h), hres⟩

/-- There is more than one part. -/
theorem split_ok (U : LastUniq w) (hn : w.length < 2 ^ 32) (h0 : 0 < h) {t : Task} {s : TrStack} {x : TrSt} {L E G : List Nat} {sa : List Int} {v : Nat} (R : Ranks w h x.isa) (hlen : x.sa.length = w.length)
    (T : Todo w h x.isa x.sa t) (hl : LinkOk t.f.trlink s) (hlim : 0 < t.f.limit) (hp : (L ++ (E ++ G)).Perm t.X) (hL : AllLt x.isa t.f.d v L) (hE : AllEq x.isa t.f.d v E) (hG : AllGt x.isa t.f.d v G) (hne : E ≠ [])
    (hat : At sa t.f.first ((L ++ (E ++ G)).map Int.ofNat)) (hu : Upd x.sa sa t.f.first t.f.last) (hmore : E.length < t.X.length)
    (hstep : trStep h t.f s x = splitStep h (t.f.first + L.length) (t.f.first + L.length + E.length) v (t.f.limit - 1) t.f s { x with sa := sa })
    (W : ∀ t' : Task, (t.f.d < t'.f.d ∨ (t.f.d = t'.f.d ∧ t'.X.length < t.X.length)) → Works w h t') : Goal w h t s x := by
  have hc := T.cost_ge U
  have hsz := T.size
  have hCl := T.cls.len
  have hfit := T.cls.fit
  have hEl := hp.length_eq
  simp only [List.length_append] at hEl
  have hd := T.depth U
  have hdeep := T.deep
  have C := T.cls.perm hp
  have hEpos := List.length_pos_iff.2 hne
  have mX : ∀ y, y ∈ L ∨ y ∈ E ∨ y ∈ G → y ∈ t.X := fun y hy => hp.mem_iff.1 (by simpa only [List.mem_append] using hy)
  have rdX := T.rd U
  have isaL : ∀ y, y ∈ t.X → y < x.isa.length := fun y hy => by rw [R.len]; exact T.cls.lt hy
  have hag : ∀ a b, a ∈ E → b ∈ E → Ag w (t.f.d + h) a b := fun a b ha hb =>
    R.key_eq (rdX a (mX a (.inr (.inl ha)))) (rdX b (mX b (.inr (.inl hb)))) (T.ag a b (mX a (.inr (.inl ha))) (mX b (.inr (.inl hb)))) ((hE a ha).trans (hE b hb).symm)
  have lex : ∀ a b, a ∈ t.X → b ∈ t.X → kc x.isa t.f.d a < kc x.isa t.f.d b → Lex (w.drop a) (w.drop b) := fun a b ha hb hk =>
    R.key_lt (rdX a ha) (rdX b hb) (T.ag a b ha hb) hk
  simp only [List.map_append] at hat
  rw [at_append, at_append] at hat
  simp only [List.length_map] at hat
  obtain ⟨atL, atE, atG⟩ := hat
  -- the ranks
  obtain ⟨isa1, i1, i2, i3⟩ := setRanks_ok (v := t.f.first + L.length - 1) L t.f.first x.isa atL (fun y hy => isaL y (mX y (.inl hy)))
  have hnd := C.nodup
  have hEL : ∀ y, y ∈ E → y ∉ L := fun y hy hy' => (List.nodup_append.1 hnd).2.2 y hy' y (List.mem_append_left _ hy) rfl
  obtain ⟨isa2, j1, j2, j3⟩ := setRanksIf_ok (sa := sa) (v := t.f.first + L.length + E.length - 1) (todo := E.length) (c := t.f.first + L.length) E isa1 (decide (t.f.first + L.length + E.length < t.f.last)) rfl atE
    (fun y hy => by rw [i2]; exact isaL y (mX y (.inr (.inl hy)))) (fun hcd y hy => by
      have := of_decide_eq_false hcd
      rw [i3 y, if_neg (hEL y hy), T.cls.cls y (mX y (.inr (.inl hy)))]
      omega)
  obtain ⟨c1, c2, c3, c4, c5⟩ := Cls.split3 R C rfl rfl (isa' := isa2) (j2.trans (i2.trans R.len)) (fun y _ => by
      rw [j3 y, i3 y]
      by_cases h1 : y ∈ L
      · rw [if_neg (fun h2 => hEL y h2 h1), if_pos h1, if_pos h1]
      · rw [if_neg h1, if_neg h1])
    (fun a b ha hb => lex a b (mX a (.inl ha)) (mX b (.inr (.inl hb))) (by rw [hE b hb]; exact hL a ha))
    (fun a b ha hb => lex a b (mX a (.inl ha)) (mX b (.inr (.inr hb))) (Nat.lt_trans (hL a ha) (hG b hb)))
    (fun a b ha hb => lex a b (mX a (.inr (.inl ha))) (mX b (.inr (.inr hb))) (by rw [hE a ha]; exact hG b hb))
  -- the step
  obtain ⟨nx, hnx, hpush⟩ : ∃ nx : Int, (nx = trIlg E.length ∨ (nx = -1 ∧ v = t.f.last - 1)) ∧ trStep h t.f s x =
      (match checkIf x.bud E.length with
        | (true, bud) => pushAll ⟨t.f.d, t.f.first, t.f.first + L.length, t.f.limit - 1, t.f.trlink⟩ ⟨t.f.d + h, t.f.first + L.length, t.f.first + L.length + E.length, nx, t.f.trlink⟩
            ⟨t.f.d, t.f.first + L.length + E.length, t.f.last, t.f.limit - 1, t.f.trlink⟩ s ⟨sa, isa2, bud⟩
        | (false, bud) => pushTwo ⟨t.f.d, t.f.first, t.f.first + L.length, t.f.limit - 1, t.f.trlink⟩
            ⟨t.f.d, t.f.first + L.length + E.length, t.f.last, t.f.limit - 1, t.f.trlink⟩ (mk (decide (1 < E.length)) t.f.trlink s) ⟨sa, isa2, bud⟩) := by
    obtain ⟨e, E', rfl⟩ := List.exists_cons_of_ne_nil hne
    have h1 := atE 0 (by simp)
    simp only [Nat.add_zero, List.map_cons, List.getElem?_cons_zero] at h1
    refine ⟨if ch x.isa (e + 0) ≠ v then trIlg (e :: E').length else -1, ?_, ?_⟩
    · split
      · exact .inl rfl
      · rename_i he
        refine .inr ⟨rfl, ?_⟩
        rw [← Decidable.not_not.1 he]
        exact T.cls.cls e (mX e (.inr (.inl (by simp))))
    · rw [hstep]
      unfold splitStep
      simp only [Bind.bind, Except.bind]
      rw [(show TPos x.isa w.length from ⟨R.len⟩).keyAt h1 (by have := T.cls.lt (mX e (.inr (.inl (by simp)))); omega)]
      simp only []
      rw [show t.f.first + L.length - t.f.first = L.length by omega, i1]
      simp only []
      rw [show t.f.first + L.length + (e :: E').length - (t.f.first + L.length) = (e :: E').length by omega, j1]
      simp only []
      cases hck : checkIf x.bud (e :: E').length with
      | mk c bud =>
        cases c with
        | true => rfl
        | false =>
          simp only []
          by_cases hb : 1 < (e :: E').length
          · rw [if_pos hb, setLink_ok hl, show (decide (1 < (e :: E').length)) = true from decide_eq_true hb]
            rfl
          · rw [if_neg hb, show (decide (1 < (e :: E').length)) = false from decide_eq_false hb]
            rfl
  -- the parts
  let lo : Task := ⟨⟨t.f.d, t.f.first, t.f.first + L.length, t.f.limit - 1, t.f.trlink⟩, L, 0⟩
  let mid : Task := ⟨⟨t.f.d + h, t.f.first + L.length, t.f.first + L.length + E.length, nx, t.f.trlink⟩, E, 0⟩
  let hi : Task := ⟨⟨t.f.d, t.f.first + L.length + E.length, t.f.last, t.f.limit - 1, t.f.trlink⟩, G, 0⟩
  have hnx0 : -1 ≤ nx := by
    have := trIlg_nonneg (n := E.length) hEpos (by omega)
    omega
  have blo : big lo = decide (1 < L.length) := by show decide (1 < t.f.first + L.length - t.f.first) = _; congr 2; omega
  have bmid : big mid = decide (1 < E.length) := by show decide (1 < t.f.first + L.length + E.length - (t.f.first + L.length)) = _; congr 2; omega
  have bhi : big hi = decide (1 < G.length) := by show decide (1 < t.f.last - (t.f.first + L.length + E.length)) = _; congr 2; omega
  have hneed : 2 ≤ need h t := by
    rw [need_plain (by omega)]
    exact Nat.le_of_lt (lg3_two T.size)
  have nL : big lo = true → 2 ≤ lo.X.length ∧ lo.f.last - lo.f.first = lo.X.length ∧ need h lo ≤ room lo.X.length t.X.length := fun hb => by
    rw [blo] at hb
    exact ⟨of_decide_eq_true hb, by show t.f.first + L.length - t.f.first = L.length; omega,
      need_le_room (by show t.f.limit - 1 ≠ -3; omega) fun h => by exfalso; have h : t.f.limit - 1 = -1 := h; omega⟩
  have nH : big hi = true → 2 ≤ hi.X.length ∧ hi.f.last - hi.f.first = hi.X.length ∧ need h hi ≤ room hi.X.length t.X.length := fun hb => by
    rw [bhi] at hb
    exact ⟨of_decide_eq_true hb, by show t.f.last - (t.f.first + L.length + E.length) = G.length; omega,
      need_le_room (by show t.f.limit - 1 ≠ -3; omega) fun h => by exfalso; have h : t.f.limit - 1 = -1 := h; omega⟩
  have nM : big mid = true → 2 ≤ mid.X.length ∧ mid.f.last - mid.f.first = mid.X.length ∧ need h mid ≤ room mid.X.length t.X.length := fun hb => by
    rw [bmid] at hb
    refine ⟨of_decide_eq_true hb, by show t.f.first + L.length + E.length - (t.f.first + L.length) = E.length; omega, need_le_room (by show nx ≠ -3; omega) fun hm1 => ?_⟩
    have hm1 : nx = -1 := hm1
    have hv : v = t.f.last - 1 := by
      have := trIlg_nonneg (n := E.length) hEpos (by omega)
      omega
    refine ends_le (t := mid) (Y := t.X) (List.nodup_append.1 (List.nodup_append.1 hnd).2.1).1 (fun y hy => mX y (.inr (.inl hy))) fun y hy => ?_
    show y + (t.f.d + h - h) ∈ t.X
    rw [Nat.add_sub_cancel]
    have h1 := mX y (.inr (.inl hy))
    have h2 : ch x.isa (y + t.f.d) = v := hE y hy
    exact (T.cls.mem _).2 ⟨rdX y h1, by omega⟩
  have todoL : ∀ bud, big lo = true → Todo w h (TrSt.mk sa isa2 bud).isa (TrSt.mk sa isa2 bud).sa lo ∧ Works w h lo ∧ lo.f.trlink = t.f.trlink := fun bud hb =>
    ⟨todo_plain c2 hb (fun a b ha hb => T.ag a b (mX a (.inl ha)) (mX b (.inl hb))) hdeep (by show -1 ≤ t.f.limit - 1; omega) (fun h => by exfalso; have h : t.f.limit - 1 = -1 := h; omega) atL,
      W _ (.inr ⟨rfl, by show L.length < t.X.length; omega⟩), rfl⟩
  have todoM : ∀ bud, big mid = true → Todo w h (TrSt.mk sa isa2 bud).isa (TrSt.mk sa isa2 bud).sa mid ∧ Works w h mid ∧ mid.f.trlink = t.f.trlink := fun bud hb =>
    ⟨todo_plain c3 hb hag (by show h ≤ t.f.d + h; omega) hnx0 (fun _ => by show 2 * h ≤ t.f.d + h; omega) atE, W _ (.inl (by show t.f.d < t.f.d + h; omega)), rfl⟩
  have todoH : ∀ bud, big hi = true → Todo w h (TrSt.mk sa isa2 bud).isa (TrSt.mk sa isa2 bud).sa hi ∧ Works w h hi ∧ hi.f.trlink = t.f.trlink := fun bud hb =>
    ⟨todo_plain c4 hb (fun a b ha hb => T.ag a b (mX a (.inr (.inr ha))) (mX b (.inr (.inr hb)))) hdeep (by show -1 ≤ t.f.limit - 1; omega) (fun h => by exfalso; have h : t.f.limit - 1 = -1 := h; omega) atG,
      W _ (.inr ⟨rfl, by show G.length < t.X.length; omega⟩), rfl⟩
  have cL : cost w lo = 8 * (L.length * (w.length + 1 - t.f.d)) + 2 := cost_plain lo (by show 0 ≤ t.f.limit - 1; omega)
  have cM : cost w mid ≤ 8 * (E.length * (w.length + 1 - (t.f.d + h))) + 4 := cost_le mid
  have cH : cost w hi = 8 * (G.length * (w.length + 1 - t.f.d)) + 2 := cost_plain hi (by show 0 ≤ t.f.limit - 1; omega)
  have cT := cost_plain (w := w) t (by omega)
  have hm1 := mul_less (a := E.length) (q := w.length + 1 - t.f.d) (q' := w.length + 1 - (t.f.d + h)) (by omega)
  have hm2 : t.X.length * (w.length + 1 - t.f.d) = L.length * (w.length + 1 - t.f.d) + E.length * (w.length + 1 - t.f.d) + G.length * (w.length + 1 - t.f.d) := by
    rw [← Nat.add_mul, ← Nat.add_mul]
    congr 1
    omega
  have hm3 := mul_less (a := E.length) (q := w.length + 1 - t.f.d) (q' := 0) (by omega)
  have cost2 : costs w ([lo, hi].filter big) + 8 ≤ cost w t := by
    rw [costs_two, cL, cH, cT]
    split <;> split <;> omega
  have cost3 : costs w ([lo, mid, hi].filter big) + 8 ≤ cost w t := by
    rw [costs_three, cL, cH, cT]
    split <;> split <;> split <;> omega
  have apLM : Apart lo mid := .inl (Nat.le_refl _)
  have apLH : Apart lo hi := .inl (by show t.f.first + L.length ≤ t.f.first + L.length + E.length; omega)
  have apMH : Apart mid hi := .inl (Nat.le_refl _)
  have inL : t.f.first ≤ lo.f.first ∧ lo.f.last ≤ t.f.last := ⟨Nat.le_refl _, by show t.f.first + L.length ≤ t.f.last; omega⟩
  have inM : t.f.first ≤ mid.f.first ∧ mid.f.last ≤ t.f.last := ⟨by show t.f.first ≤ t.f.first + L.length; omega, by show t.f.first + L.length + E.length ≤ t.f.last; omega⟩
  have inH : t.f.first ≤ hi.f.first ∧ hi.f.last ≤ t.f.last := ⟨by show t.f.first ≤ t.f.first + L.length + E.length; omega, Nat.le_refl _⟩
  cases hck : checkIf x.bud E.length with
  | mk c bud =>
    rw [hck] at hpush
    cases c with
    | true =>
      have hbig : 1 < E.length := by
        unfold checkIf at hck
        split at hck
        · assumption
        · injection hck with h; cases h
      have hcnt : bud.count = x.bud.count := by
        unfold checkIf at hck
        rw [if_pos hbig] at hck
        exact check_true hck
      obtain ⟨ts, t1, tasc, t2⟩ := pushAll_ok lo mid hi (of_decide_eq_true (by rw [bmid]; exact decide_eq_true hbig : big mid = true)) s ⟨sa, isa2, bud⟩
      have hmem : ∀ t', t' ∈ ts → (t' = lo ∨ t' = mid ∨ t' = hi) ∧ big t' = true := fun t' ht => by simpa using t1.mem_iff.1 ht
      refine works_of_step (ts := ts) (fl0 := false) (x1 := ⟨sa, isa2, bud⟩) (by rw [hpush]; exact t2) c1 (hu.1.trans hlen) ?_ ?_ hl (by rw [costs_perm t1]; exact cost3) (by omega) ⟨by
        rw [need_plain (t := t) (by omega)]
        refine needs_le ?_ tasc ?_ fun t' ht => ?_
        · rw [t1.length_eq]
          exact List.length_filter_le ..
        · rw [sizes_perm t1]
          refine Nat.le_trans (sizes_filter ..) ?_
          show L.length + (E.length + (G.length + 0)) ≤ _
          omega
        · obtain ⟨rfl | rfl | rfl, hb⟩ := hmem t' ht
          · exact nL hb
          · exact nM hb
          · exact nH hb, hneed⟩ ?_
      · intro t' ht
        obtain ⟨rfl | rfl | rfl, hb⟩ := hmem t' ht
        · exact todoL bud hb
        · exact todoM bud hb
        · exact todoH bud hb
      · refine List.Pairwise.perm (List.Pairwise.filter _ ?_) t1.symm (fun h => by unfold Apart at *; omega)
        simp [apLM, apLH, apMH]
      · intro x' fl D
        refine D.parts hp c5 hu ?_ (part_of (t := lo) ?_ ?_ c2 fun _ => atL) (part_of (t := mid) ?_ ?_ c3 fun _ => atE) (part_of (t := hi) ?_ ?_ c4 fun _ => atG) (fun _ => hcnt) (fun h => (by cases h))
        · intro t' ht
          obtain ⟨rfl | rfl | rfl, _⟩ := hmem t' ht
          · exact inL
          · exact inM
          · exact inH
        · exact fun hb => t1.mem_iff.2 (by simp [hb])
        · intro hb t' ht
          obtain ⟨rfl | rfl | rfl, hb'⟩ := hmem t' ht
          · rw [hb] at hb'; cases hb'
          · exact apLM.symm
          · exact apLH.symm
        · exact fun hb => t1.mem_iff.2 (by simp [hb])
        · intro hb t' ht
          obtain ⟨rfl | rfl | rfl, hb'⟩ := hmem t' ht
          · exact apLM
          · rw [hb] at hb'; cases hb'
          · exact apMH.symm
        · exact fun hb => t1.mem_iff.2 (by simp [hb])
        · intro hb t' ht
          obtain ⟨rfl | rfl | rfl, hb'⟩ := hmem t' ht
          · exact apLH
          · exact apMH
          · rw [hb] at hb'; cases hb'
    | false =>
      obtain ⟨ts, t1, tasc, t2⟩ := pushTwo_ok lo hi (mk (decide (1 < E.length)) t.f.trlink s) ⟨sa, isa2, bud⟩
      have hmem : ∀ t', t' ∈ ts → (t' = lo ∨ t' = hi) ∧ big t' = true := fun t' ht => by simpa using t1.mem_iff.1 ht
      have hcnt : (decide (1 < E.length) = false → bud.count = x.bud.count) ∧ (decide (1 < E.length) = true → x.bud.count < bud.count) := by
        unfold checkIf at hck
        by_cases hb : 1 < E.length
        · rw [if_pos hb] at hck
          have := check_false hck
          exact ⟨fun h => absurd hb (of_decide_eq_false h), fun _ => by omega⟩
        · rw [if_neg hb] at hck
          injection hck with _ h
          exact ⟨fun _ => by rw [← h], fun h => absurd (of_decide_eq_true h) hb⟩
      refine works_of_step (ts := ts) (fl0 := decide (1 < E.length)) (x1 := ⟨sa, isa2, bud⟩) (by
        rw [hpush]
        rcases t2 with ⟨t2, _, _, t3⟩ | t2
        · rw [mk_length] at t2
          exact .inl ⟨by omega, t3⟩
        · exact .inr t2) c1 (hu.1.trans hlen) ?_ ?_ hl (by rw [costs_perm t1]; exact cost2) (by omega) ⟨by
        rw [need_plain (t := t) (by omega)]
        refine needs_le ?_ tasc ?_ fun t' ht => ?_
        · rw [t1.length_eq]
          exact Nat.le_trans (List.length_filter_le ..) (by simp)
        · rw [sizes_perm t1]
          refine Nat.le_trans (sizes_filter ..) ?_
          show L.length + (G.length + 0) ≤ _
          omega
        · obtain ⟨rfl | rfl, hb⟩ := hmem t' ht
          · exact nL hb
          · exact nH hb, hneed⟩ ?_
      · intro t' ht
        obtain ⟨rfl | rfl, hb⟩ := hmem t' ht
        · exact todoL bud hb
        · exact todoH bud hb
      · refine List.Pairwise.perm (List.Pairwise.filter _ ?_) t1.symm (fun h => by unfold Apart at *; omega)
        simp [apLH]
      · intro x' fl D
        refine D.parts hp c5 hu ?_ (part_of (t := lo) ?_ ?_ c2 fun _ => atL) (.inr ⟨?_, fun y hy => c3.lt hy, c3.res atE (fun a b ha hb => (hag a b ha hb).mono (by omega)) ?_⟩) (part_of (t := hi) ?_ ?_ c4 fun _ => atG) hcnt.1 hcnt.2
        · intro t' ht
          obtain ⟨rfl | rfl, _⟩ := hmem t' ht
          · exact inL
          · exact inH
        · exact fun hb => t1.mem_iff.2 (by simp [hb])
        · intro hb t' ht
          obtain ⟨rfl | rfl, hb'⟩ := hmem t' ht
          · rw [hb] at hb'; cases hb'
          · exact apLH.symm
        · intro t' ht
          obtain ⟨rfl | rfl, hb'⟩ := hmem t' ht
          · exact apLM
          · exact apMH.symm
        · intro h
          have := of_decide_eq_false h
          omega
        · exact fun hb => t1.mem_iff.2 (by simp [hb])
        · intro hb t' ht
          obtain ⟨rfl | rfl, hb'⟩ := hmem t' ht
          · exact apLH
          · rw [hb] at hb'; cases hb'

theorem pivot_ok (U : LastUniq w) (hn : w.length < 2 ^ 32) (h0 : 0 < h) {t : Task} {s : TrStack} {x : TrSt} (R : Ranks w h x.isa) (hlen : x.sa.length = w.length) (T : Todo w h x.isa x.sa t)
    (hl : LinkOk t.f.trlink s) (hlim : 0 < t.f.limit) (h8 : ¬ t.f.last - t.f.first ≤ 8)
    (W : ∀ t' : Task, (t.f.d < t'.f.d ∨ (t.f.d = t'.f.d ∧ t'.X.length < t.X.length)) → Works w h t') : Goal w h t s x := by
  obtain ⟨A, B, e1, e2⟩ := T.arr hlen (by omega)
  have hsz := T.size
  have hCl := T.cls.len
  have tp : TPos x.isa w.length := ⟨R.len⟩
  have rdX := T.rd U
  obtain ⟨i, p1, p2, p3⟩ := trPivot_ok (e := x.isa) (d := t.f.d) (first := t.f.first) (last := t.f.last) (a := x.sa) (fun i h1 h2 => by
    have hi : t.X[i - t.f.first]? = some (t.X[i - t.f.first]'(by omega)) := List.getElem?_eq_getElem _
    have := arr_key tp (A := A) (B := B) hi rdX
    rw [e1, show i = A.length + (i - t.f.first) by omega]
    exact ⟨_, this⟩) (by omega)
  have hi : t.X[i - t.f.first]? = some (t.X[i - t.f.first]'(by omega)) := List.getElem?_eq_getElem _
  generalize t.X[i - t.f.first]'(by omega) = r at hi
  obtain ⟨ys, q1, q2⟩ := swap_first (A := A) (B := B) hi
  rw [e2, show t.f.first + (i - t.f.first) = i by omega, ← e1] at q2
  have hql := q1.length_eq
  have rdY : Rd w.length t.f.d ([r] ++ ys) := fun y hy => rdX y (q1.mem_iff.1 hy)
  have q3 : keyAt x.isa t.f.d (A ++ ((r :: ys).map Int.ofNat ++ B)) t.f.first = .ok (kc x.isa t.f.d r) := by
    have := arr_key tp (A := A) (B := B) (ws := r :: ys) (i := 0) rfl rdY
    rw [Nat.add_zero, e2] at this
    exact this
  obtain ⟨L, E, G, g1, g2, g3, g4, g5⟩ := trPartition_ok tp (d := t.f.d) (v := kc x.isa t.f.d r) (A := A) (B := B) [r] ys rdY (fun y hy => by rw [List.mem_singleton.1 hy]) (first := t.f.first) (middle := t.f.first + 1) (last := t.f.last) e2.symm rfl
    (by simp at hql; omega) (by omega)
  have hp : (L ++ (E ++ G)).Perm t.X := g1.trans q1
  have hpl := hp.length_eq
  simp only [List.length_append] at hpl
  have hrE : r ∈ E := by
    have : r ∈ L ++ (E ++ G) := g1.mem_iff.2 (by simp)
    simp only [List.mem_append] at this
    rcases this with h | h | h
    · have := g2 r h
      omega
    · exact h
    · have := g4 r h
      omega
  generalize hsa1 : A ++ (L.map Int.ofNat ++ (E.map Int.ofNat ++ (G.map Int.ofNat ++ B))) = sa1 at g5
  have hat : At sa1 t.f.first ((L ++ (E ++ G)).map Int.ofNat) := by
    rw [← hsa1, show A ++ (L.map Int.ofNat ++ (E.map Int.ofNat ++ (G.map Int.ofNat ++ B))) = A ++ ((L ++ (E ++ G)).map Int.ofNat ++ B) by simp]
    exact at_mid e2.symm
  have hu : Upd x.sa sa1 t.f.first t.f.last := by
    rw [← hsa1, show A ++ (L.map Int.ofNat ++ (E.map Int.ofNat ++ (G.map Int.ofNat ++ B))) = A ++ ((L ++ (E ++ G)).map Int.ofNat ++ B) by simp, e1]
    exact upd_mid e2.symm (by simp; omega) (by simp; omega)
  have hstep : trStep h t.f s x = if t.f.last - t.f.first ≠ t.f.first + L.length + E.length - (t.f.first + L.length) then
      splitStep h (t.f.first + L.length) (t.f.first + L.length + E.length) (kc x.isa t.f.d r) (t.f.limit - 1) t.f s { x with sa := sa1 } else sameStep h t.f s { x with sa := sa1 } := by
    unfold trStep
    rw [if_neg (by omega), if_neg h8, if_neg (by omega)]
    unfold pivotStep
    simp only [Bind.bind, Except.bind]
    rw [p1]
    simp only []
    rw [q2]
    simp only []
    rw [q3]
    simp only []
    rw [show (r :: ys) = [r] ++ ys from rfl, g5]
  by_cases hsame : t.f.last - t.f.first ≠ t.f.first + L.length + E.length - (t.f.first + L.length)
  · rw [if_pos hsame] at hstep
    exact split_ok U hn h0 R hlen T hl hlim hp g2 g3 g4 (List.ne_nil_of_mem hrE) hat hu (by omega) hstep W
  · rw [if_neg hsame] at hstep
    have hL : L = [] := List.length_eq_zero_iff.1 (by omega)
    have hG : G = [] := List.length_eq_zero_iff.1 (by omega)
    subst hL hG
    simp only [List.nil_append, List.append_nil] at hp hat
    refine same_ok U hn h0 R hlen T hl (by omega) hp (fun a b ha hb => ?_) hat hu hstep (fun t' ht => W t' (.inl ht))
    exact R.key_eq (rdX a (hp.mem_iff.1 ha)) (rdX b (hp.mem_iff.1 hb)) (T.ag a b (hp.mem_iff.1 ha) (hp.mem_iff.1 hb)) ((g3 a ha).trans (g3 b hb).symm)

end Tr

end Dss
end Detools
