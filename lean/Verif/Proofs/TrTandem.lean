import Verif.Proofs.TrCopyAll
import Verif.Proofs.TrPivot
/-
trsort: the partition of a tandem repeat, and the copy that follows.
-/
namespace Detools
namespace Dss

namespace Tr
open Sais

variable {w : List Nat} {h : Nat}

/-- The copy, with or without `part`. -/
def copyAny (part : Bool) (f a b l D : Nat) (x : TrSt) : C TrSt := if part then trPartialcopy f a b l D x else trCopy f a b l D x

theorem copyAny_ok {part : Bool} {f a b l D : Nat} {L M G : List Nat} {x : TrSt} (R : Ranks w h x.isa) (K : Cp w.length x.isa x.sa f a b l D L M G part) (hag : ∀ y y', y ∈ M → y' ∈ M → Ag w D y y') :
    ∃ isa sa, copyAny part f a b l D x = .ok { x with sa := sa, isa := isa } ∧ Copied w h x.isa isa x.sa sa f a b L M G part := by
  unfold copyAny
  cases part with
  | true => exact trPartialcopy_ok R K hag
  | false => exact trCopy_ok R K hag

/-- Once the parts at both ends are done, the copy does the rest. -/
theorem after_copy {t : Task} {ts : List Task} {x x1 x2 : TrSt} {fl : Bool} {L M G : List Nat} {D a b : Nat} {isa : List Nat} {sa : List Int} (T : Todo w h isa sa t) (hlen : x2.sa.length = w.length) (h2 : 2 * h ≤ t.f.d) (hD : D ≤ t.f.d) (hD0 : 0 < D)
    (hp : (L ++ (M ++ G)).Perm t.X) (ha : t.f.first + L.length = a) (hb : a + M.length = b) (hne : M ≠ [])
    (cL : Cls w x1.isa t.f.first a L) (cM : Cls w x1.isa a b M) (cG : Cls w x1.isa b t.f.last G) (hnext : ∀ y, y ∈ M → y + D ∈ t.X)
    (hout : ∀ y, y < w.length → (ch x.isa y < t.f.first ∨ t.f.last ≤ ch x.isa y) → ch x1.isa y = ch x.isa y ∧ y ∉ t.X) (hu : Upd x.sa x1.sa t.f.first t.f.last) (hbud : x1.bud.count = x.bud.count)
    (D1 : Did w h ts x1 x2 fl) (hin : ∀ t', t' ∈ ts → (t.f.first ≤ t'.f.first ∧ t'.f.last ≤ a) ∨ (b ≤ t'.f.first ∧ t'.f.last ≤ t.f.last))
    (rL : Res w h x2.isa x2.sa t.f.first a L fl) (rG : Res w h x2.isa x2.sa b t.f.last G fl) :
    ∃ x', copyAny fl t.f.first a b t.f.last D x2 = .ok x' ∧ Did w h [t] x x' fl := by
  have hCl := T.cls.len
  have hfit := T.cls.fit
  have hpl := hp.length_eq
  simp only [List.length_append] at hpl
  obtain ⟨L', l1, l2, l3, l4, l5, l6, _⟩ := rL
  obtain ⟨G', g1, g2, g3, g4, g5, g6, _⟩ := rG
  have hLl := l1.length_eq
  have hGl := g1.length_eq
  have hp' : (L' ++ (M ++ G')).Perm (L ++ (M ++ G)) := l1.append (.append (.refl _) g1)
  have mX : ∀ y, y ∈ L ∨ y ∈ M ∨ y ∈ G → y ∈ t.X := fun y hy => hp.mem_iff.1 (by simpa only [List.mem_append] using hy)
  have outM : ∀ y, y < w.length → a ≤ ch x1.isa y → ch x1.isa y < b → ch x2.isa y = ch x1.isa y := fun y hy h1 h2 => D1.out y hy fun t' ht => by
    have := hin t' ht
    omega
  have K : Cp w.length x2.isa x2.sa t.f.first a b t.f.last D L' M G' fl := by
    refine ⟨D1.ranks.len, hlen, by omega, hb, by omega, hfit, (hp'.trans hp).nodup_iff.2 T.cls.nodup, ?_, ?_, ?_, ?_, hD0, hne, l3, g3, ?_, ?_, l5, g5, fun hf => ⟨l6 hf, g6 hf⟩⟩
    · intro y hy
      rw [l1.mem_iff, g1.mem_iff] at hy
      exact T.cls.lt (mX y hy)
    · intro y hy
      rw [cM.mem y]
      by_cases h1 : a ≤ ch x1.isa y ∧ ch x1.isa y < b
      · rw [outM y hy h1.1 h1.2]
        exact ⟨fun h => h.2, fun h => ⟨hy, h⟩⟩
      · refine ⟨fun h => absurd h.2 h1, fun h => ?_⟩
        exfalso
        by_cases h3 : t.f.first ≤ ch x1.isa y ∧ ch x1.isa y < a
        · have := l4 y ((cL.mem y).2 ⟨hy, h3⟩)
          omega
        · by_cases h4 : b ≤ ch x1.isa y ∧ ch x1.isa y < t.f.last
          · have := g4 y ((cG.mem y).2 ⟨hy, h4⟩)
            omega
          · have := D1.out y hy fun t' ht => by
              have := hin t' ht
              omega
            omega
    · intro y hy
      have := (cM.mem y).1 hy
      rw [outM y this.1 this.2.1 this.2.2]
      exact cM.cls y hy
    · intro y hy
      rw [l1.mem_iff, g1.mem_iff]
      have := hp.mem_iff.2 (hnext y hy)
      simpa only [List.mem_append] using this
    · intro y hy
      exact l4 y (l1.mem_iff.1 hy)
    · intro y hy
      exact g4 y (g1.mem_iff.1 hy)
  obtain ⟨isa, sa, e1, c⟩ := copyAny_ok D1.ranks K (fun y y' hy hy' => (T.ag y y' (mX y (.inr (.inl hy))) (mX y' (.inr (.inl hy')))).mono hD)
  refine ⟨_, e1, ⟨c.ranks, ?_, ?_, ?_, ?_, ?_, ?_⟩⟩
  · intro t' ht
    rw [List.mem_singleton.1 ht]
    obtain ⟨X', q1, q2, q3, q4⟩ := c.res
    refine ⟨X', q1.trans (hp'.trans hp), hCl, q2, ?_, q3, q4, fun s s' hs hs' _ => (T.ag s s' hs hs').mono h2⟩
    intro y hy
    have hy' := hp.mem_iff.2 hy
    simp only [List.mem_append] at hy'
    have dj := K.disjoint
    rcases hy' with h1 | h1 | h1
    · have := l4 y h1
      show _ ≤ ch isa y ∧ ch isa y < _
      rw [c.out y (dj.1 y (l1.mem_iff.2 h1))]
      omega
    · have := c.rM y h1
      show _ ≤ ch isa y ∧ ch isa y < _
      omega
    · have := g4 y h1
      show _ ≤ ch isa y ∧ ch isa y < _
      rw [c.out y (fun h => dj.2.2.1 y h (g1.mem_iff.2 h1))]
      omega
  · intro y hy ho
    have ho' := ho t (List.mem_singleton.2 rfl)
    obtain ⟨o1, o2⟩ := hout y hy ho'
    show ch isa y = _
    rw [c.out y (fun h => o2 (mX y (.inr (.inl h)))), D1.out y hy (fun t' ht => by have := hin t' ht; rw [o1]; omega), o1]
  · exact c.upd.1.trans (D1.len.trans hu.1)
  · intro p hp
    have := hp t (List.mem_singleton.2 rfl)
    show sa[p]? = _
    rw [c.upd.2 p (by omega), D1.sa p (fun t' ht => by have := hin t' ht; omega), hu.2 p this]
  · intro hf
    show x2.bud.count = _
    rw [D1.same hf, hbud]
  · intro hf
    show _ < x2.bud.count
    have := D1.more hf
    omega

theorem mk_self (fl : Bool) (s : TrStack) (c e : TrFrame) (he : e.limit = 0) : mk fl ((s.length : Nat) : Int) (c :: e :: s) = c :: { e with limit := if fl then -1 else 0 } :: s := by
  cases e with
  | mk d f l lim tr =>
    simp only at he
    subst he
    unfold mk
    cases fl with
    | false => rfl
    | true =>
      simp only [if_true]
      unfold lk
      rw [if_pos (Int.natCast_nonneg _)]
      simp only [List.length_cons, Int.toNat_natCast]
      rw [show s.length + 1 + 1 - 1 - s.length = 1 by omega]
      rfl

/-- The pop and the copy. -/
theorem copy_steps {fl : Bool} {s : TrStack} {x x' : TrSt} {D f a b l : Nat} {tl : Int} (hl : LinkOk tl s) (hc : copyAny fl f a b l D x = .ok x') (fuel : Nat) :
    trLoop h (2 + fuel) none (⟨D, f, l, -2, tl⟩ :: ⟨0, a, b, if fl then -1 else 0, 0⟩ :: s) x = trLoop h fuel none (mk fl tl s) x' := by
  have hs : trStep h ⟨D, f, l, -2, tl⟩ (⟨0, a, b, if fl then -1 else 0, 0⟩ :: s) x = .ok ⟨none, mk fl tl s, x'⟩ := by
    unfold trStep
    simp only []
    rw [if_pos (by decide), if_neg (by decide), if_pos trivial]
    unfold copyStep
    simp only []
    unfold copyAny at hc
    cases fl with
    | false =>
      simp only [Bool.false_eq_true, if_false] at hc ⊢
      rw [if_pos trivial]
      simp only [Bind.bind, Except.bind]
      rw [hc]
      rfl
    | true =>
      simp only [if_true] at hc ⊢
      rw [if_neg (by decide)]
      simp only [Bind.bind, Except.bind]
      rw [setLink_ok hl]
      simp only []
      rw [hc]
      rfl
  rw [show 2 + fuel = fuel + 1 + 1 by omega]
  show trLoop h (fuel + 1) (some ⟨D, f, l, -2, tl⟩) (⟨0, a, b, if fl then -1 else 0, 0⟩ :: s) x = _
  show (do let r ← trStep h ⟨D, f, l, -2, tl⟩ (⟨0, a, b, if fl then -1 else 0, 0⟩ :: s) x; trLoop h fuel r.f r.s r.x) = _
  rw [hs]
  rfl

theorem tandem_ok (U : LastUniq w) (hn : w.length < 2 ^ 32) (h0 : 0 < h) {t : Task} {s : TrStack} {x : TrSt} (R : Ranks w h x.isa) (hlen : x.sa.length = w.length) (T : Todo w h x.isa x.sa t)
    (hl : LinkOk t.f.trlink s) (hlim : t.f.limit = -1)
    (W : ∀ t' : Task, t.f.d = t'.f.d → t'.X.length ≤ t.X.length → 0 ≤ t'.f.limit → Works w h t') : Goal w h t s x := by
  obtain ⟨A, B, e1, e2⟩ := T.arr hlen (by omega)
  have h2 := T.two hlim
  have hsz := T.size
  have hCl := T.cls.len
  have hfit := T.cls.fit
  have hd := T.depth U
  have hdeep := T.deep
  have tp : TPos x.isa w.length := ⟨R.len⟩
  generalize hDe : t.f.d - h = D
  have rdX : Rd w.length D t.X := fun y hy => by
    have := T.rd U y hy
    omega
  obtain ⟨L, E, G, g1, g2, g3, g4, g5⟩ := trPartition_ok tp (d := D) (v := t.f.last - 1) (A := A) (B := B) [] t.X rdX (fun y hy => by cases hy) (first := t.f.first) (middle := t.f.first) (last := t.f.last) e2.symm rfl
    (by omega) (by omega)
  have hp : (L ++ (E ++ G)).Perm t.X := by simpa using g1
  have hpl := hp.length_eq
  rw [List.length_append, List.length_append] at hpl
  generalize hsa1 : A ++ (L.map Int.ofNat ++ (E.map Int.ofNat ++ (G.map Int.ofNat ++ B))) = sa1 at g5
  have hat : At sa1 t.f.first ((L ++ (E ++ G)).map Int.ofNat) := by
    rw [← hsa1, show A ++ (L.map Int.ofNat ++ (E.map Int.ofNat ++ (G.map Int.ofNat ++ B))) = A ++ ((L ++ (E ++ G)).map Int.ofNat ++ B) by simp]
    exact at_mid e2.symm
  have hu : Upd x.sa sa1 t.f.first t.f.last := by
    rw [← hsa1, show A ++ (L.map Int.ofNat ++ (E.map Int.ofNat ++ (G.map Int.ofNat ++ B))) = A ++ ((L ++ (E ++ G)).map Int.ofNat ++ B) by simp, e1]
    exact upd_mid e2.symm (by simp; omega) (by simp; omega)
  have C := T.cls.perm hp
  have mX : ∀ y, y ∈ L ∨ y ∈ E ∨ y ∈ G → y ∈ t.X := fun y hy => hp.mem_iff.1 (by simpa only [List.mem_append] using hy)
  have isaL : ∀ y, y ∈ t.X → y < x.isa.length := fun y hy => by rw [R.len]; exact T.cls.lt hy
  have lex : ∀ a b, a ∈ t.X → b ∈ t.X → kc x.isa D a < kc x.isa D b → Lex (w.drop a) (w.drop b) := fun a b ha hb hk =>
    R.key_lt (rdX a ha) (rdX b hb) ((T.ag a b ha hb).mono (by omega)) hk
  simp only [List.map_append] at hat
  rw [at_append, at_append] at hat
  simp only [List.length_map] at hat
  obtain ⟨atL, atE, atG⟩ := hat
  -- the ranks
  have hnd := C.nodup
  have hEL : ∀ y, y ∈ E → y ∉ L := fun y hy hy' => (List.nodup_append.1 hnd).2.2 y hy' y (List.mem_append_left _ hy) rfl
  obtain ⟨isa1, i1, i2, i3⟩ := setRanksIf_ok (sa := sa1) (v := t.f.first + L.length - 1) (todo := L.length) (c := t.f.first) L x.isa (decide (t.f.first + L.length < t.f.last)) rfl atL (fun y hy => isaL y (mX y (.inl hy)))
    (fun hcd y hy => by
      have := of_decide_eq_false hcd
      rw [T.cls.cls y (mX y (.inl hy))]
      omega)
  obtain ⟨isa2, j1, j2, j3⟩ := setRanksIf_ok (sa := sa1) (v := t.f.first + L.length + E.length - 1) (todo := E.length) (c := t.f.first + L.length) E isa1 (decide (t.f.first + L.length + E.length < t.f.last)) rfl atE
    (fun y hy => by rw [i2]; exact isaL y (mX y (.inr (.inl hy)))) (fun hcd y hy => by
      have := of_decide_eq_false hcd
      rw [i3 y, if_neg (hEL y hy), T.cls.cls y (mX y (.inr (.inl hy)))]
      omega)
  obtain ⟨c1, c2, c3, c4, c5⟩ := Cls.split3 R C rfl rfl (isa' := isa2) (j2.trans (i2.trans R.len)) (fun y _ => by
      rw [j3 y, i3 y]
      by_cases h1 : y ∈ L
      · rw [if_neg (fun h2 => hEL y h2 h1), if_pos h1, if_pos h1]
      · rw [if_neg h1, if_neg h1])
    (fun a b ha hb => lex a b (mX a (.inl ha)) (mX b (.inr (.inl hb))) (by rw [g3 b hb]; exact g2 a ha))
    (fun a b ha hb => lex a b (mX a (.inl ha)) (mX b (.inr (.inr hb))) (Nat.lt_trans (g2 a ha) (g4 b hb)))
    (fun a b ha hb => lex a b (mX a (.inr (.inl ha))) (mX b (.inr (.inr hb))) (by rw [g3 a ha]; exact g4 b hb))
  have hstep : trStep h t.f s x = (do
      let (trlink, s) ← pushMiddle (t.f.first + L.length) (t.f.first + L.length + E.length) h t.f s
      pushTwo ⟨t.f.d, t.f.first, t.f.first + L.length, trIlg L.length, trlink⟩ ⟨t.f.d, t.f.first + L.length + E.length, t.f.last, trIlg (t.f.last - (t.f.first + L.length + E.length)), trlink⟩ s ⟨sa1, isa2, x.bud⟩) := by
    unfold trStep
    rw [if_pos (by omega), if_pos hlim]
    unfold tandemStep
    simp only [Bind.bind, Except.bind]
    rw [hDe]
    rw [List.nil_append, ← e1] at g5
    rw [g5]
    simp only []
    rw [show t.f.first + L.length - t.f.first = L.length by omega, i1]
    simp only []
    rw [show t.f.first + L.length + E.length - (t.f.first + L.length) = E.length by omega, j1]
  have hilg : ∀ n, n < 2 ^ 32 → 1 < n → 0 ≤ trIlg n := fun n h1 h2 => trIlg_nonneg (by omega) h1
  -- the parts
  let lo : Int → Task := fun tl => ⟨⟨t.f.d, t.f.first, t.f.first + L.length, trIlg L.length, tl⟩, L, 0⟩
  let hi : Int → Task := fun tl => ⟨⟨t.f.d, t.f.first + L.length + E.length, t.f.last, trIlg (t.f.last - (t.f.first + L.length + E.length)), tl⟩, G, 0⟩
  have blo : ∀ tl, big (lo tl) = decide (1 < L.length) := fun tl => by show decide (1 < t.f.first + L.length - t.f.first) = _; congr 2; omega
  have bhi : ∀ tl, big (hi tl) = decide (1 < G.length) := fun tl => by show decide (1 < t.f.last - (t.f.first + L.length + E.length)) = _; congr 2; omega
  have limL : ∀ tl, big (lo tl) = true → 0 ≤ (lo tl).f.limit := fun tl hb => by
    rw [blo] at hb
    exact hilg _ (by omega) (of_decide_eq_true hb)
  have limH : ∀ tl, big (hi tl) = true → 0 ≤ (hi tl).f.limit := fun tl hb => by
    rw [bhi] at hb
    have := of_decide_eq_true hb
    exact hilg _ (by omega) (by omega)
  have todoL : ∀ tl, big (lo tl) = true → Todo w h (TrSt.mk sa1 isa2 x.bud).isa (TrSt.mk sa1 isa2 x.bud).sa (lo tl) ∧ Works w h (lo tl) ∧ (lo tl).f.trlink = tl := fun tl hb =>
    ⟨todo_plain c2 hb (fun a b ha hb => T.ag a b (mX a (.inl ha)) (mX b (.inl hb))) hdeep (by have := limL tl hb; omega) (fun h => by exfalso; have := limL tl hb; omega) atL,
      W _ rfl (by show L.length ≤ t.X.length; omega) (limL tl hb), rfl⟩
  have todoH : ∀ tl, big (hi tl) = true → Todo w h (TrSt.mk sa1 isa2 x.bud).isa (TrSt.mk sa1 isa2 x.bud).sa (hi tl) ∧ Works w h (hi tl) ∧ (hi tl).f.trlink = tl := fun tl hb =>
    ⟨todo_plain c4 hb (fun a b ha hb => T.ag a b (mX a (.inr (.inr ha))) (mX b (.inr (.inr hb)))) hdeep (by have := limH tl hb; omega) (fun h => by exfalso; have := limH tl hb; omega) atG,
      W _ rfl (by show G.length ≤ t.X.length; omega) (limH tl hb), rfl⟩
  have hends : L.length + G.length ≤ ends h t := by
    have h1 : (L ++ G).Nodup := hnd.sublist (List.Sublist.append_left (List.sublist_append_right ..) L)
    have h2 := h1.length_le_of_subset (l₂ := t.X.filter fun y => decide (y + (t.f.d - h) ∉ t.X)) (fun y hy => by
      have hyX := mX y (by rcases List.mem_append.1 hy with h | h; exact .inl h; exact .inr (.inr h))
      refine List.mem_filter.2 ⟨hyX, decide_eq_true fun hX => ?_⟩
      rw [hDe] at hX
      have h3 := T.cls.cls _ hX
      rcases List.mem_append.1 hy with h | h
      · have : ch x.isa (y + D) < t.f.last - 1 := g2 y h
        omega
      · have : t.f.last - 1 < ch x.isa (y + D) := g4 y h
        omega)
    rw [List.length_append] at h2
    exact h2
  have hneed : need h t = 2 + lg3 (ends h t) := by
    unfold need
    rw [if_pos hlim]
  have hmono := lg3_mono hends
  have nL : ∀ tl, big (lo tl) = true → 2 ≤ (lo tl).X.length ∧ (lo tl).f.last - (lo tl).f.first = (lo tl).X.length ∧ need h (lo tl) ≤ room (lo tl).X.length (L.length + G.length) := fun tl hb => by
    have hm := limL tl hb
    rw [blo] at hb
    exact ⟨of_decide_eq_true hb, by show t.f.first + L.length - t.f.first = L.length; omega, need_le_room (by omega) fun h => by omega⟩
  have nH : ∀ tl, big (hi tl) = true → 2 ≤ (hi tl).X.length ∧ (hi tl).f.last - (hi tl).f.first = (hi tl).X.length ∧ need h (hi tl) ≤ room (hi tl).X.length (L.length + G.length) := fun tl hb => by
    have hm := limH tl hb
    rw [bhi] at hb
    exact ⟨of_decide_eq_true hb, by show t.f.last - (t.f.first + L.length + E.length) = G.length; omega, need_le_room (by omega) fun h => by omega⟩
  have hneeds : ∀ tl (ts : List Task), ts.Perm ([lo tl, hi tl].filter big) → Asc ts → needs h ts ≤ lg3 (L.length + G.length) := fun tl ts t1 ha => by
    refine needs_le ?_ ha ?_ fun t' ht => ?_
    · rw [t1.length_eq]
      exact Nat.le_trans (List.length_filter_le ..) (by simp)
    · rw [sizes_perm t1]
      exact sizes_filter ..
    · obtain ⟨rfl | rfl, hb⟩ : (t' = lo tl ∨ t' = hi tl) ∧ big t' = true := by simpa using t1.mem_iff.1 ht
      · exact nL tl hb
      · exact nH tl hb
  have cT : cost w t = 8 * (t.X.length * (w.length + 1 - t.f.d)) + 4 := by
    unfold cost phase
    rw [if_neg (by omega), if_pos hlim]
  have hm2 : t.X.length * (w.length + 1 - t.f.d) = L.length * (w.length + 1 - t.f.d) + E.length * (w.length + 1 - t.f.d) + G.length * (w.length + 1 - t.f.d) := by
    rw [← Nat.add_mul, ← Nat.add_mul]
    congr 1
    omega
  have hq : ∀ a : Nat, a ≤ a * (w.length + 1 - t.f.d) := fun a => Nat.le_mul_of_pos_right a (by omega)
  have hqE := hq E.length
  have hqG := hq G.length
  have hqL := hq L.length
  have cost2 : ∀ tl, costs w ([lo tl, hi tl].filter big) + 8 * (E.length * (w.length + 1 - t.f.d)) + 9 ≤ cost w t ∨ (costs w ([lo tl, hi tl].filter big) = 0) := by
    intro tl
    rw [costs_two, cT]
    have a1 : big (lo tl) = true → cost w (lo tl) = 8 * (L.length * (w.length + 1 - t.f.d)) + 2 ∧ 1 < L.length := fun hb => ⟨cost_plain (lo tl) (limL tl hb), of_decide_eq_true ((blo tl).symm.trans hb)⟩
    have a2 : big (hi tl) = true → cost w (hi tl) = 8 * (G.length * (w.length + 1 - t.f.d)) + 2 ∧ 1 < G.length := fun hb => ⟨cost_plain (hi tl) (limH tl hb), of_decide_eq_true ((bhi tl).symm.trans hb)⟩
    cases hb1 : big (lo tl) <;> cases hb2 : big (hi tl) <;> simp only [hb1, hb2, if_true, Bool.false_eq_true, if_false] at a1 a2 ⊢
    · exact .inr trivial
    · have a2 := a2 trivial
      rw [a2.1]
      left
      omega
    · have a1 := a1 trivial
      rw [a1.1]
      left
      omega
    · have a1 := a1 trivial
      have a2 := a2 trivial
      rw [a1.1, a2.1]
      left
      omega
  have hc := T.cost_ge U
  have apLH : ∀ tl, Apart (lo tl) (hi tl) := fun tl => .inl (by show t.f.first + L.length ≤ t.f.first + L.length + E.length; omega)
  have hE1 : E.length < t.X.length ∨ True := .inr trivial
  by_cases hmid : 1 < E.length
  · -- the part in the middle is copied
    generalize htl : ((s.length : Nat) : Int) = tl
    generalize hs2 : (⟨D, t.f.first, t.f.last, -2, t.f.trlink⟩ :: ⟨0, t.f.first + L.length, t.f.first + L.length + E.length, 0, 0⟩ :: s : TrStack) = s2
    have hpm : (63 ≤ s.length ∧ pushMiddle (t.f.first + L.length) (t.f.first + L.length + E.length) h t.f s = .error .stack) ∨ pushMiddle (t.f.first + L.length) (t.f.first + L.length + E.length) h t.f s = .ok (tl, s2) := by
      unfold pushMiddle
      rw [if_pos (by omega)]
      simp only [Bind.bind, Except.bind]
      rcases push5_ok ⟨0, t.f.first + L.length, t.f.first + L.length + E.length, 0, 0⟩ s with h1 | ⟨hf, h1⟩
      · rw [h1]
        simp only []
        rw [hDe]
        rcases push5_ok ⟨D, t.f.first, t.f.last, -2, t.f.trlink⟩ (⟨0, t.f.first + L.length, t.f.first + L.length + E.length, 0, 0⟩ :: s) with h2 | ⟨hf, h2⟩
        · rw [h2, ← hs2, ← htl]
          exact .inr rfl
        · rw [h2]
          rw [List.length_cons] at hf
          exact .inl ⟨by omega, rfl⟩
      · rw [h1]
        exact .inl ⟨by omega, rfl⟩
    have hs2l : s2.length = s.length + 2 := by rw [← hs2]; rfl
    have hl2 : LinkOk tl s2 := by
      intro _
      rw [← htl, ← hs2]
      simp
      omega
    obtain ⟨ts, t1, tasc, t2⟩ := pushTwo_ok (lo tl) (hi tl) s2 ⟨sa1, isa2, x.bud⟩
    have hmem : ∀ t', t' ∈ ts → (t' = lo tl ∨ t' = hi tl) ∧ big t' = true := fun t' ht => by simpa using t1.mem_iff.1 ht
    have hst : (64 < s.length + need h t ∧ trStep h t.f s x = .error .stack) ∨ trStep h t.f s x = .ok (nextOf ts s2 ⟨sa1, isa2, x.bud⟩) := by
      rw [hstep]
      simp only [Bind.bind, Except.bind]
      rcases hpm with ⟨hf, h1⟩ | h1
      · rw [h1]
        exact .inl ⟨by omega, rfl⟩
      · rw [h1]
        rcases t2 with ⟨hf, b1, b2, t2⟩ | t2
        · rw [blo] at b1
          rw [bhi] at b2
          have b1 := of_decide_eq_true b1
          have b2 := of_decide_eq_true b2
          have := lg3_two (n := L.length + G.length) (by omega)
          exact .inl ⟨by omega, t2⟩
        · exact .inr t2
    rcases hst with ⟨hf, hst⟩ | hst
    · refine ⟨1, by omega, .inl ⟨hf, fun fuel => ?_⟩⟩
      rw [show 1 + fuel = fuel + 1 by omega]
      show (do let r ← trStep h t.f s x; trLoop h fuel r.f r.s r.x) = _
      rw [hst]
      rfl
    · have hruns := next_ok (l := tl) (ts := ts) (s := s2) (x := ⟨sa1, isa2, x.bud⟩) c1 (hu.1.trans hlen) (fun t' ht => by
          obtain ⟨rfl | rfl, hb⟩ := hmem t' ht
          · exact todoL tl hb
          · exact todoH tl hb) (by
          refine List.Pairwise.perm (List.Pairwise.filter _ ?_) t1.symm (fun h => by unfold Apart at *; omega)
          simp [apLH]) hl2
      obtain ⟨k, ⟨hk, _⟩, hrun⟩ := hruns
      have hk' : 1 + k + 2 + 8 ≤ cost w t := by
        rw [costs_perm t1] at hk
        rcases cost2 tl with h1 | h1 <;> omega
      have first : ∀ fuel, trLoop h (1 + fuel) (some t.f) s x = trLoop h fuel (nextOf ts s2 ⟨sa1, isa2, x.bud⟩).f (nextOf ts s2 ⟨sa1, isa2, x.bud⟩).s ⟨sa1, isa2, x.bud⟩ := by
        intro fuel
        rw [show 1 + fuel = fuel + 1 by omega]
        show (do let r ← trStep h t.f s x; trLoop h fuel r.f r.s r.x) = _
        rw [hst]
        rfl
      rcases hrun with ⟨hf, he⟩ | ⟨x2, fl, hr, D1⟩
      · have hsz2 := hneeds tl ts t1 tasc
        refine ⟨1 + k, by omega, .inl ⟨by omega, fun fuel => ?_⟩⟩
        rw [show 1 + k + fuel = 1 + (k + fuel) by omega, first]
        exact he fuel
      · have pL : Part w h ts ⟨sa1, isa2, x.bud⟩ t.f.first (t.f.first + L.length) L false := part_of (t := lo tl) (fun hb => t1.mem_iff.2 (by simp [hb])) (by
          intro hb t' ht
          obtain ⟨rfl | rfl, hb'⟩ := hmem t' ht
          · rw [hb] at hb'; cases hb'
          · exact (apLH tl).symm) c2 fun _ => atL
        have pG : Part w h ts ⟨sa1, isa2, x.bud⟩ (t.f.first + L.length + E.length) t.f.last G false := part_of (t := hi tl) (fun hb => t1.mem_iff.2 (by simp [hb])) (by
          intro hb t' ht
          obtain ⟨rfl | rfl, hb'⟩ := hmem t' ht
          · exact apLH tl
          · rw [hb] at hb'; cases hb') c4 fun _ => atG
        have rL := pL.res D1
        have rG := pG.res D1
        rw [Bool.or_false] at rL rG
        obtain ⟨x3, k1, k2⟩ := after_copy (x := x) (x1 := ⟨sa1, isa2, x.bud⟩) (D := D) T (D1.len.trans (hu.1.trans hlen)) h2 (by omega) (by omega) hp rfl rfl (List.ne_nil_of_length_pos (by omega)) c2 c3 c4 (fun y hy => by
            have hyX := mX y (.inr (.inl hy))
            have hr := rdX y hyX
            have hv : ch x.isa (y + D) = t.f.last - 1 := g3 y hy
            exact (T.cls.mem _).2 ⟨by omega, by omega, by omega⟩) (fun y hy ho => ⟨c5 y hy ho, fun hX => by
              have := ((T.cls.mem y).1 hX).2
              omega⟩) hu rfl D1 (fun t' ht => by
            obtain ⟨rfl | rfl, _⟩ := hmem t' ht
            · exact .inl ⟨Nat.le_refl _, Nat.le_refl _⟩
            · exact .inr ⟨Nat.le_refl _, Nat.le_refl _⟩) rL rG
        refine ⟨1 + k + 2, hk', .inr ⟨x3, fl, fun fuel => ?_, k2⟩⟩
        rw [show 1 + k + 2 + fuel = 1 + (k + (2 + fuel)) by omega, first, hr, ← htl, ← hs2, mk_self fl s _ _ rfl]
        exact copy_steps hl k1 fuel
  · have hpm : pushMiddle (t.f.first + L.length) (t.f.first + L.length + E.length) h t.f s = .ok (t.f.trlink, s) := by
      unfold pushMiddle
      rw [if_neg (by omega)]
    rw [hpm] at hstep
    obtain ⟨ts, t1, tasc, t2⟩ := pushTwo_ok (lo t.f.trlink) (hi t.f.trlink) s ⟨sa1, isa2, x.bud⟩
    have hmem : ∀ t', t' ∈ ts → (t' = lo t.f.trlink ∨ t' = hi t.f.trlink) ∧ big t' = true := fun t' ht => by simpa using t1.mem_iff.1 ht
    refine works_of_step (ts := ts) (fl0 := false) (x1 := ⟨sa1, isa2, x.bud⟩) (by
      rw [hstep]
      rcases t2 with ⟨t2, _, _, t3⟩ | t2
      · exact .inl ⟨by omega, t3⟩
      · exact .inr t2) c1 (hu.1.trans hlen) ?_ ?_ hl (by
      rw [costs_perm t1]
      rcases cost2 t.f.trlink with h1 | h1 <;> omega) (by omega) ⟨by
      have := hneeds t.f.trlink ts t1 tasc
      omega, by omega⟩ ?_
    · intro t' ht
      obtain ⟨rfl | rfl, hb⟩ := hmem t' ht
      · exact todoL _ hb
      · exact todoH _ hb
    · refine List.Pairwise.perm (List.Pairwise.filter _ ?_) t1.symm (fun h => by unfold Apart at *; omega)
      simp [apLH]
    · intro x' fl D1
      refine D1.parts hp c5 hu ?_ (part_of (t := lo t.f.trlink) ?_ ?_ c2 fun _ => atL) (.inr ⟨?_, fun y hy => c3.lt hy, c3.res atE (fun a b ha hb => (T.ag a b (mX a (.inr (.inl ha))) (mX b (.inr (.inl hb)))).mono h2) (fun _ => by omega)⟩)
        (part_of (t := hi t.f.trlink) ?_ ?_ c4 fun _ => atG) (fun _ => rfl) (fun h => (by cases h))
      · intro t' ht
        obtain ⟨rfl | rfl, _⟩ := hmem t' ht
        · exact ⟨Nat.le_refl _, by show t.f.first + L.length ≤ t.f.last; omega⟩
        · exact ⟨by show t.f.first ≤ t.f.first + L.length + E.length; omega, Nat.le_refl _⟩
      · exact fun hb => t1.mem_iff.2 (by simp [hb])
      · intro hb t' ht
        obtain ⟨rfl | rfl, hb'⟩ := hmem t' ht
        · rw [hb] at hb'; cases hb'
        · exact (apLH _).symm
      · intro t' ht
        obtain ⟨rfl | rfl, hb'⟩ := hmem t' ht
        · exact .inl (Nat.le_refl _)
        · exact .inr (Nat.le_refl _)
      · exact fun hb => t1.mem_iff.2 (by simp [hb])
      · intro hb t' ht
        obtain ⟨rfl | rfl, hb'⟩ := hmem t' ht
        · exact apLH _
        · rw [hb] at hb'; cases hb'

end Tr

end Dss
end Detools
