import Verif.Proofs.SsHeap
/-
sssort: the introsort.
-/
namespace Detools
namespace Dss
open Sais

theorem lgTable_nonneg {i : Nat} (h : 0 < i) : 0 ≤ lgTable i := by
  unfold lgTable
  rw [if_neg (by omega)]
  exact Int.natCast_nonneg _

theorem ssIlg_nonneg {n : Nat} (h : 0 < n) (h2 : n < 2 ^ 16) : 0 ≤ ssIlg n := by
  unfold ssIlg
  by_cases h1 : n &&& 0xff00 ≠ 0
  · rw [if_pos h1]
    unfold lgTable
    by_cases h3 : n >>> 8 &&& 255 = 0
    · rw [if_pos h3]; decide
    · rw [if_neg h3]; omega
  · rw [if_neg h1]
    refine lgTable_nonneg (Nat.pos_of_ne_zero fun h3 => ?_)
    have h1' : n &&& 0xff00 = 0 := Decidable.not_not.1 h1
    have : n &&& (0xff00 ||| 0xff) = 0 := by rw [Nat.and_or_distrib_left, h1', h3]; rfl
    rw [show (0xff00 ||| 0xff : Nat) = 2 ^ 16 - 1 from rfl, Nat.and_two_pow_sub_one_eq_mod, Nat.mod_eq_of_lt h2] at this
    omega

section
variable {e : SsText} {P : Nat → Nat} {m : Nat}

theorem Seg.rd {d : Nat} {xs : List Nat} (h : Seg e P m d xs) : Rd P m d xs := fun r hr => ⟨h.below r hr, h.long r hr⟩

theorem Seg.perm {d : Nat} {xs ys : List Nat} (h : Seg e P m d xs) (hp : ys.Perm xs) : Seg e P m d ys := h.subset fun _ hr => hp.subset hr

/-- Numbers are in the order of the first characters that differ. -/
theorem Seg.lt (X : Pos e P m) {d : Nat} {xs : List Nat} (h : Seg e P m d xs) {r s : Nat} (hr : r ∈ xs) (hs : s ∈ xs) (hlt : kc e P d r < kc e P d s) : Lex (key e P r) (key e P s) := by
  refine (lex_drop_key (h.same r s hr hs)).1 ?_
  have g1 := X.key_get (h.below r hr) (h.long r hr)
  have g2 := X.key_get (h.below s hs) (h.long s hs)
  obtain ⟨l1, e1⟩ := List.getElem?_eq_some_iff.1 g1
  obtain ⟨l2, e2⟩ := List.getElem?_eq_some_iff.1 g2
  rw [List.drop_eq_getElem_cons l1, List.drop_eq_getElem_cons l2, e1, e2]
  exact .inl hlt

/-- The characters before are the same. -/
theorem Seg.before (X : Pos e P m) {d : Nat} {xs : List Nat} (h : Seg e P m d xs) (hd : 0 < d) {r s : Nat} (hr : r ∈ xs) (hs : s ∈ xs) : kc e P (d - 1) r = kc e P (d - 1) s := by
  have g1 := X.key_get (d := d - 1) (h.below r hr) (by have := h.long r hr; omega)
  have g2 := X.key_get (d := d - 1) (h.below s hs) (by have := h.long s hs; omega)
  have h1 : ((key e P r).take d)[d - 1]? = ((key e P s).take d)[d - 1]? := by rw [h.same r s hr hs]
  rw [List.getElem?_take, List.getElem?_take, if_pos (by omega), if_pos (by omega), g1, g2] at h1
  injection h1

theorem sorted_strict {k : Nat → List Nat} : ∀ (S : List Nat), (S.Pairwise fun r s => Lex (k r) (k s)) → Sorted k S (S.map Int.ofNat)
  | [], _ => Sorted.nil
  | r :: S, h => by
    have h' := List.pairwise_cons.1 h
    have := Sorted.append (Sorted.one r) (sorted_strict S h'.2) (fun p hp q hq => by rw [List.mem_singleton.1 hp]; exact h'.1 q hq)
    exact this

theorem sorted_short {k : Nat → List Nat} : ∀ (S : List Nat), S.length ≤ 1 → Sorted k S (S.map Int.ofNat)
  | [], _ => Sorted.nil
  | [r], _ => Sorted.one r
  | _ :: _ :: _, h => absurd h (by simp)

/-- The first group of a sorted segment. -/
theorem findGroup_ok (X : Pos e P m) {d : Nat} : ∀ (R G : List Nat) (A B : List Int) (first i v : Nat), first = A.length → i = first + G.length → G ≠ [] → AllEq e P d v G →
    Rd P m d R → SrtC e P d (G ++ R) →
    ∃ (S G' T : List Nat) (v' : Nat), S ++ (G' ++ T) = G ++ R ∧ G' ≠ [] ∧ AllEq e P d v' G' ∧ AllGt e P d v' T ∧ AllLt e P d v' S ∧ (S.Pairwise fun r s => kc e P d r < kc e P d s) ∧
      findGroup e d (A ++ (G.map Int.ofNat ++ (R.map Int.ofNat ++ B))) R.length first i v = .ok (first + S.length, first + S.length + G'.length, v')
  | [], G, A, B, first, i, v, hf, hi, hG, hv, _, _ =>
    ⟨[], G, [], v, by simp, hG, hv, fun _ h => (by cases h), fun _ h => (by cases h), List.Pairwise.nil, by rw [hi]; rfl⟩
  | r :: R, G, A, B, first, i, v, hf, hi, hG, hv, hm, hs => by
    have hpos : 0 < G.length := List.length_pos_iff.2 hG
    have hs' := List.pairwise_append.1 hs
    obtain ⟨g, hg⟩ := List.exists_mem_of_ne_nil G hG
    have hvr : v ≤ kc e P d r := by have := hs'.2.2 g hg r (List.mem_cons_self ..); rw [hv g hg] at this; exact this
    have e1 : A ++ (G.map Int.ofNat ++ ((r :: R).map Int.ofNat ++ B)) = (A ++ G.map Int.ofNat) ++ (r : Int) :: (R.map Int.ofNat ++ B) := by simp
    show ∃ (S G' T : List Nat) (v' : Nat), _ ∧ _ ∧ _ ∧ _ ∧ _ ∧ _ ∧ findGroup e d _ (R.length + 1) first i v = _
    unfold findGroup
    rw [e1, keyAt_mid X (hm r (List.mem_cons_self ..)) (by simp; omega)]
    simp only [Bind.bind, Except.bind]
    by_cases h1 : kc e P d r = v
    · rw [if_neg (by simp [h1])]
      obtain ⟨S, G', T, v', k1, k2, k3, k4, k5, k6, k7⟩ := findGroup_ok X R (G ++ [r]) A B first (i + 1) v hf (by simp; omega) (by simp) (all_snoc hv h1) hm.tail (by simpa using hs)
      refine ⟨S, G', T, v', by rw [k1]; simp, k2, k3, k4, k5, k6, ?_⟩
      rw [← k7]
      simp
    · rw [if_pos h1]
      by_cases h2 : 1 < i - first
      · rw [if_pos h2]
        refine ⟨[], G, r :: R, v, rfl, hG, hv, fun s hs2 => ?_, fun _ h => (by cases h), List.Pairwise.nil, by rw [hi]; rfl⟩
        rcases List.mem_cons.1 hs2 with rfl | hs2
        · omega
        · have := (List.pairwise_cons.1 hs'.2.1).1 s hs2
          omega
      · rw [if_neg h2]
        match G, hG, hi, hv, hs, hs', hg, hpos with
        | [g], hG, hi, hv, hs, hs', hg, hpos =>
          obtain ⟨S, G', T, v', k1, k2, k3, k4, k5, k6, k7⟩ := findGroup_ok X R [r] (A ++ [(g : Int)]) B i (i + 1) (kc e P d r) (by simp at hi ⊢; omega) (by simp) (by simp)
            (fun s hs => by rw [List.mem_singleton.1 hs]) hm.tail hs'.2.1
          have hgv : kc e P d g = v := hv g (by simp)
          have hmin : ∀ x, x ∈ r :: R → v < kc e P d x := fun x hx => by
            rcases List.mem_cons.1 hx with rfl | hx
            · omega
            · have := (List.pairwise_cons.1 hs'.2.1).1 x hx
              omega
          have hmem : ∀ x, x ∈ S ++ (G' ++ T) → v < kc e P d x := fun x hx => hmin x (by rw [k1] at hx; exact hx)
          refine ⟨g :: S, G', T, v', by rw [List.cons_append, k1]; rfl, k2, k3, k4, all_cons k5 ?_, List.pairwise_cons.2 ⟨fun s hs => ?_, k6⟩, ?_⟩
          · obtain ⟨y, hy⟩ := List.exists_mem_of_ne_nil G' k2
            have := hmem y (List.mem_append_right _ (List.mem_append_left _ hy))
            rw [k3 y hy] at this
            omega
          · rw [hgv]
            exact hmem s (List.mem_append_left _ hs)
          · have e2 : (A ++ [g].map Int.ofNat) ++ (r : Int) :: (R.map Int.ofNat ++ B) = (A ++ [(g : Int)]) ++ ([r].map Int.ofNat ++ (R.map Int.ofNat ++ B)) := by simp
            rw [e2, k7]
            simp at hi ⊢
            omega
        | g :: g2 :: G, _, hi, _, _, _, _, _ => simp at hi; omega

/-! ### Runs -/

/-- What follows when a segment is sorted. -/
def nxt (e : SsText) (fuel : Nat) (s : List Frame) (a : List Int) : C (List Int) :=
  match s with
  | [] => .ok a
  | g :: s => mintroLoop e fuel g s a

/-- From a frame, in at most `C` steps, to where the stack is `s'`. -/
def RunsTo (e : SsText) (f : Frame) (s : List Frame) (a : List Int) (s' : List Frame) (a' : List Int) (C : Nat) : Prop :=
  ∃ c, c ≤ C ∧ ∀ fuel, mintroLoop e (fuel + c) f s a = nxt e fuel s' a'

theorem RunsTo.trans {f g : Frame} {s1 s s' : List Frame} {a a1 a2 : List Int} {C1 C2 : Nat} (h1 : RunsTo e f s1 a (g :: s) a1 C1) (h2 : RunsTo e g s a1 s' a2 C2) :
    RunsTo e f s1 a s' a2 (C1 + C2) := by
  obtain ⟨c1, l1, h1⟩ := h1
  obtain ⟨c2, l2, h2⟩ := h2
  refine ⟨c2 + c1, by omega, fun fuel => ?_⟩
  rw [← Nat.add_assoc, h1]
  exact h2 fuel

theorem RunsTo.mono {f : Frame} {s s' : List Frame} {a a' : List Int} {C C' : Nat} (h : RunsTo e f s a s' a' C) (hc : C ≤ C') : RunsTo e f s a s' a' C' := by
  obtain ⟨c, l, h⟩ := h
  exact ⟨c, by omega, h⟩

theorem RunsTo.step {f f1 : Frame} {s s1 s' : List Frame} {a a1 a' : List Int} {C : Nat} (hn : 8 < f.last - f.first) (hs : mintroStep e f s a = .ok ⟨f1, s1, a1⟩)
    (h : RunsTo e f1 s1 a1 s' a' C) : RunsTo e f s a s' a' (C + 1) := by
  obtain ⟨c, l, h⟩ := h
  refine ⟨c + 1, by omega, fun fuel => ?_⟩
  rw [← Nat.add_assoc]
  unfold mintroLoop
  rw [if_neg (by omega), hs]
  exact h fuel

/-- A segment is sorted in at most `C` steps, if the stack has room for it. -/
def PieceOk (e : SsText) (P : Nat → Nat) (d : Nat) (limit : Int) (xs : List Nat) (C : Nat) : Prop :=
  ∀ (k : Nat) (A B : List Int) (s : List Frame) (first last : Nat), first = A.length → last = first + xs.length → xs.length < 2 ^ k → 2 * k + s.length ≤ 22 →
    ∃ o, Sorted (key e P) xs o ∧ RunsTo e ⟨first, last, d, limit⟩ s (A ++ (xs.map Int.ofNat ++ B)) s (A ++ (o ++ B)) C

theorem PieceOk.small (X : Pos e P m) {d : Nat} {limit : Int} {xs : List Nat} (hseg : Seg e P m d xs) (h : xs.length ≤ 8) : PieceOk e P d limit xs 1 := by
  intro k A B s first last hf hl _ _
  have hrun : ∀ a', insIf e ⟨first, last, d, limit⟩ (A ++ (xs.map Int.ofNat ++ B)) = .ok a' → RunsTo e ⟨first, last, d, limit⟩ s (A ++ (xs.map Int.ofNat ++ B)) s a' 1 := by
    intro a' ha
    refine ⟨1, Nat.le_refl _, fun fuel => ?_⟩
    unfold mintroLoop
    simp only []
    rw [if_pos (by omega), ha]
    rfl
  unfold insIf at hrun
  simp only [] at hrun
  by_cases h1 : 1 < last - first
  · rw [if_pos h1] at hrun
    obtain ⟨o, h2, h3⟩ := ssInsertionsort_ok X (A := A) (B := B) hf hl hseg
    exact ⟨o, h2, hrun _ h3⟩
  · rw [if_neg h1] at hrun
    exact ⟨_, sorted_short xs (by omega), hrun _ rfl⟩

theorem three {F : List Int → List Int → List Int → List Int} {f1 f2 f3 : Frame} {s : List Frame} {x1 x2 x3 : List Int} {S1 S2 S3 : List Int → Prop} {C1 C2 C3 : Nat}
    (R1 : ∃ o, S1 o ∧ RunsTo e f1 (f2 :: f3 :: s) (F x1 x2 x3) (f2 :: f3 :: s) (F o x2 x3) C1)
    (R2 : ∀ o1, S1 o1 → ∃ o, S2 o ∧ RunsTo e f2 (f3 :: s) (F o1 x2 x3) (f3 :: s) (F o1 o x3) C2)
    (R3 : ∀ o1 o2, S1 o1 → S2 o2 → ∃ o, S3 o ∧ RunsTo e f3 s (F o1 o2 x3) s (F o1 o2 o) C3) :
    ∃ o1 o2 o3, S1 o1 ∧ S2 o2 ∧ S3 o3 ∧ RunsTo e f1 (f2 :: f3 :: s) (F x1 x2 x3) s (F o1 o2 o3) (C1 + C2 + C3) := by
  obtain ⟨o1, s1, r1⟩ := R1
  obtain ⟨o2, s2, r2⟩ := R2 o1 s1
  obtain ⟨o3, s3, r3⟩ := R3 o1 o2 s1 s2
  exact ⟨o1, o2, o3, s1, s2, s3, (r1.trans r2).trans r3⟩

theorem pushFrame_ok {f : Frame} {s : List Frame} (h : s.length < 16) : pushFrame f s = .ok (f :: s) := by
  unfold pushFrame
  rw [if_pos h]

/-- The three parts of a segment, in whatever order they are sorted. -/
theorem pushThree_ok {d k : Nat} {limit l0 : Int} {lo mid hi : List Nat} {Clo Cmid Chi : Nat} {A oE B : List Int} {s : List Frame} {first last : Nat}
    (hlo : PieceOk e P d limit lo Clo) (hmid : PieceOk e P (d + 1) (ssIlg mid.length) mid Cmid) (hhi : PieceOk e P d limit hi Chi)
    (hf : first = A.length) (hl : last = first + lo.length + oE.length + mid.length + hi.length) (hk : lo.length + mid.length + hi.length < 2 ^ k) (hk4 : 4 ≤ k) (hs : 2 * k + s.length ≤ 22) :
    ∃ (f1 : Frame) (s1 : List Frame) (o1 o2 o3 : List Int), Sorted (key e P) lo o1 ∧ Sorted (key e P) mid o2 ∧ Sorted (key e P) hi o3 ∧
      pushThree ⟨first, last, d, l0⟩ limit (first + lo.length) (first + lo.length + oE.length) (last - hi.length) s
        (A ++ (lo.map Int.ofNat ++ (oE ++ (mid.map Int.ofNat ++ (hi.map Int.ofNat ++ B))))) =
        .ok ⟨f1, s1, A ++ (lo.map Int.ofNat ++ (oE ++ (mid.map Int.ofNat ++ (hi.map Int.ofNat ++ B))))⟩ ∧
      RunsTo e f1 s1 (A ++ (lo.map Int.ofNat ++ (oE ++ (mid.map Int.ofNat ++ (hi.map Int.ofNat ++ B))))) s (A ++ (o1 ++ (oE ++ (o2 ++ (o3 ++ B))))) (Clo + Cmid + Chi) := by
  obtain ⟨k, rfl⟩ : ∃ j, k = j + 1 := ⟨k - 1, by omega⟩
  rw [Nat.pow_succ] at hk
  -- each part, whatever the others are
  have rlo : ∀ (j : Nat) (st : List Frame) (y z : List Int), lo.length < 2 ^ j → 2 * j + st.length ≤ 22 → ∃ o, Sorted (key e P) lo o ∧
      RunsTo e ⟨first, first + lo.length, d, limit⟩ st (A ++ (lo.map Int.ofNat ++ (oE ++ (y ++ (z ++ B))))) st (A ++ (o ++ (oE ++ (y ++ (z ++ B))))) Clo :=
    fun j st y z h1 h2 => hlo j A _ st first (first + lo.length) hf rfl h1 h2
  have rmid : ∀ (j : Nat) (st : List Frame) (x z : List Int), x.length = lo.length → mid.length < 2 ^ j → 2 * j + st.length ≤ 22 → ∃ o, Sorted (key e P) mid o ∧
      RunsTo e ⟨first + lo.length + oE.length, last - hi.length, d + 1, ssIlg mid.length⟩ st (A ++ (x ++ (oE ++ (mid.map Int.ofNat ++ (z ++ B))))) st (A ++ (x ++ (oE ++ (o ++ (z ++ B))))) Cmid := by
    intro j st x z hx h1 h2
    obtain ⟨o, g1, g2⟩ := hmid j (A ++ (x ++ oE)) (z ++ B) st (first + lo.length + oE.length) (last - hi.length) (by simp [hx, hf]; omega) (by omega) h1 h2
    exact ⟨o, g1, by simpa using g2⟩
  have rhi : ∀ (j : Nat) (st : List Frame) (x y : List Int), x.length = lo.length → y.length = mid.length → hi.length < 2 ^ j → 2 * j + st.length ≤ 22 → ∃ o, Sorted (key e P) hi o ∧
      RunsTo e ⟨last - hi.length, last, d, limit⟩ st (A ++ (x ++ (oE ++ (y ++ (hi.map Int.ofNat ++ B))))) st (A ++ (x ++ (oE ++ (y ++ (o ++ B))))) Chi := by
    intro j st x y hx hy h1 h2
    obtain ⟨o, g1, g2⟩ := hhi j (A ++ (x ++ (oE ++ y))) B st (last - hi.length) last (by simp [hx, hy, hf]; omega) (by omega) h1 h2
    exact ⟨o, g1, by simpa using g2⟩
  have hml : (lo.map Int.ofNat).length = lo.length := by simp
  have hmm : (mid.map Int.ofNat).length = mid.length := by simp
  unfold pushThree
  simp only []
  rw [show first + lo.length - first = lo.length by omega, show last - (last - hi.length) = hi.length by omega,
    show last - hi.length - (first + lo.length + oE.length) = mid.length by omega]
  have p16 : ∀ f : Frame, pushFrame f s = .ok (f :: s) := fun f => pushFrame_ok (by omega)
  have p16' : ∀ f g : Frame, pushFrame f (g :: s) = .ok (f :: g :: s) := fun f g => pushFrame_ok (by simp; omega)
  simp only [p16, p16', Bind.bind, Except.bind]
  have f2 : ∀ f : Frame, (f :: s).length = s.length + 1 := fun f => rfl
  have f3 : ∀ f g : Frame, (f :: g :: s).length = s.length + 2 := fun f g => rfl
  by_cases h1 : lo.length ≤ hi.length
  · rw [if_pos h1]
    by_cases h2 : hi.length ≤ mid.length
    · rw [if_pos h2]
      obtain ⟨o1, o3, o2, s1, s3, s2, r⟩ := three (e := e) (F := fun x z y => A ++ (x ++ (oE ++ (y ++ (z ++ B))))) (s := s)
        (rlo k _ _ _ (by omega) (by rw [f3]; omega)) (fun o1 h => rhi k _ o1 (mid.map Int.ofNat) h.length hmm (by omega) (by rw [f2]; omega)) (fun o1 o3 h h' => rmid (k + 1) s o1 o3 h.length (by omega) hs)
      exact ⟨_, _, o1, o2, o3, s1, s2, s3, rfl, r.mono (by omega)⟩
    · rw [if_neg h2]
      by_cases h3 : lo.length ≤ mid.length
      · rw [if_pos h3]
        obtain ⟨o1, o2, o3, s1, s2, s3, r⟩ := three (e := e) (F := fun x y z => A ++ (x ++ (oE ++ (y ++ (z ++ B))))) (s := s)
          (rlo k _ _ _ (by omega) (by rw [f3]; omega)) (fun o1 h => rmid k _ o1 (hi.map Int.ofNat) h.length (by omega) (by rw [f2]; omega)) (fun o1 o2 h h' => rhi (k + 1) s o1 o2 h.length h'.length (by omega) hs)
        exact ⟨_, _, o1, o2, o3, s1, s2, s3, rfl, r.mono (by omega)⟩
      · rw [if_neg h3]
        obtain ⟨o2, o1, o3, s2, s1, s3, r⟩ := three (e := e) (F := fun y x z => A ++ (x ++ (oE ++ (y ++ (z ++ B))))) (s := s)
          (rmid k _ (lo.map Int.ofNat) _ hml (by omega) (by rw [f3]; omega)) (fun o2 h => rlo k _ o2 (hi.map Int.ofNat) (by omega) (by rw [f2]; omega)) (fun o2 o1 h h' => rhi (k + 1) s o1 o2 h'.length h.length (by omega) hs)
        exact ⟨_, _, o1, o2, o3, s1, s2, s3, rfl, r.mono (by omega)⟩
  · rw [if_neg h1]
    by_cases h2 : lo.length ≤ mid.length
    · rw [if_pos h2]
      obtain ⟨o3, o1, o2, s3, s1, s2, r⟩ := three (e := e) (F := fun z x y => A ++ (x ++ (oE ++ (y ++ (z ++ B))))) (s := s)
        (rhi k _ (lo.map Int.ofNat) (mid.map Int.ofNat) hml hmm (by omega) (by rw [f3]; omega)) (fun o3 h => rlo k _ (mid.map Int.ofNat) o3 (by omega) (by rw [f2]; omega)) (fun o3 o1 h h' => rmid (k + 1) s o1 o3 h'.length (by omega) hs)
      exact ⟨_, _, o1, o2, o3, s1, s2, s3, rfl, r.mono (by omega)⟩
    · rw [if_neg h2]
      by_cases h3 : hi.length ≤ mid.length
      · rw [if_pos h3]
        obtain ⟨o3, o2, o1, s3, s2, s1, r⟩ := three (e := e) (F := fun z y x => A ++ (x ++ (oE ++ (y ++ (z ++ B))))) (s := s)
          (rhi k _ (lo.map Int.ofNat) (mid.map Int.ofNat) hml hmm (by omega) (by rw [f3]; omega)) (fun o3 h => rmid k _ (lo.map Int.ofNat) o3 hml (by omega) (by rw [f2]; omega)) (fun o3 o2 h h' => rlo (k + 1) s o2 o3 (by omega) hs)
        exact ⟨_, _, o1, o2, o3, s1, s2, s3, rfl, r.mono (by omega)⟩
      · rw [if_neg h3]
        obtain ⟨o2, o3, o1, s2, s3, s1, r⟩ := three (e := e) (F := fun y z x => A ++ (x ++ (oE ++ (y ++ (z ++ B))))) (s := s)
          (rmid k _ (lo.map Int.ofNat) (hi.map Int.ofNat) hml (by omega) (by rw [f3]; omega)) (fun o2 h => rhi k _ (lo.map Int.ofNat) o2 hml h.length (by omega) (by rw [f2]; omega)) (fun o2 o3 h h' => rlo (k + 1) s o2 o3 (by omega) hs)
        exact ⟨_, _, o1, o2, o3, s1, s2, s3, rfl, r.mono (by omega)⟩

theorem piece_bound {l t x n h : Nat} (h1 : l + t + x ≤ n) (h2 : 1 ≤ l + x) : l * h + t * (h + 1) + 1 ≤ n * (h + 1) := by
  have k1 : (l + t + x) * (h + 1) ≤ n * (h + 1) := Nat.mul_le_mul_right _ h1
  have k2 : (l + t + x) * (h + 1) = l * h + l + t * (h + 1) + (x * h + x) := by
    rw [Nat.add_mul, Nat.add_mul, Nat.mul_succ l, Nat.mul_succ x]
  omega

/-- What is known of smaller segments. -/
def Smaller (e : SsText) (P : Nat → Nat) (m W : Nat) : Prop :=
  ∀ (d : Nat) (limit : Int) (xs : List Nat), 0 < d → Seg e P m d xs → xs.length < 2 ^ 16 → (limit < 0 → SrtC e P d xs) → xs.length * (e.t.length + 1 - d) < W →
    PieceOk e P d limit xs (4 * (xs.length * (e.t.length + 1 - d)) + 1)

theorem SrtC.short {d : Nat} : ∀ {xs : List Nat}, xs.length = 0 → SrtC e P d xs
  | [], _ => List.Pairwise.nil

theorem Smaller.ilg {W d : Nat} {xs : List Nat} (h : Smaller e P m W) (hd : 0 < d) (hseg : Seg e P m d xs) (hn : xs.length < 2 ^ 16) (hW : xs.length * (e.t.length + 1 - d) < W) :
    PieceOk e P d (ssIlg xs.length) xs (4 * (xs.length * (e.t.length + 1 - d)) + 1) := by
  refine h d _ xs hd hseg hn (fun hlt => ?_) hW
  rcases Nat.eq_zero_or_pos xs.length with h0 | h0
  · exact SrtC.short h0
  · have := ssIlg_nonneg h0 hn
    omega

theorem Seg.height (X : Pos e P m) {d : Nat} {xs : List Nat} (h : Seg e P m d xs) (hne : xs ≠ []) : e.t.length + 1 - d = e.t.length + 1 - (d + 1) + 1 := by
  obtain ⟨r, hr⟩ := List.exists_mem_of_ne_nil xs hne
  have h1 := h.long r hr
  have h2 := X.kl (h.below r hr)
  omega

theorem sortedStep_ok (X : Pos e P m) {d k : Nat} {limit : Int} {xs : List Nat} {A B : List Int} {s : List Frame} {first last : Nat} (hd : 0 < d) (hseg : Seg e P m d xs) (hsr : SrtC e P d xs)
    (hn : 8 < xs.length) (h16 : xs.length < 2 ^ 16) (ih : Smaller e P m (xs.length * (e.t.length + 1 - d))) (hf : first = A.length) (hl : last = first + xs.length)
    (hk : xs.length < 2 ^ k) (hs : 2 * k + s.length ≤ 22) :
    ∃ (f1 : Frame) (s1 : List Frame) (a1 o : List Int) (C : Nat), C ≤ 4 * (xs.length * (e.t.length + 1 - d)) ∧ Sorted (key e P) xs o ∧
      sortedStep e ⟨first, last, d, limit⟩ s (A ++ (xs.map Int.ofNat ++ B)) = .ok ⟨f1, s1, a1⟩ ∧ RunsTo e f1 s1 a1 s (A ++ (o ++ B)) C := by
  match xs, hseg, hsr, hn, h16, ih, hl, hk with
  | r0 :: xs, hseg, hsr, hn, h16, ih, hl, hk =>
  have hk4 : 4 ≤ k := by
    rcases Nat.lt_or_ge k 4 with h | h
    · have := Nat.pow_le_pow_right (n := 2) (by omega) (show k ≤ 3 by omega)
      omega
    · exact h
  have hh := hseg.height X (by simp)
  unfold sortedStep
  simp only []
  have e0 : A ++ ((r0 :: xs).map Int.ofNat ++ B) = A ++ ([r0].map Int.ofNat ++ (xs.map Int.ofNat ++ B)) := by simp
  have hv0 : keyAt e d (A ++ ((r0 :: xs).map Int.ofNat ++ B)) first = .ok (kc e P d r0) := keyAt_mid X (hseg.rd r0 (by simp)) hf
  rw [hv0]
  simp only [Bind.bind, Except.bind]
  obtain ⟨S, G, T, v, k1, k2, k3, k4, k5, k6, k7⟩ := findGroup_ok X (d := d) xs [r0] A B first (first + 1) (kc e P d r0) hf rfl (by simp) (fun s hs => by rw [List.mem_singleton.1 hs]) hseg.rd.tail hsr
  rw [e0, show last - (first + 1) = xs.length by simp at hl; omega, k7]
  simp only []
  have kl := congrArg List.length k1
  simp only [List.length_append, List.length_cons, List.length_nil] at kl
  have hmem : ∀ x, x ∈ S ++ (G ++ T) → x ∈ r0 :: xs := fun x hx => by rw [k1] at hx; exact hx
  have hmS : ∀ x, x ∈ S → x ∈ r0 :: xs := fun x hx => hmem x (List.mem_append_left _ hx)
  have hmG : ∀ x, x ∈ G → x ∈ r0 :: xs := fun x hx => hmem x (List.mem_append_right _ (List.mem_append_left _ hx))
  have hmT : ∀ x, x ∈ T → x ∈ r0 :: xs := fun x hx => hmem x (List.mem_append_right _ (List.mem_append_right _ hx))
  have e1 : A ++ ([r0].map Int.ofNat ++ (xs.map Int.ofNat ++ B)) = (A ++ S.map Int.ofNat) ++ (G.map Int.ofNat ++ (T.map Int.ofNat ++ B)) := by
    rw [← List.append_assoc ([r0].map Int.ofNat), ← List.map_append, ← k1]
    simp
  rw [e1]
  obtain ⟨g0, G0, rfl⟩ := List.exists_cons_of_ne_nil k2
  have hg0 : kc e P d g0 = v := k3 g0 (by simp)
  have hu0 : keyAt e (d - 1) ((A ++ S.map Int.ofNat) ++ ((g0 :: G0).map Int.ofNat ++ (T.map Int.ofNat ++ B))) (first + S.length) = .ok (kc e P (d - 1) g0) := by
    refine keyAt_mid X ⟨hseg.below g0 (hmG g0 (by simp)), ?_⟩ (by simp [hf])
    have := hseg.long g0 (hmG g0 (by simp))
    omega
  rw [hu0]
  simp only []
  obtain ⟨E, L, oE, q1, q2, q3, q4, q5⟩ := partIf_ok X (A := A ++ S.map Int.ofNat) (B := T.map Int.ofNat ++ B) (first := first + S.length) (last := first + S.length + (g0 :: G0).length) (u := kc e P (d - 1) g0) hd (hseg.subset hmG) (v := v)
    k3 (fun r hr => hseg.before X hd (hmG r hr) (hmG g0 (by simp))) (by simp [hf]) rfl
  rw [q5]
  simp only []
  have ql := q1.length_eq
  simp only [List.length_append, List.length_cons] at ql
  have qel := q2.length
  -- how it is put together
  have hperm : (S ++ (E ++ (L ++ T))).Perm (r0 :: xs) := by
    show (S ++ (E ++ (L ++ T))).Perm ([r0] ++ xs)
    rw [← k1, ← List.append_assoc E]
    exact List.Perm.append_left _ (q1.append_right _)
  have hsort : ∀ o1 o2, Sorted (key e P) L o1 → Sorted (key e P) T o2 → Sorted (key e P) (r0 :: xs) (S.map Int.ofNat ++ (oE ++ (o1 ++ o2))) := by
    intro o1 o2 h1 h2
    have hEG : ∀ x, x ∈ E → x ∈ g0 :: G0 := fun x hx => q1.subset (List.mem_append_left _ hx)
    have hLG : ∀ x, x ∈ L → x ∈ g0 :: G0 := fun x hx => q1.subset (List.mem_append_right _ hx)
    have hGT : ∀ x, x ∈ g0 :: G0 → ∀ y, y ∈ T → Lex (key e P x) (key e P y) := fun x hx y hy =>
      hseg.lt X (hmG x hx) (hmT y hy) (by rw [k3 x hx]; exact k4 y hy)
    have hSG : ∀ x, x ∈ S → ∀ y, y ∈ g0 :: G0 → Lex (key e P x) (key e P y) := fun x hx y hy =>
      hseg.lt X (hmS x hx) (hmG y hy) (by rw [k3 y hy]; exact k5 x hx)
    have hST : ∀ x, x ∈ S → ∀ y, y ∈ T → Lex (key e P x) (key e P y) := fun x hx y hy =>
      hseg.lt X (hmS x hx) (hmT y hy) (Nat.lt_trans (k5 x hx) (k4 y hy))
    have sS : Sorted (key e P) S (S.map Int.ofNat) := sorted_strict S (by
      refine List.Pairwise.imp_of_mem ?_ k6
      intro a b ha hb hlt
      exact hseg.lt X (hmS a ha) (hmS b hb) hlt)
    refine (sS.append (q2.append (h1.append h2 fun x hx y hy => hGT x (hLG x hx) y hy) fun x hx y hy => ?_) fun x hx y hy => ?_).perm hperm
    · rcases List.mem_append.1 hy with hy | hy
      · exact q4 x hx y hy
      · exact hGT x (hEG x hx) y hy
    · rcases List.mem_append.1 hy with hy | hy
      · exact hSG x hx y (hEG y hy)
      · rcases List.mem_append.1 hy with hy | hy
        · exact hSG x hx y (hLG y hy)
        · exact hST x hx y hy
  -- the two parts
  have hLs : L.length * (e.t.length + 1 - (d + 1)) + T.length * (e.t.length + 1 - d) + 1 ≤ (r0 :: xs).length * (e.t.length + 1 - d) := by
    rw [hh]
    exact piece_bound (x := E.length) (by simp only [List.length_cons] at ql kl ⊢; omega) (by omega)
  have hLen : (r0 :: xs).length = S.length + E.length + L.length + T.length := by simp only [List.length_cons] at kl ⊢; omega
  have pL := ih.ilg (d := d + 1) (Nat.succ_pos d) q3 (by omega) (by omega)
  have hsT : SrtC e P d T := by
    have : SrtC e P d (S ++ (g0 :: G0 ++ T)) := by rw [k1]; exact hsr
    exact (List.pairwise_append.1 (List.pairwise_append.1 this).2.1).2.1
  have pT := ih d (-1) T hd (hseg.subset hmT) (by omega) (fun _ => hsT) (by omega)
  obtain ⟨k, rfl⟩ : ∃ j, k = j + 1 := ⟨k - 1, by omega⟩
  rw [Nat.pow_succ] at hk
  have rL : ∀ (j : Nat) (st : List Frame) (y : List Int), L.length < 2 ^ j → 2 * j + st.length ≤ 22 → ∃ o, Sorted (key e P) L o ∧
      RunsTo e ⟨first + S.length + E.length, first + S.length + (g0 :: G0).length, d + 1, ssIlg L.length⟩ st ((A ++ S.map Int.ofNat) ++ (oE ++ (L.map Int.ofNat ++ (y ++ B)))) st
        (A ++ (S.map Int.ofNat ++ (oE ++ (o ++ y))) ++ B) (4 * (L.length * (e.t.length + 1 - (d + 1))) + 1) := by
    intro j st y h1 h2
    obtain ⟨o, g1, g2⟩ := pL j ((A ++ S.map Int.ofNat) ++ oE) (y ++ B) st _ (first + S.length + (g0 :: G0).length) rfl (by simp only [List.length_append, List.length_map, List.length_cons, qel]; omega) h1 h2
    rw [show ((A ++ S.map Int.ofNat) ++ oE).length = first + S.length + E.length by simp only [List.length_append, List.length_map, qel, hf]] at g2
    exact ⟨o, g1, by simpa using g2⟩
  have rT : ∀ (j : Nat) (st : List Frame) (x : List Int), x.length = L.length → T.length < 2 ^ j → 2 * j + st.length ≤ 22 → ∃ o, Sorted (key e P) T o ∧
      RunsTo e ⟨first + S.length + (g0 :: G0).length, last, d, -1⟩ st (A ++ (S.map Int.ofNat ++ (oE ++ (x ++ T.map Int.ofNat))) ++ B) st
        (A ++ (S.map Int.ofNat ++ (oE ++ (x ++ o))) ++ B) (4 * (T.length * (e.t.length + 1 - d)) + 1) := by
    intro j st x hx h1 h2
    obtain ⟨o, g1, g2⟩ := pT j ((A ++ S.map Int.ofNat) ++ (oE ++ x)) B st _ last rfl (by simp only [List.length_append, List.length_map, List.length_cons, qel, hx] at hl kl ⊢; omega) h1 h2
    rw [show ((A ++ S.map Int.ofNat) ++ (oE ++ x)).length = first + S.length + (g0 :: G0).length by simp only [List.length_append, List.length_map, List.length_cons, qel, hx, hf]; omega] at g2
    exact ⟨o, g1, by simpa using g2⟩
  have eT : (A ++ S.map Int.ofNat) ++ (oE ++ (L.map Int.ofNat ++ (T.map Int.ofNat ++ B))) = A ++ (S.map Int.ofNat ++ (oE ++ (L.map Int.ofNat ++ T.map Int.ofNat))) ++ B := by simp
  have hiL : first + S.length + (g0 :: G0).length - (first + S.length + E.length) = L.length := by simp only [List.length_cons]; omega
  have hiT : last - (first + S.length + (g0 :: G0).length) = T.length := by simp only [List.length_cons] at kl hl ⊢; omega
  have p16 : ∀ f : Frame, pushFrame f s = .ok (f :: s) := fun f => pushFrame_ok (by omega)
  have f2 : ∀ f : Frame, (f :: s).length = s.length + 1 := fun f => rfl
  rw [hiL, hiT]
  simp only [p16]
  by_cases c1 : L.length ≤ T.length
  · rw [if_pos c1]
    by_cases c2 : 1 < L.length
    · rw [if_pos c2]
      obtain ⟨o1, t1, r1⟩ := rL k (⟨first + S.length + (g0 :: G0).length, last, d, -1⟩ :: s) (T.map Int.ofNat) (by omega) (by rw [f2]; omega)
      obtain ⟨o2, t2, r2⟩ := rT (k + 1) s o1 t1.length (by rw [Nat.pow_succ]; omega) hs
      refine ⟨_, _, _, _, 4 * ((r0 :: xs).length * (e.t.length + 1 - d)), Nat.le_refl _, hsort o1 o2 t1 t2, rfl, ?_⟩
      rw [← List.append_assoc A]
      exact (r1.trans r2).mono (by omega)
    · rw [if_neg c2]
      obtain ⟨o2, t2, r2⟩ := rT (k + 1) s (L.map Int.ofNat) (by simp) (by rw [Nat.pow_succ]; omega) hs
      refine ⟨_, _, _, _, 4 * ((r0 :: xs).length * (e.t.length + 1 - d)), Nat.le_refl _, hsort _ o2 (sorted_short L (by omega)) t2, rfl, ?_⟩
      rw [← List.append_assoc A, eT]
      exact (r2).mono (by omega)
  · rw [if_neg c1]
    by_cases c2 : 1 < T.length
    · rw [if_pos c2]
      obtain ⟨o2, t2, r2⟩ := rT k (⟨first + S.length + E.length, first + S.length + (g0 :: G0).length, d + 1, ssIlg L.length⟩ :: s) (L.map Int.ofNat) (by simp) (by omega) (by rw [f2]; omega)
      obtain ⟨o1, t1, r1⟩ := rL (k + 1) s o2 (by rw [Nat.pow_succ]; omega) hs
      have e5 : A ++ (S.map Int.ofNat ++ (oE ++ (L.map Int.ofNat ++ o2))) ++ B = (A ++ S.map Int.ofNat) ++ (oE ++ (L.map Int.ofNat ++ (o2 ++ B))) := by simp
      refine ⟨_, _, _, _, 4 * ((r0 :: xs).length * (e.t.length + 1 - d)), Nat.le_refl _, hsort o1 o2 t1 t2, rfl, ?_⟩
      rw [← List.append_assoc A, eT]
      rw [e5] at r2
      exact (r2.trans r1).mono (by omega)
    · rw [if_neg c2]
      obtain ⟨o1, t1, r1⟩ := rL (k + 1) s (T.map Int.ofNat) (by rw [Nat.pow_succ]; omega) hs
      refine ⟨_, _, _, _, 4 * ((r0 :: xs).length * (e.t.length + 1 - d)), Nat.le_refl _, hsort o1 _ t1 (sorted_short T (by omega)), rfl, ?_⟩
      rw [← List.append_assoc A]
      exact (r1).mono (by omega)

/-- The element at index `i` and the first change places. -/
theorem swap_first {A B : List Int} {xs : List Nat} {i r : Nat} (hr : xs[i]? = some r) :
    ∃ ys : List Nat, (r :: ys).Perm xs ∧ swapAt A.length (A.length + i) (A ++ (xs.map Int.ofNat ++ B)) = .ok (A ++ ((r :: ys).map Int.ofNat ++ B)) := by
  obtain ⟨hi, hri⟩ := List.getElem?_eq_some_iff.1 hr
  cases xs with
  | nil => simp at hi
  | cons r0 xs =>
    cases i with
    | zero =>
      simp at hri
      subst hri
      exact ⟨xs, .refl _, swapAt_self rfl⟩
    | succ i =>
      simp at hri hi
      have hsplit : xs = xs.take i ++ r :: xs.drop (i + 1) := by
        rw [← hri, ← List.drop_eq_getElem_cons hi, List.take_append_drop]
      have hlen : (xs.take i).length = i := by rw [List.length_take]; omega
      refine ⟨xs.take i ++ r0 :: xs.drop (i + 1), ?_, ?_⟩
      · conv => rhs; rw [hsplit]
        exact (List.perm_middle.cons r).trans ((List.Perm.swap r0 r _).trans (List.perm_middle.symm.cons r0))
      · have e1 : A ++ ((r0 :: xs).map Int.ofNat ++ B) = A ++ (r0 : Int) :: ((xs.take i).map Int.ofNat ++ (r : Int) :: ((xs.drop (i + 1)).map Int.ofNat ++ B)) := by
          conv => lhs; rw [hsplit]
          simp
        rw [e1, swapAt_mid rfl (by simp; omega)]
        simp

theorem pivotStep_ok (X : Pos e P m) {d k : Nat} {limit l0 : Int} {xs : List Nat} {A B : List Int} {s : List Frame} {first last : Nat} (hd : 0 < d) (hseg : Seg e P m d xs)
    (hn : 8 < xs.length) (h16 : xs.length < 2 ^ 16) (hlim : 0 ≤ limit) (ih : Smaller e P m (xs.length * (e.t.length + 1 - d))) (hf : first = A.length) (hl : last = first + xs.length)
    (hk : xs.length < 2 ^ k) (hs : 2 * k + s.length ≤ 22) :
    ∃ (f1 : Frame) (s1 : List Frame) (a1 o : List Int), Sorted (key e P) xs o ∧
      pivotStep e ⟨first, last, d, l0⟩ limit s (A ++ (xs.map Int.ofNat ++ B)) = .ok ⟨f1, s1, a1⟩ ∧ RunsTo e f1 s1 a1 s (A ++ (o ++ B)) (4 * (xs.length * (e.t.length + 1 - d))) := by
  have hne : xs ≠ [] := by intro h; rw [h] at hn; simp at hn
  have hk4 : 4 ≤ k := by
    rcases Nat.lt_or_ge k 4 with h | h
    · have := Nat.pow_le_pow_right (n := 2) (by omega) (show k ≤ 3 by omega)
      omega
    · exact h
  have hh := hseg.height X hne
  unfold pivotStep
  simp only []
  obtain ⟨i, hi, hi1, hi2⟩ := ssPivot_ok (e := e) (d := d) (first := first) (last := last) (a := A ++ (xs.map Int.ofNat ++ B)) (fun i h1 h2 => by
    obtain ⟨r, hr⟩ : ∃ r, xs[i - A.length]? = some r := ⟨_, List.getElem?_eq_getElem (by omega)⟩
    have := arr_key X (A := A) (B := B) hr hseg.rd
    rw [show A.length + (i - A.length) = i by omega] at this
    exact ⟨_, this⟩) (by omega)
  rw [hi]
  simp only [Bind.bind, Except.bind]
  obtain ⟨i, rfl⟩ : ∃ j, i = A.length + j := ⟨i - A.length, by omega⟩
  obtain ⟨r, hr⟩ : ∃ r, xs[i]? = some r := ⟨_, List.getElem?_eq_getElem (by omega)⟩
  rw [arr_key X hr hseg.rd]
  simp only []
  obtain ⟨ys, hys, hsw⟩ := swap_first (A := A) (B := B) hr
  rw [hf, hsw, ← hf]
  simp only []
  have hseg1 : Seg e P m d (r :: ys) := hseg.perm hys
  have hyl : ys.length + 1 = xs.length := by have := hys.length_eq; simpa using this
  obtain ⟨E, L, G, E2, c, q, g1, g2, g3, g4, g5, g6, g7, g8⟩ := splitAround_ok X (d := d) (v := kc e P d r) (A := A) (B := B) r ys hseg1.rd rfl hf (last := last) (by omega)
  rw [g8]
  simp only []
  have hseg2 : Seg e P m d (E ++ (L ++ (G ++ E2))) := hseg1.perm g1
  have gl := g1.length_eq
  simp only [List.length_append, List.length_cons] at gl
  have hEpos : 0 < E.length := List.length_pos_iff.2 g6
  by_cases hpq : A.length + E.length ≤ q
  · rw [if_pos hpq]
    unfold splitStep
    simp only []
    rw [show A.length + E.length - first = E.length by omega, show A.length + E.length + L.length - (A.length + E.length) = L.length by omega,
      show q + 1 - (A.length + E.length + L.length) = G.length by omega, show last - q - 1 = E2.length by omega]
    obtain ⟨E', L', x1, x2, x3⟩ := exchange_ok E L A (G.map Int.ofNat ++ (E2.map Int.ofNat ++ B)) hf rfl
    rw [show A.length + E.length + L.length - min E.length L.length = first + E.length + L.length - min E.length L.length by omega, x3]
    simp only [Bind.bind, Except.bind]
    have x1l := x1.length_eq
    have x2l := x2.length_eq
    obtain ⟨G', E2', y1, y2, y3⟩ := exchange_ok G E2 (A ++ (L'.map Int.ofNat ++ E'.map Int.ofNat)) B (i := A.length + E.length + L.length) (by simp; omega) rfl
    have e1 : A ++ (L'.map Int.ofNat ++ (E'.map Int.ofNat ++ (G.map Int.ofNat ++ (E2.map Int.ofNat ++ B)))) =
        (A ++ (L'.map Int.ofNat ++ E'.map Int.ofNat)) ++ (G.map Int.ofNat ++ (E2.map Int.ofNat ++ B)) := by simp
    rw [e1, show last - min G.length E2.length = A.length + E.length + L.length + G.length + E2.length - min G.length E2.length by omega, y3]
    simp only []
    have y1l := y1.length_eq
    have y2l := y2.length_eq
    have e2 : (A ++ (L'.map Int.ofNat ++ E'.map Int.ofNat)) ++ (E2'.map Int.ofNat ++ (G'.map Int.ofNat ++ B)) =
        (A ++ L'.map Int.ofNat) ++ ((E' ++ E2').map Int.ofNat ++ (G'.map Int.ofNat ++ B)) := by simp
    rw [e2]
    have mE : ∀ x, x ∈ E' ++ E2' → x ∈ E ++ (L ++ (G ++ E2)) ∧ kc e P d x = kc e P d r := by
      intro x hx
      rcases List.mem_append.1 hx with hx | hx
      · exact ⟨by simp [x1.subset hx], g2 x (x1.subset hx)⟩
      · exact ⟨by simp [y2.subset hx], g5 x (y2.subset hx)⟩
    have mL : ∀ x, x ∈ L' → x ∈ E ++ (L ++ (G ++ E2)) ∧ kc e P d x < kc e P d r := fun x hx => ⟨by simp [x2.subset hx], g3 x (x2.subset hx)⟩
    have mG : ∀ x, x ∈ G' → x ∈ E ++ (L ++ (G ++ E2)) ∧ kc e P d r < kc e P d x := fun x hx => ⟨by simp [y1.subset hx], g4 x (y1.subset hx)⟩
    obtain ⟨g0, G0, hg0⟩ : ∃ g0 G0, E' ++ E2' = g0 :: G0 := List.exists_cons_of_ne_nil (by
      intro h
      have := congrArg List.length h
      simp at this
      rw [← x1l] at hEpos
      simp [this] at hEpos)
    have hmg0 := mE g0 (by rw [hg0]; simp)
    have hu0 : keyAt e (d - 1) ((A ++ L'.map Int.ofNat) ++ ((E' ++ E2').map Int.ofNat ++ (G'.map Int.ofNat ++ B))) (first + L.length) = .ok (kc e P (d - 1) g0) := by
      rw [hg0]
      refine keyAt_mid X ⟨hseg2.below g0 hmg0.1, ?_⟩ (by simp [hf]; omega)
      have := hseg2.long g0 hmg0.1
      omega
    rw [hu0]
    simp only []
    obtain ⟨EE, M, oE, q1, q2, q3, q4, q5⟩ := partIf_ok X (A := A ++ L'.map Int.ofNat) (B := G'.map Int.ofNat ++ B) (xs := E' ++ E2') (first := first + L.length) (last := last - G.length)
      (u := kc e P (d - 1) g0) (v := kc e P d r) hd (hseg2.subset fun x hx => (mE x hx).1) (fun x hx => (mE x hx).2) (fun x hx => hseg2.before X hd (mE x hx).1 hmg0.1)
      (by simp [hf]; omega) (by simp; omega)
    rw [q5]
    simp only []
    have ql := q1.length_eq
    simp only [List.length_append] at ql
    have qel := q2.length
    have mEE : ∀ x, x ∈ EE → x ∈ E' ++ E2' := fun x hx => q1.subset (List.mem_append_left _ hx)
    have mM : ∀ x, x ∈ M → x ∈ E' ++ E2' := fun x hx => q1.subset (List.mem_append_right _ hx)
    have hb : M.length * (e.t.length + 1 - (d + 1)) + (L'.length + G'.length) * (e.t.length + 1 - d) + 1 ≤ xs.length * (e.t.length + 1 - d) := by
      rw [hh]
      exact piece_bound (x := EE.length) (by omega) (by omega)
    rw [Nat.add_mul] at hb
    have pM := ih.ilg (d := d + 1) (Nat.succ_pos d) q3 (by omega) (by omega)
    have pL := ih d limit L' hd (hseg2.subset fun x hx => (mL x hx).1) (by omega) (fun h => by omega) (by omega)
    have pG := ih d limit G' hd (hseg2.subset fun x hx => (mG x hx).1) (by omega) (fun h => by omega) (by omega)
    obtain ⟨f1, s1, o1, o2, o3, t1, t2, t3, t4, t5⟩ := pushThree_ok (e := e) (P := P) (A := A) (oE := oE) (B := B) (s := s) (first := first) (last := last) (l0 := l0) (k := k) pL pM pG hf (by omega) (by omega) hk4 hs
    refine ⟨f1, s1, A ++ (L'.map Int.ofNat ++ (oE ++ (M.map Int.ofNat ++ (G'.map Int.ofNat ++ B)))), o1 ++ (oE ++ (o2 ++ o3)), ?_, ?_, ?_⟩
    rotate_left
    · have e3 : (A ++ L'.map Int.ofNat) ++ (oE ++ (M.map Int.ofNat ++ (G'.map Int.ofNat ++ B))) = A ++ (L'.map Int.ofNat ++ (oE ++ (M.map Int.ofNat ++ (G'.map Int.ofNat ++ B)))) := by simp
      rw [e3, ← x2l, ← y1l, show first + L'.length + EE.length = first + L'.length + oE.length by omega]
      exact t4
    · have e4 : A ++ (o1 ++ (oE ++ (o2 ++ o3)) ++ B) = A ++ (o1 ++ (oE ++ (o2 ++ (o3 ++ B)))) := by simp
      rw [e4]
      refine t5.mono ?_
      omega
    · have hlt : ∀ x y, x ∈ E ++ (L ++ (G ++ E2)) → y ∈ E ++ (L ++ (G ++ E2)) → kc e P d x < kc e P d y → Lex (key e P x) (key e P y) := fun x y hx hy h => hseg2.lt X hx hy h
      have hperm : (L' ++ (EE ++ (M ++ G'))).Perm xs := by
        refine .trans ?_ (g1.trans hys)
        rw [← List.append_assoc EE]
        refine (List.Perm.append_left L' (q1.append_right G')).trans ?_
        have p1 : (L' ++ (E' ++ E2' ++ G')).Perm (L ++ (E ++ E2 ++ G)) := x2.append ((x1.append y2).append y1)
        refine p1.trans ?_
        have p2 : (L ++ (E ++ E2 ++ G)).Perm (E ++ E2 ++ G ++ L) := List.perm_append_comm
        refine p2.trans ?_
        rw [List.append_assoc, List.append_assoc]
        refine List.Perm.append_left E ?_
        have p3 : (E2 ++ (G ++ L)).Perm ((G ++ L) ++ E2) := List.perm_append_comm
        refine p3.trans ?_
        rw [← List.append_assoc]
        exact List.perm_append_comm.append_right E2
      refine Sorted.perm (Sorted.append t1 (Sorted.append q2 (Sorted.append t2 t3 ?_) ?_) ?_) hperm
      · intro x hx y hy
        exact hlt x y (mE x (mM x hx)).1 (mG y hy).1 (by rw [(mE x (mM x hx)).2]; exact (mG y hy).2)
      · intro x hx y hy
        rcases List.mem_append.1 hy with hy | hy
        · exact q4 x hx y hy
        · exact hlt x y (mE x (mEE x hx)).1 (mG y hy).1 (by rw [(mE x (mEE x hx)).2]; exact (mG y hy).2)
      · intro x hx y hy
        rcases List.mem_append.1 hy with hy | hy
        · exact hlt x y (mL x hx).1 (mE y (mEE y hy)).1 (by rw [(mE y (mEE y hy)).2]; exact (mL x hx).2)
        · rcases List.mem_append.1 hy with hy | hy
          · exact hlt x y (mL x hx).1 (mE y (mM y hy)).1 (by rw [(mE y (mM y hy)).2]; exact (mL x hx).2)
          · exact hlt x y (mL x hx).1 (mG y hy).1 (Nat.lt_trans (mL x hx).2 (mG y hy).2)
  · rw [if_neg hpq]
    have hL0 : L = [] := List.length_eq_zero_iff.1 (by omega)
    have hG0 : G = [] := List.length_eq_zero_iff.1 (by omega)
    subst hL0 hG0
    unfold sameStep
    simp only []
    have e1 : A ++ (E.map Int.ofNat ++ (([] : List Nat).map Int.ofNat ++ (([] : List Nat).map Int.ofNat ++ (E2.map Int.ofNat ++ B)))) = A ++ ((E ++ E2).map Int.ofNat ++ B) := by simp
    rw [e1]
    have hseg3 : Seg e P m d (E ++ E2) := by simpa using hseg2
    have mE : ∀ x, x ∈ E ++ E2 → kc e P d x = kc e P d r := fun x hx => by
      rcases List.mem_append.1 hx with hx | hx
      · exact g2 x hx
      · exact g5 x hx
    obtain ⟨g0, G0, hg0⟩ := List.exists_cons_of_ne_nil g6
    have hmg0 : g0 ∈ E ++ E2 := by rw [hg0]; simp
    have hu0 : keyAt e (d - 1) (A ++ ((E ++ E2).map Int.ofNat ++ B)) first = .ok (kc e P (d - 1) g0) := by
      rw [hg0]
      refine keyAt_mid X ⟨hseg3.below g0 hmg0, ?_⟩ hf
      have := hseg3.long g0 hmg0
      omega
    rw [hu0]
    simp only [Bind.bind, Except.bind]
    simp only [List.length_nil] at gl
    obtain ⟨EE, M, oE, q1, q2, q3, q4, q5⟩ := partIf_ok X (A := A) (B := B) (xs := E ++ E2) (first := first) (last := last)
      (u := kc e P (d - 1) g0) (v := kc e P d r) hd hseg3 mE (fun x hx => hseg3.before X hd hx hmg0) hf (by simp; omega)
    rw [q5]
    simp only []
    have ql := q1.length_eq
    simp only [List.length_append] at ql
    have qel := q2.length
    have hb : M.length * (e.t.length + 1 - (d + 1)) + 0 * (e.t.length + 1 - d) + 1 ≤ xs.length * (e.t.length + 1 - d) := by
      rw [hh]
      exact piece_bound (x := EE.length) (by omega) (by omega)
    have pM : PieceOk e P (d + 1) (if kc e P (d - 1) g0 < kc e P d r then ssIlg (last - (first + EE.length)) else limit + 1) M (4 * (M.length * (e.t.length + 1 - (d + 1))) + 1) := by
      by_cases hc : kc e P (d - 1) g0 < kc e P d r
      · rw [if_pos hc, show last - (first + EE.length) = M.length by omega]
        exact ih.ilg (d := d + 1) (Nat.succ_pos d) q3 (by omega) (by omega)
      · rw [if_neg hc]
        exact ih (d + 1) _ M (Nat.succ_pos d) q3 (by omega) (fun h => by omega) (by omega)
    obtain ⟨o, t1, t2⟩ := pM k (A ++ oE) B s (first + EE.length) last (by simp; omega) (by omega) (by omega) hs
    refine ⟨_, _, _, oE ++ o, ?_, rfl, ?_⟩
    · refine (Sorted.append q2 t1 q4).perm (q1.trans (.trans ?_ (g1.trans hys)))
      simp
    · have e2 : A ++ (oE ++ (M.map Int.ofNat ++ B)) = (A ++ oE) ++ (M.map Int.ofNat ++ B) := by simp
      have e3 : A ++ (oE ++ o ++ B) = (A ++ oE) ++ (o ++ B) := by simp
      rw [e2, e3]
      exact t2.mono (by omega)

/-- Every segment is sorted. -/
theorem mintro_piece (X : Pos e P m) : ∀ (W : Nat) (d : Nat) (limit : Int) (xs : List Nat), 0 < d → Seg e P m d xs → xs.length < 2 ^ 16 → (limit < 0 → SrtC e P d xs) →
    xs.length * (e.t.length + 1 - d) = W → PieceOk e P d limit xs (4 * W + 1) := by
  intro W
  induction W using Nat.strongRecOn with
  | ind W ih =>
    intro d limit xs hd hseg h16 hlim hW
    have hsm : Smaller e P m W := fun d' l' xs' h1 h2 h3 h4 h5 => ih _ h5 d' l' xs' h1 h2 h3 h4 rfl
    by_cases hn : xs.length ≤ 8
    · intro k A B s first last hf hl hk hs
      obtain ⟨o, h1, h2⟩ := PieceOk.small X (limit := limit) hseg hn k A B s first last hf hl hk hs
      exact ⟨o, h1, h2.mono (by omega)⟩
    · intro k A B s first last hf hl hk hs
      have hne : xs ≠ [] := by intro h; rw [h] at hn; simp at hn
      suffices h : ∃ (f1 : Frame) (s1 : List Frame) (a1 o : List Int), Sorted (key e P) xs o ∧
          mintroStep e ⟨first, last, d, limit⟩ s (A ++ (xs.map Int.ofNat ++ B)) = .ok ⟨f1, s1, a1⟩ ∧ RunsTo e f1 s1 a1 s (A ++ (o ++ B)) (4 * W) by
        obtain ⟨f1, s1, a1, o, h1, h2, h3⟩ := h
        exact ⟨o, h1, RunsTo.step (by simp only []; omega) h2 h3⟩
      unfold mintroStep heapIf
      simp only []
      by_cases h0 : limit = 0
      · subst h0
        rw [if_pos (by rfl)]
        obtain ⟨out, p1, p2, p3⟩ := ssHeapsort_ok X (d := d) (A := A) (B := B) hne hseg.rd
        rw [hf, show last - A.length = xs.length by omega, p3]
        simp only [Bind.bind, Except.bind]
        rw [if_pos (by omega)]
        have pl := p1.length_eq
        obtain ⟨f1, s1, a1, o, C, q0, q1, q2, q3⟩ := sortedStep_ok X (limit := 0) (A := A) (B := B) (s := s) hd (hseg.perm p1) p2 (by omega) (by omega) (by rw [pl, hW]; exact hsm) rfl (last := last) (by omega) (by rw [pl]; exact hk) hs
        rw [pl, hW] at q0
        exact ⟨f1, s1, a1, o, q1.perm p1, q2, q3.mono q0⟩
      · rw [if_neg (by simpa using h0)]
        simp only [Bind.bind, Except.bind]
        by_cases h1 : limit - 1 < 0
        · rw [if_pos h1]
          obtain ⟨f1, s1, a1, o, C, q0, q1, q2, q3⟩ := sortedStep_ok X (limit := limit) (A := A) (B := B) (s := s) hd hseg (hlim (by omega)) (by omega) h16 (by rw [hW]; exact hsm) hf hl hk hs
          rw [hW] at q0
          exact ⟨f1, s1, a1, o, q1, q2, q3.mono q0⟩
        · rw [if_neg h1]
          have := pivotStep_ok X (limit := limit - 1) (l0 := limit) (A := A) (B := B) (s := s) hd hseg (by omega) h16 (by omega) (by rw [hW]; exact hsm) hf hl hk hs
          rw [hW] at this
          exact this

/-- `ss_mintrosort` sorts at most 2047 numbers that have `d` characters in common. -/
theorem ssMintrosort_ok (X : Pos e P m) {d : Nat} {xs : List Nat} {A B : List Int} {first last : Nat} (hd : 0 < d) (hseg : Seg e P m d xs) (hn : xs.length < 2048)
    (hf : first = A.length) (hl : last = first + xs.length) :
    ∃ o, Sorted (key e P) xs o ∧ ssMintrosort e first last d (A ++ (xs.map Int.ofNat ++ B)) = .ok (A ++ (o ++ B)) := by
  obtain ⟨o, h1, c, hc, h2⟩ := mintro_piece X _ d (ssIlg (last - first)) xs hd hseg (by omega) (fun h => by
    rcases Nat.eq_zero_or_pos xs.length with h0 | h0
    · exact SrtC.short h0
    · have := ssIlg_nonneg (n := last - first) (by omega) (by omega)
      omega) rfl 11 A B [] first last hf hl hn (by simp)
  refine ⟨o, h1, ?_⟩
  unfold ssMintrosort
  have hle : xs.length * (e.t.length + 1 - d) ≤ (last - first) * (e.t.length + 1) := Nat.mul_le_mul (by omega) (by omega)
  have := h2 (4 * ((last - first) * (e.t.length + 1)) + 1 - c)
  rw [Nat.sub_add_cancel (by omega)] at this
  rw [this]
  rfl

end

end Dss
end Detools
