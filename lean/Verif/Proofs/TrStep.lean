import Verif.Proofs.TrTask
import Verif.Proofs.SsMintro
/-
trsort: the steps that sort a partition.
-/
namespace Detools
namespace Dss

namespace Tr
open Sais

variable {w : List Nat} {h : Nat}

/-! ### Costs -/

theorem costs_perm {ts ts' : List Task} (hp : ts.Perm ts') : costs w ts = costs w ts' := by
  induction hp with
  | nil => rfl
  | cons t _ ih => simp only [costs, ih]
  | swap t t' l => simp only [costs]; omega
  | trans _ _ h1 h2 => exact h1.trans h2

/-- Whether there is something to do. -/
def big (t : Task) : Bool := decide (1 < t.f.last - t.f.first)

theorem sizes_perm {ts ts' : List Task} (hp : ts.Perm ts') : sizes ts = sizes ts' := by
  induction hp with
  | nil => rfl
  | cons t _ ih => simp only [sizes, ih]
  | swap t t' l => simp only [sizes]; omega
  | trans _ _ h1 h2 => exact h1.trans h2

theorem sizes_filter (p : Task → Bool) : ∀ ts : List Task, sizes (ts.filter p) ≤ sizes ts
  | [] => Nat.le_refl _
  | t :: ts => by
    have := sizes_filter p ts
    rw [List.filter_cons]
    split <;> simp only [sizes] <;> omega

theorem costs_two (lo hi : Task) : costs w ([lo, hi].filter big) = (if big lo then cost w lo - 7 else 0) + (if big hi then cost w hi - 7 else 0) := by
  cases h1 : big lo <;> cases h2 : big hi <;> simp [h1, h2, costs]

theorem costs_three (lo mid hi : Task) : costs w ([lo, mid, hi].filter big) =
    (if big lo then cost w lo - 7 else 0) + (if big mid then cost w mid - 7 else 0) + (if big hi then cost w hi - 7 else 0) := by
  cases h1 : big lo <;> cases h2 : big mid <;> cases h3 : big hi <;> simp [h1, h2, h3, costs] <;> omega

theorem mul_less {a q q' : Nat} (hq : q' + 1 ≤ q) : a * q' + a ≤ a * q := by
  have := Nat.mul_le_mul_left a hq
  rw [Nat.mul_succ] at this
  exact this

/-! ### Pushes -/

theorem push5_ok (f : TrFrame) (s : TrStack) : push5 f s = .ok (f :: s) ∨ (64 ≤ s.length ∧ push5 f s = .error .stack) := by
  unfold push5
  split
  · exact .inl rfl
  · exact .inr ⟨by omega, rfl⟩

/-- Smaller ranges come first. -/
def Asc (ts : List Task) : Prop := ts.Pairwise fun a b => a.f.last - a.f.first ≤ b.f.last - b.f.first

theorem asc_one (a : Task) : Asc [a] := List.pairwise_singleton ..

theorem asc_two {a b : Task} (h : a.f.last - a.f.first ≤ b.f.last - b.f.first) : Asc [a, b] :=
  List.pairwise_cons.2 ⟨fun c hc => by rw [List.mem_singleton.1 hc]; exact h, asc_one b⟩

theorem asc_three {a b c : Task} (h : a.f.last - a.f.first ≤ b.f.last - b.f.first) (h' : b.f.last - b.f.first ≤ c.f.last - c.f.first) : Asc [a, b, c] :=
  List.pairwise_cons.2 ⟨fun d hd => by
    rcases List.mem_cons.1 hd with rfl | hd
    · exact h
    · rw [List.mem_singleton.1 hd]
      exact Nat.le_trans h h', asc_two h'⟩

/-- Up to three ranges need no more room than the range they are parts of. -/
theorem needs_le {ts : List Task} {n : Nat} (hl : ts.length ≤ 3) (ha : Asc ts) (hs : sizes ts ≤ n)
    (ht : ∀ t, t ∈ ts → 2 ≤ t.X.length ∧ t.f.last - t.f.first = t.X.length ∧ need h t ≤ room t.X.length n) : needs h ts ≤ lg3 n := by
  match ts, hl with
  | [], _ => exact Nat.zero_le _
  | [a], _ =>
    have h1 := ht a (by simp)
    simp only [sizes] at hs
    have := room_le (m := a.X.length) (n := n) (by omega) (by omega)
    simp only [needs, List.length_nil]
    omega
  | [a, b], _ =>
    have h1 := ht a (by simp)
    have h2 := ht b (by simp)
    have h3 := (List.pairwise_cons.1 ha).1 b (by simp)
    simp only [sizes] at hs
    have := room_half (m := a.X.length) (n := n) (k := n) (by omega) (by omega)
    have := room_le (m := b.X.length) (n := n) (by omega) (by omega)
    simp only [needs, List.length_nil, List.length_cons]
    omega
  | [a, b, c], _ =>
    have h1 := ht a (by simp)
    have h2 := ht b (by simp)
    have h3 := ht c (by simp)
    have h4 := (List.pairwise_cons.1 ha).1 b (by simp)
    have h5 := (List.pairwise_cons.1 (List.pairwise_cons.1 ha).2).1 c (by simp)
    simp only [sizes] at hs
    have := room_third (m := a.X.length) (n := n) (k := n) (by omega) (by omega)
    have := room_half (m := b.X.length) (n := n) (k := n) (by omega) (by omega)
    have := room_le (m := c.X.length) (n := n) (by omega) (by omega)
    simp only [needs, List.length_nil, List.length_cons]
    omega

/-- The same for a group and the rest of a sorted range. -/
theorem needs_room {ts : List Task} {m n : Nat} (hl : ts.length ≤ 2) (ha : Asc ts) (hs : sizes ts ≤ m)
    (ht : ∀ t, t ∈ ts → 2 ≤ t.X.length ∧ t.f.last - t.f.first = t.X.length ∧ need h t ≤ room t.X.length n) : needs h ts ≤ room m n := by
  match ts, hl with
  | [], _ => exact Nat.zero_le _
  | [a], _ =>
    have h1 := ht a (by simp)
    simp only [sizes] at hs
    have := room_mono (m := a.X.length) (m' := m) (n := n) (by omega)
    simp only [needs, List.length_nil]
    omega
  | [a, b], _ =>
    have h1 := ht a (by simp)
    have h2 := ht b (by simp)
    have h3 := (List.pairwise_cons.1 ha).1 b (by simp)
    simp only [sizes] at hs
    have := room_half (m := a.X.length) (n := n) (k := m) (by omega) (by omega)
    have := room_mono (m := b.X.length) (m' := m) (n := n) (by omega)
    have : lg3 m ≤ room m n := Nat.le_max_left ..
    simp only [needs, List.length_nil, List.length_cons]
    omega

theorem need_le_room {t : Task} {n : Nat} (h3 : t.f.limit ≠ -3) (he : t.f.limit = -1 → ends h t ≤ t.X.length ∧ ends h t + t.X.length ≤ n) :
    need h t ≤ room t.X.length n := by
  unfold need
  by_cases h1 : t.f.limit = -1
  · rw [if_pos h1]
    have := he h1
    exact Nat.le_trans (Nat.add_le_add_left (lg3_mono (by omega)) 2) (Nat.le_max_right ..)
  · rw [if_neg h1, if_neg h3]
    exact Nat.le_max_left ..

theorem need_plain {t : Task} (h0 : 0 ≤ t.f.limit) : need h t = lg3 t.X.length := by
  unfold need
  rw [if_neg (by omega), if_neg (by omega)]

/-- Few elements are followed by one outside, if all are followed by one of the range before. -/
theorem ends_le {t : Task} {Y : List Nat} (hn : t.X.Nodup) (hX : ∀ s, s ∈ t.X → s ∈ Y) (hY : ∀ s, s ∈ t.X → s + (t.f.d - h) ∈ Y) :
    ends h t ≤ t.X.length ∧ ends h t + t.X.length ≤ Y.length := by
  refine ⟨List.length_filter_le .., ?_⟩
  have h1 : (((t.X.filter fun s => decide (s + (t.f.d - h) ∉ t.X)).map fun s => s + (t.f.d - h)) ++ t.X).Nodup := by
    refine List.nodup_append.2 ⟨?_, hn, ?_⟩
    · refine List.Pairwise.map (R := (· ≠ ·)) _ (fun a b hab => by omega) (hn.sublist List.filter_sublist)
    · intro a ha b hb hab
      obtain ⟨s, hs, rfl⟩ := List.mem_map.1 ha
      have := (List.mem_filter.1 hs).2
      exact of_decide_eq_true this (hab ▸ hb)
  have h2 := h1.length_le_of_subset (l₂ := Y) (fun a ha => by
    rcases List.mem_append.1 ha with ha | ha
    · obtain ⟨s, hs, rfl⟩ := List.mem_map.1 ha
      exact hY s (List.mem_filter.1 hs).1
    · exact hX a ha)
  rw [List.length_append, List.length_map] at h2
  exact h2

/-- The state in which the tasks `ts` are to be done. -/
def nextOf (ts : List Task) (s : TrStack) (x : TrSt) : TrNext := ⟨ts.head?.map Task.f, ts.tail.map Task.f ++ s, x⟩

theorem pushTwo_ok (lo hi : Task) (s : TrStack) (x : TrSt) :
    ∃ ts : List Task, ts.Perm ([lo, hi].filter big) ∧ Asc ts ∧ ((64 ≤ s.length ∧ big lo = true ∧ big hi = true ∧ pushTwo lo.f hi.f s x = .error .stack) ∨ pushTwo lo.f hi.f s x = .ok (nextOf ts s x)) := by
  unfold pushTwo
  have e1 : ∀ t : Task, big t = decide (1 < t.f.last - t.f.first) := fun _ => rfl
  by_cases h1 : lo.f.last - lo.f.first ≤ hi.f.last - hi.f.first
  · rw [if_pos h1]
    by_cases h2 : 1 < lo.f.last - lo.f.first
    · rw [if_pos h2]
      refine ⟨[lo, hi], by simp [e1, h2, show 1 < hi.f.last - hi.f.first by omega], asc_two (by omega), ?_⟩
      rcases push5_ok hi.f s with hp | ⟨hf, hp⟩ <;> rw [hp]
      · exact .inr rfl
      · exact .inl ⟨hf, decide_eq_true h2, decide_eq_true (by omega), rfl⟩
    · rw [if_neg h2]
      by_cases h3 : 1 < hi.f.last - hi.f.first
      · rw [if_pos h3]
        exact ⟨[hi], by simp [e1, h2, h3], asc_one _, .inr rfl⟩
      · rw [if_neg h3]
        exact ⟨[], by simp [e1, h2, h3], List.Pairwise.nil, .inr rfl⟩
  · rw [if_neg h1]
    by_cases h2 : 1 < hi.f.last - hi.f.first
    · rw [if_pos h2]
      refine ⟨[hi, lo], by simp [e1, h2, show 1 < lo.f.last - lo.f.first by omega]; exact List.Perm.swap .., asc_two (by omega), ?_⟩
      rcases push5_ok lo.f s with hp | ⟨hf, hp⟩ <;> rw [hp]
      · exact .inr rfl
      · exact .inl ⟨hf, decide_eq_true (by omega), decide_eq_true h2, rfl⟩
    · rw [if_neg h2]
      by_cases h3 : 1 < lo.f.last - lo.f.first
      · rw [if_pos h3]
        exact ⟨[lo], by simp [e1, h2, h3], asc_one _, .inr rfl⟩
      · rw [if_neg h3]
        exact ⟨[], by simp [e1, h2, h3], List.Pairwise.nil, .inr rfl⟩

theorem push_two (f g : TrFrame) (k : TrStack → C TrNext) (s : TrStack) :
    (63 ≤ s.length ∧ (push5 f s >>= fun s => push5 g s >>= k) = .error .stack) ∨ (push5 f s >>= fun s => push5 g s >>= k) = k (g :: f :: s) := by
  rcases push5_ok f s with hp | ⟨hf, hp⟩ <;> rw [hp]
  · show (_ ∧ (push5 g (f :: s) >>= k) = _) ∨ (push5 g (f :: s) >>= k) = _
    rcases push5_ok g (f :: s) with hp | ⟨hf, hp⟩ <;> rw [hp]
    · exact .inr rfl
    · rw [List.length_cons] at hf
      exact .inl ⟨by omega, rfl⟩
  · exact .inl ⟨by omega, rfl⟩

theorem push_one (f : TrFrame) (k : TrStack → C TrNext) (s : TrStack) :
    (63 ≤ s.length ∧ (push5 f s >>= k) = .error .stack) ∨ (push5 f s >>= k) = k (f :: s) := by
  rcases push5_ok f s with hp | ⟨hf, hp⟩ <;> rw [hp]
  · exact .inr rfl
  · exact .inl ⟨by omega, rfl⟩

theorem pushAll_ok (lo mid hi : Task) (hm : 1 < mid.f.last - mid.f.first) (s : TrStack) (x : TrSt) :
    ∃ ts : List Task, ts.Perm ([lo, mid, hi].filter big) ∧ Asc ts ∧ ((63 ≤ s.length ∧ pushAll lo.f mid.f hi.f s x = .error .stack) ∨ pushAll lo.f mid.f hi.f s x = .ok (nextOf ts s x)) := by
  unfold pushAll
  have e1 : ∀ t : Task, big t = decide (1 < t.f.last - t.f.first) := fun _ => rfl
  by_cases h1 : lo.f.last - lo.f.first ≤ hi.f.last - hi.f.first
  · rw [if_pos h1]
    by_cases h2 : hi.f.last - hi.f.first ≤ mid.f.last - mid.f.first
    · rw [if_pos h2]
      by_cases h3 : 1 < lo.f.last - lo.f.first
      · rw [if_pos h3]
        refine ⟨[lo, hi, mid], ?_, asc_three (by omega) (by omega), push_two ..⟩
        simp [e1, h3, hm, show 1 < hi.f.last - hi.f.first by omega]
        exact List.Perm.swap ..
      · rw [if_neg h3]
        by_cases h4 : 1 < hi.f.last - hi.f.first
        · rw [if_pos h4]
          refine ⟨[hi, mid], ?_, asc_two (by omega), push_one ..⟩
          simp [e1, h3, hm, h4]
          exact List.Perm.swap ..
        · rw [if_neg h4]
          exact ⟨[mid], by simp [e1, h3, hm, h4], asc_one _, .inr rfl⟩
    · rw [if_neg h2]
      by_cases h3 : lo.f.last - lo.f.first ≤ mid.f.last - mid.f.first
      · rw [if_pos h3]
        by_cases h4 : 1 < lo.f.last - lo.f.first
        · rw [if_pos h4]
          refine ⟨[lo, mid, hi], ?_, asc_three (by omega) (by omega), push_two ..⟩
          simp [e1, h4, hm, show 1 < hi.f.last - hi.f.first by omega]
        · rw [if_neg h4]
          refine ⟨[mid, hi], ?_, asc_two (by omega), push_one ..⟩
          simp [e1, h4, hm, show 1 < hi.f.last - hi.f.first by omega]
      · rw [if_neg h3]
        refine ⟨[mid, lo, hi], ?_, asc_three (by omega) (by omega), push_two ..⟩
        simp [e1, hm, show 1 < hi.f.last - hi.f.first by omega, show 1 < lo.f.last - lo.f.first by omega]
        exact List.Perm.swap ..
  · rw [if_neg h1]
    by_cases h2 : lo.f.last - lo.f.first ≤ mid.f.last - mid.f.first
    · rw [if_pos h2]
      by_cases h3 : 1 < hi.f.last - hi.f.first
      · rw [if_pos h3]
        refine ⟨[hi, lo, mid], ?_, asc_three (by omega) (by omega), push_two ..⟩
        simp [e1, h3, hm, show 1 < lo.f.last - lo.f.first by omega]
        exact (List.Perm.swap ..).trans ((List.Perm.swap ..).cons _)
      · rw [if_neg h3]
        by_cases h4 : 1 < lo.f.last - lo.f.first
        · rw [if_pos h4]
          refine ⟨[lo, mid], ?_, asc_two (by omega), push_one ..⟩
          simp [e1, h3, hm, h4]
        · rw [if_neg h4]
          exact ⟨[mid], by simp [e1, h3, hm, h4], asc_one _, .inr rfl⟩
    · rw [if_neg h2]
      by_cases h3 : hi.f.last - hi.f.first ≤ mid.f.last - mid.f.first
      · rw [if_pos h3]
        by_cases h4 : 1 < hi.f.last - hi.f.first
        · rw [if_pos h4]
          refine ⟨[hi, mid, lo], ?_, asc_three (by omega) (by omega), push_two ..⟩
          simp [e1, h4, hm, show 1 < lo.f.last - lo.f.first by omega]
          exact ((List.Perm.swap ..).cons _).trans ((List.Perm.swap ..).trans ((List.Perm.swap ..).cons _))
        · rw [if_neg h4]
          refine ⟨[mid, lo], ?_, asc_two (by omega), push_one ..⟩
          simp [e1, h4, hm, show 1 < lo.f.last - lo.f.first by omega]
          exact List.Perm.swap ..
      · rw [if_neg h3]
        refine ⟨[mid, hi, lo], ?_, asc_three (by omega) (by omega), push_two ..⟩
        simp [e1, hm, show 1 < hi.f.last - hi.f.first by omega, show 1 < lo.f.last - lo.f.first by omega]
        exact ((List.Perm.swap ..).cons _).trans (List.Perm.swap ..)

/-! ### From a step to the whole -/

theorem next_ok {l : Int} {ts : List Task} {s : TrStack} {x : TrSt} (R : Ranks w h x.isa) (hlen : x.sa.length = w.length)
    (hts : ∀ t, t ∈ ts → Todo w h x.isa x.sa t ∧ Works w h t ∧ t.f.trlink = l) (hap : ts.Pairwise Apart) (hl : LinkOk l s) :
    Runs w h ts l (nextOf ts s x).f (nextOf ts s x).s s x (costs w ts - 1) := by
  have := tasks_ok l ts s x R hlen hts hap hl
  cases ts with
  | nil => exact this
  | cons t ts => exact this.go (by simp)

/-- If a step leads to tasks whose outcome is that wanted. -/
theorem works_of_step {t : Task} {s : TrStack} {x x1 : TrSt} {ts : List Task} {fl0 : Bool}
    (hstep : (63 ≤ s.length ∧ trStep h t.f s x = .error .stack) ∨ trStep h t.f s x = .ok (nextOf ts (mk fl0 t.f.trlink s) x1))
    (R : Ranks w h x1.isa) (hlen : x1.sa.length = w.length)
    (hts : ∀ t', t' ∈ ts → Todo w h x1.isa x1.sa t' ∧ Works w h t' ∧ t'.f.trlink = t.f.trlink) (hap : ts.Pairwise Apart) (hl : LinkOk t.f.trlink s)
    (hcost : costs w ts + 8 ≤ cost w t) (hcost' : 9 ≤ cost w t) (hsize : needs h ts ≤ need h t ∧ 2 ≤ need h t)
    (hdid : ∀ x' fl, Did w h ts x1 x' fl → Did w h [t] x x' (fl || fl0)) :
    ∃ k, k + 8 ≤ cost w t ∧ ((64 < s.length + need h t ∧ ∀ fuel, trLoop h (k + fuel) (some t.f) s x = .error .stack) ∨
      ∃ x' fl, (∀ fuel, trLoop h (k + fuel) (some t.f) s x = trLoop h fuel none (mk fl t.f.trlink s) x') ∧ Did w h [t] x x' fl) := by
  rcases hstep with ⟨hf, hs⟩ | hs
  · refine ⟨1, by omega, .inl ⟨by omega, fun fuel => ?_⟩⟩
    rw [Nat.add_comm]
    simp only [trLoop, Bind.bind, Except.bind]
    rw [hs]
  · obtain ⟨k, ⟨hk, _⟩, hr⟩ := next_ok R hlen hts hap (hl.mk fl0 t.f.trlink)
    have hloop : ∀ fuel, trLoop h (k + 1 + fuel) (some t.f) s x = trLoop h (k + fuel) (nextOf ts (mk fl0 t.f.trlink s) x1).f (nextOf ts (mk fl0 t.f.trlink s) x1).s x1 := by
      intro fuel
      rw [show k + 1 + fuel = k + fuel + 1 by omega]
      simp only [trLoop, Bind.bind, Except.bind]
      rw [hs]
      rfl
    refine ⟨k + 1, ?_, ?_⟩
    · omega
    · rcases hr with ⟨hf, he⟩ | ⟨x', fl, h1, D⟩
      · rw [mk_length] at hf
        exact .inl ⟨by omega, fun fuel => by rw [hloop]; exact he fuel⟩
      · exact .inr ⟨x', fl || fl0, fun fuel => by rw [hloop, h1, mk_mk], hdid x' fl D⟩

/-- A range that no task is in keeps its outcome. -/
theorem Did.keep {ts : List Task} {x1 x' : TrSt} {fl fl0 : Bool} (D : Did w h ts x1 x' fl) {f l : Nat} {X : List Nat} (hap : ∀ t, t ∈ ts → t.f.last ≤ f ∨ l ≤ t.f.first)
    (hX : ∀ y, y ∈ X → y < w.length) (r : Res w h x1.isa x1.sa f l X fl0) : Res w h x'.isa x'.sa f l X fl0 := by
  obtain ⟨X', h1, h2, h3, h4, h5, h6, h7⟩ := r
  have hs : ∀ y, y ∈ X → ch x'.isa y = ch x1.isa y := fun y hy => D.out y (hX y hy) fun t2 ht2 => by
    have := hap t2 ht2
    have := h4 y hy
    omega
  have hs' : ∀ i s, X'[i]? = some s → ch x'.isa s = ch x1.isa s := fun i s hi => hs s (h1.mem_iff.1 (List.mem_of_getElem? hi))
  refine ⟨X', h1, h2, ?_, fun y hy => by rw [hs y hy]; exact h4 y hy, ?_, fun h0 i s hi => by rw [hs' i s hi]; exact h6 h0 i s hi,
    fun s s' k k' he => h7 s s' k k' (by rw [hs s k, hs s' k'] at he; exact he)⟩
  · intro i hi
    rw [D.sa, h3 i hi]
    intro t2 ht2
    have := hap t2 ht2
    have := h1.length_eq
    simp at hi
    omega
  · intro i s hi
    rw [hs' i s hi]
    obtain ⟨g1, g2⟩ := h5 i s hi
    refine ⟨g1, fun j hij hj => ?_⟩
    obtain ⟨s', k1, k2⟩ := g2 j hij hj
    exact ⟨s', k1, by rw [hs' j s' k1]; exact k2⟩

/-- A part of a range is that of a task, or is left as it is. -/
def Part (w : List Nat) (h : Nat) (ts : List Task) (x1 : TrSt) (f l : Nat) (X : List Nat) (fl0 : Bool) : Prop :=
  (∃ t, t ∈ ts ∧ t.f.first = f ∧ t.f.last = l ∧ t.X = X) ∨
    ((∀ t, t ∈ ts → t.f.last ≤ f ∨ l ≤ t.f.first) ∧ (∀ y, y ∈ X → y < w.length) ∧ Res w h x1.isa x1.sa f l X fl0)

theorem Part.res {ts : List Task} {x1 x' : TrSt} {fl fl0 : Bool} (D : Did w h ts x1 x' fl) {f l : Nat} {X : List Nat} (p : Part w h ts x1 f l X fl0) :
    Res w h x'.isa x'.sa f l X (fl || fl0) := by
  rcases p with ⟨t, ht, rfl, rfl, rfl⟩ | ⟨h1, h2, h3⟩
  · exact (D.res t ht).weaken (by intro h; rw [h]; simp)
  · exact (D.keep h1 h2 h3).weaken (by intro h; rw [h]; simp)

theorem Did.parts {t : Task} {ts : List Task} {x x1 x' : TrSt} {fl fl0 : Bool} (D : Did w h ts x1 x' fl) {a b : Nat} {L E G : List Nat} (hp : (L ++ (E ++ G)).Perm t.X)
    (hout : ∀ y, y < w.length → (ch x.isa y < t.f.first ∨ t.f.last ≤ ch x.isa y) → ch x1.isa y = ch x.isa y) (hu : Upd x.sa x1.sa t.f.first t.f.last)
    (hin : ∀ t', t' ∈ ts → t.f.first ≤ t'.f.first ∧ t'.f.last ≤ t.f.last)
    (pL : Part w h ts x1 t.f.first a L fl0) (pE : Part w h ts x1 a b E fl0) (pG : Part w h ts x1 b t.f.last G fl0)
    (hc : fl0 = false → x1.bud.count = x.bud.count) (hc' : fl0 = true → x.bud.count < x1.bud.count) : Did w h [t] x x' (fl || fl0) := by
  refine ⟨D.ranks, fun t' ht => ?_, fun y hy ho => ?_, D.len.trans hu.1, fun p hp => ?_, fun hf => ?_, fun hf => ?_⟩
  · rw [List.mem_singleton.1 ht]
    exact ((pL.res D).append ((pE.res D).append (pG.res D))).perm hp
  · have h0 := hout y hy (ho t (List.mem_singleton.2 rfl))
    have := ho t (List.mem_singleton.2 rfl)
    rw [D.out y hy (fun t' ht => by have := hin t' ht; rw [h0]; omega), h0]
  · have := hp t (List.mem_singleton.2 rfl)
    rw [D.sa p (fun t' ht => by have := hin t' ht; omega), hu.2 p this]
  · simp only [Bool.or_eq_false_iff] at hf
    rw [D.same hf.1, hc hf.2]
  · cases h2 : fl <;> cases h1 : fl0
    · rw [h1, h2] at hf; cases hf
    · have := D.same h2
      have := hc' h1
      omega
    · have := D.more h2
      have := hc h1
      omega
    · have := D.more h2
      have := hc' h1
      omega

end Tr

end Dss
end Detools
