import Verif.Proofs.DssSort
import Verif.Proofs.SsWire
import Verif.Proofs.TrDriver
import Verif.Props.Sais
/-
C62: the suffix array of the default algorithm.
-/
namespace Detools
open Dss

theorem text_below (data : Bytes) : (∀ c, c ∈ data.map UInt8.toNat → c < 256) ∧ (∀ x, x < (data.map UInt8.toNat).length → Sais.ch (data.map UInt8.toNat) x < 256) := by
  have h : ∀ c, c ∈ data.map UInt8.toNat → c < 256 := by
    intro c hc
    obtain ⟨b, _, rfl⟩ := List.mem_map.1 hc
    exact UInt8.toNat_lt b
  exact ⟨h, fun x hx => h _ (List.mem_of_getElem? (Sais.ch_get hx))⟩

theorem divsufsortArray_ok {o : Sorters} {data : Bytes} (hlen : data.length < 2 ^ 31) (hs : SortsStars o (data.map UInt8.toNat)) (sa : List Int)
    (hsa : sa.length = data.length) : ∃ r, divsufsortArray o sa data = .ok r ∧ IsSuffixArray r data := by
  obtain ⟨sa', h1, h2⟩ := divsufsort_ok hlen hs hsa
  refine ⟨data.length :: sa'.map Int.toNat, ?_, isSuffixArray_of h2⟩
  unfold divsufsortArray
  rw [if_neg (by omega), h1]
  rfl

/-- C62. With any two sorting functions that sort, as Spec/Divsufsort says, for all data of less
than 2 GiB, and whatever is in the memory allocated for the suffix array, divsufsort stays inside
its arrays, stores nothing that does not fit in 32 bits, and gives the suffix array. -/
theorem C62_any_sorters (o : Sorters) (hss : SsSorts o) (htr : TrSorts o) (data : Bytes) (hlen : data.length < 2 ^ 31) (sa : List Int)
    (hsa : sa.length = data.length) : ∃ r, divsufsortArray o sa data = .ok r ∧ IsSuffixArray r data :=
  divsufsortArray_ok hlen (sortStars_ok hss htr (by unfold Sais.Small; rw [List.length_map]; exact hlen) (text_below data).1 (text_below data).2) sa hsa

/-- C62. `sssort` sorts: it stays inside its arrays, orders the numbers it is given by their
substrings, marks those whose substring is the same as that of the number before, and changes
nothing else but its buffer. -/
theorem C62_sssort (tr : Nat → List Int → C (List Int)) : SsSorts ⟨callSsSort, tr⟩ := callSsSort_ok tr

/-- C62. `trsort` sorts, unless its stack of 64 ranges is full, for which one of the names must
occur more than 3329021 times: it stays inside its arrays, ends, and turns the names into how many of
the suffixes of the sequence of names are less. -/
theorem C62_trsort (w : List Nat) (sa : List Int) (hg : TrGiven w sa) :
    ((∃ v, 3329021 < w.count v) ∧ Tr.callTrsort w.length sa = .error .stack) ∨ ∃ sa', Tr.callTrsort w.length sa = .ok sa' ∧ sa'.length = sa.length ∧
      (sa'.drop w.length).take w.length =
        (List.range w.length).map fun r => Int.ofNat ((List.range w.length).filter fun s => decide (w.drop s < w.drop r)).length :=
  Tr.callTrsort_ok hg

/-- C62. With its `sssort` and any function that sorts as `trsort` should. -/
theorem C62_any_trsort (tr : Nat → List Int → C (List Int)) (htr : TrSorts ⟨callSsSort, tr⟩) (data : Bytes) (hlen : data.length < 2 ^ 31)
    (sa : List Int) (hsa : sa.length = data.length) : ∃ r, divsufsortArray ⟨callSsSort, tr⟩ sa data = .ok r ∧ IsSuffixArray r data :=
  C62_any_sorters _ (C62_sssort tr) htr data hlen sa hsa

/-- C62. The length of the data has to fit in 32 bits. -/
theorem C62_too_long (o : Sorters) (data : Bytes) (hlen : 2 ^ 31 ≤ data.length) (sa : List Int) : divsufsortArray o sa data = .error .overflow := by
  unfold divsufsortArray
  rw [if_pos hlen]

/-- C62. Nothing is assumed if there is nothing to sort. -/
theorem C62_nothing_to_sort (o : Sorters) (data : Bytes) (hlen : data.length < 2 ^ 31) (hno : bStars (data.map UInt8.toNat) = []) (sa : List Int)
    (hsa : sa.length = data.length) : ∃ r, divsufsortArray o sa data = .ok r ∧ IsSuffixArray r data :=
  divsufsortArray_ok hlen (fun p hpos _ => by rw [← bStars_length, hno] at hpos; exact absurd hpos (by simp)) sa hsa

/-- C62. The idea of the algorithm: if the names of the substrings are in their order, then the
suffixes at the B* positions are in the order of the sequences of names that start there. -/
theorem C62_names_order (t w : List Nat) (hlen : w.length = (bStars t).length)
    (hlt : ∀ (r s m n : Nat), w[r]? = some m → w[s]? = some n → bStarSub t r < bStarSub t s → m < n)
    (heq : ∀ (r s m n : Nat), w[r]? = some m → w[s]? = some n → bStarSub t r = bStarSub t s → m = n)
    (r s x y : Nat) (hx : (bStars t)[r]? = some x) (hy : (bStars t)[s]? = some y) : w.drop r < w.drop s ↔ t.drop x < t.drop y := by
  obtain ⟨h1, rfl⟩ := bStars_iff.1 hx
  obtain ⟨h2, rfl⟩ := bStars_iff.1 hy
  have hg : ∀ z, star t z → w[sNo t z]? = some (Sais.ch w (sNo t z)) := fun z hz => Sais.ch_get (by rw [hlen, bStars_length]; exact sNo_lt hz)
  rw [lex_iff, lex_iff]
  refine names_iff ⟨by rw [hlen, bStars_length], fun a b ha hb hl => ?_, fun a b ha hb he => ?_⟩ h1 h2
  · exact hlt _ _ _ _ (hg a ha) (hg b hb) (lex_iff.2 hl)
  · exact heq _ _ _ _ (hg a ha) (hg b hb) he

/-- C62. With any such functions the two algorithms give the same suffix array. -/
theorem C62_any_sorters_same (o : Sorters) (hss : SsSorts o) (htr : TrSorts o) (data : Bytes) (hlen : data.length < 2 ^ 31) (sa : List Int)
    (hsa : sa.length = data.length) : divsufsortArray o sa data = saisArray data := by
  obtain ⟨r, h1, h2⟩ := C62_any_sorters o hss htr data hlen sa hsa
  rw [h1, C51_unique data hlen r h2]

/-- What `suffix_array_algorithm='divsufsort'`, the default, selects; `memory` is what is in the
memory allocated. The positions in order stand for the suffix array of 2 GiB and more. -/
def divsufsortLib (o : Sorters) (memory : Bytes → List Int) (codec : Compression → PyCodec) : Lib where
  codec := codec
  suffixArray := fun data => match divsufsortArray o (memory data) data with
    | .ok sa => sa
    | .error _ => List.range (data.length + 1)

/-! ### Sorting functions that meet the specification -/

/-- Insertion in a sorted list. -/
def insertBy (le : Nat → Nat → Bool) (a : Nat) : List Nat → List Nat
  | [] => [a]
  | b :: l => if le a b then a :: b :: l else b :: insertBy le a l

def sortBy (le : Nat → Nat → Bool) : List Nat → List Nat
  | [] => []
  | a :: l => insertBy le a (sortBy le l)

theorem insertBy_perm (le : Nat → Nat → Bool) (a : Nat) : ∀ l : List Nat, (insertBy le a l).Perm (a :: l)
  | [] => List.Perm.refl _
  | b :: l => by
    unfold insertBy
    by_cases h : le a b = true
    · rw [if_pos h]
    · rw [if_neg h]
      exact ((insertBy_perm le a l).cons b).trans (.swap a b l)

theorem sortBy_perm (le : Nat → Nat → Bool) : ∀ l : List Nat, (sortBy le l).Perm l
  | [] => List.Perm.refl _
  | a :: l => (insertBy_perm le a _).trans ((sortBy_perm le l).cons a)

theorem insertBy_sorted {le : Nat → Nat → Bool} (ht : ∀ a b c, le a b = true → le b c = true → le a c = true) (ho : ∀ a b, le a b = true ∨ le b a = true) (a : Nat) :
    ∀ l : List Nat, l.Pairwise (fun x y => le x y = true) → (insertBy le a l).Pairwise (fun x y => le x y = true)
  | [], _ => List.pairwise_singleton _ _
  | b :: l, h => by
    unfold insertBy
    have h' := List.pairwise_cons.1 h
    by_cases hab : le a b = true
    · rw [if_pos hab]
      refine List.pairwise_cons.2 ⟨fun x hx => ?_, h⟩
      rcases List.mem_cons.1 hx with rfl | hx
      · exact hab
      · exact ht _ _ _ hab (h'.1 x hx)
    · rw [if_neg hab]
      refine List.pairwise_cons.2 ⟨fun x hx => ?_, insertBy_sorted ht ho a l h'.2⟩
      rcases List.mem_cons.1 ((insertBy_perm le a l).subset hx) with rfl | hx
      · exact (ho _ _).resolve_left hab
      · exact h'.1 x hx

theorem sortBy_sorted {le : Nat → Nat → Bool} (ht : ∀ a b c, le a b = true → le b c = true → le a c = true) (ho : ∀ a b, le a b = true ∨ le b a = true) :
    ∀ l : List Nat, (sortBy le l).Pairwise (fun x y => le x y = true)
  | [] => List.Pairwise.nil
  | a :: l => insertBy_sorted ht ho a _ (sortBy_sorted ht ho l)

/-- Sorting functions that meet the specification, by definition as far as possible. -/
def plainSorters : Sorters where
  ss := fun t _ i j _ sa =>
    let l := sortBy (fun r s => decide (¬ bStarSub t s < bStarSub t r)) (((sa.drop i).take (j - i)).map Int.toNat)
    let out := (List.range l.length).map fun q =>
      if 0 < q ∧ bStarSub t (l.getD (q - 1) 0) = bStarSub t (l.getD q 0) then -((l.getD q 0 : Nat) : Int) - 1 else ((l.getD q 0 : Nat) : Int)
    .ok (sa.take i ++ (out ++ sa.drop j))
  tr := fun m sa =>
    let w := ((sa.drop m).take m).map Int.toNat
    .ok (sa.take m ++ (((List.range m).map fun r => Int.ofNat ((List.range m).filter fun s => decide (w.drop s < w.drop r)).length) ++ sa.drop (m + m)))

theorem plainSorters_ss : SsSorts plainSorters := by
  intro t sa i j l hk hn hg
  have hij := hg.range
  have hl := hg.length
  have h2m := nStar_le (t := t)
  rw [← bStars_length] at h2m
  have hll : l.length = j - i := by
    have := congrArg List.length hg.numbers
    rw [List.length_take, List.length_drop, List.length_map] at this
    omega
  have hnum : ((sa.drop i).take (j - i)).map Int.toNat = l := by
    rw [hg.numbers, List.map_map]
    exact List.map_id'' (fun _ => rfl) l
  have hperm := sortBy_perm (fun r s => decide (¬ bStarSub t s < bStarSub t r)) l
  have hsort := sortBy_sorted (le := fun r s => decide (¬ bStarSub t s < bStarSub t r)) (fun a b c h1 h2 => by
      rw [decide_eq_true_iff, lex_iff] at *
      exact not_lex_trans h1 h2) (fun a b => by
      rw [decide_eq_true_iff, decide_eq_true_iff, lex_iff, lex_iff]
      rcases Sais.Lex.tri (bStarSub t a) (bStarSub t b) with h | h | h
      · exact .inl h.asymm
      · rw [h]; exact .inl (Sais.Lex.irrefl _)
      · exact .inr h.asymm) l
  refine ⟨_, rfl, ?_⟩
  rw [hnum]
  generalize hl' : sortBy (fun r s => decide (¬ bStarSub t s < bStarSub t r)) l = l' at *
  have hlen' : l'.length = j - i := by rw [hperm.length_eq, hll]
  generalize hout : ((List.range l'.length).map fun q =>
    if 0 < q ∧ bStarSub t (l'.getD (q - 1) 0) = bStarSub t (l'.getD q 0) then -((l'.getD q 0 : Nat) : Int) - 1 else ((l'.getD q 0 : Nat) : Int)) = out
  have hol : out.length = j - i := by rw [← hout, List.length_map, List.length_range, hlen']
  have hti : (sa.take i).length = i := by rw [List.length_take]; omega
  refine ⟨?_, fun q hq => ?_, l', hperm, hsort.imp (fun h => of_decide_eq_true h), ?_, fun q r s hr hs => ?_⟩
  · rw [List.length_append, List.length_append, hti, hol, List.length_drop]
    omega
  · by_cases hqi : q < i
    · rw [List.getElem?_append_left (by omega), List.getElem?_take, if_pos hqi]
    · rw [List.getElem?_append_right (by omega), List.getElem?_append_right (by omega), List.getElem?_drop, hti, hol]
      congr 1
      omega
  · rw [List.length_take, List.length_drop, List.length_append, List.length_append, hti, hol, List.length_drop]
    omega
  · have hq := (List.getElem?_eq_some_iff.1 hr).1
    rw [List.getElem?_take, if_pos (by omega), List.getElem?_drop, List.getElem?_append_right (by omega), List.getElem?_append_left (by omega), hti,
      show i + q - i = q by omega, ← hout, List.getElem?_map, List.getElem?_range hq]
    simp only [Option.map_some, List.getD_eq_getElem?_getD, hr, hs, Option.getD_some]

theorem plainSorters_tr : TrSorts plainSorters := by
  intro w sa hg
  have hl := hg.length
  have hnum : ((sa.drop w.length).take w.length).map Int.toNat = w := by
    rw [hg.names, List.map_map]
    exact List.map_id'' (fun _ => rfl) w
  refine ⟨_, rfl, ?_⟩
  rw [hnum]
  generalize hout : ((List.range w.length).map fun r => Int.ofNat ((List.range w.length).filter fun s => decide (w.drop s < w.drop r)).length) = out
  have hol : out.length = w.length := by rw [← hout, List.length_map, List.length_range]
  have hti : (sa.take w.length).length = w.length := by rw [List.length_take]; omega
  refine ⟨?_, ?_⟩
  · rw [List.length_append, List.length_append, hti, hol, List.length_drop]
    omega
  · rw [List.drop_append_of_le_length (by omega), List.drop_of_length_le (by omega), List.nil_append, List.take_append_of_le_length (by omega),
      List.take_of_length_le (by omega)]

/-! ### divsufsort with its own sorting functions -/

/-- `sssort` and `trsort`. -/
def divsufsortSorters : Sorters := ⟨callSsSort, Tr.callTrsort⟩

/-- `trsort`, and a function that meets the specification when the stack is full. -/
def trOr (m : Nat) (sa : List Int) : C (List Int) :=
  match Tr.callTrsort m sa with
  | .error .stack => plainSorters.tr m sa
  | r => r

theorem trOr_sorts : TrSorts ⟨callSsSort, trOr⟩ := by
  intro w sa hg
  show ∃ sa', trOr w.length sa = .ok sa' ∧ _
  unfold trOr
  rcases C62_trsort w sa hg with ⟨_, h⟩ | ⟨sa', h, h1⟩
  · rw [h]
    exact plainSorters_tr w sa hg
  · rw [h]
    exact ⟨sa', rfl, h1⟩

theorem trOr_or (m : Nat) (sa : List Int) : Tr.callTrsort m sa = .error .stack ∨ Tr.callTrsort m sa = trOr m sa := by
  unfold trOr
  generalize Tr.callTrsort m sa = r
  match r with
  | .error .stack => exact .inl rfl
  | .error .oob => exact .inr rfl
  | .error .uninit => exact .inr rfl
  | .error .overflow => exact .inr rfl
  | .error .divZero => exact .inr rfl
  | .error .timeout => exact .inr rfl
  | .ok _ => exact .inr rfl

theorem bind_or {α β : Type} {x y : C α} {f g : α → C β} (hx : x = .error .stack ∨ x = y) (hf : ∀ a, f a = .error .stack ∨ f a = g a) :
    (x >>= f) = .error .stack ∨ (x >>= f) = (y >>= g) := by
  rcases hx with hx | hx
  · rw [hx]
    exact .inl rfl
  · rw [hx]
    cases y with
    | error e => exact .inr rfl
    | ok a => exact hf a

theorem ssInner_same (o o' : Sorters) (h : o.ss = o'.ss) (t : List Nat) (m : Nat) (b : List Int) (c0 : Nat) : ∀ (d : Nat) (j : Int) (sa : List Int), ssInner o t m b c0 d j sa = ssInner o' t m b c0 d j sa
  | 0, _, _ => rfl
  | d + 1, j, sa => by
    unfold ssInner ssBucket
    rw [h]
    congr 1
    funext i
    congr 1
    funext sa
    exact ssInner_same o o' h t m b c0 d i sa

theorem ssOuter_same (o o' : Sorters) (h : o.ss = o'.ss) (t : List Nat) (m : Nat) (b : List Int) : ∀ (d : Nat) (j : Int) (sa : List Int), ssOuter o t m b d j sa = ssOuter o' t m b d j sa
  | 0, _, _ => rfl
  | d + 1, j, sa => by
    unfold ssOuter
    by_cases hj : 0 < j
    · rw [if_pos hj, if_pos hj, ssInner_same o o' h]
      congr 1
      funext p
      exact ssOuter_same o o' h t m b d p.1 p.2
    · rw [if_neg hj, if_neg hj]

theorem sortTypeBstar_or (t : List Nat) (sa : List Int) :
    sortTypeBstar divsufsortSorters t sa = .error .stack ∨ sortTypeBstar divsufsortSorters t sa = sortTypeBstar ⟨callSsSort, trOr⟩ t sa := by
  unfold sortTypeBstar
  refine bind_or (.inr rfl) fun c => bind_or (.inr rfl) fun a => bind_or (.inr rfl) fun s => bind_or (.inr rfl) fun ab => ?_
  by_cases hm : 0 < t.length - s.m
  · simp only [if_pos hm]
    refine bind_or (.inr rfl) fun p => bind_or ?_ fun sa => .inr rfl
    unfold sortStars
    rw [ssOuter_same divsufsortSorters ⟨callSsSort, trOr⟩ rfl]
    exact bind_or (.inr rfl) fun sa => bind_or (.inr rfl) fun sa => trOr_or _ sa
  · simp only [if_neg hm]
    exact .inr trivial

theorem divsufsortArray_or (data : Bytes) (sa : List Int) :
    divsufsortArray divsufsortSorters sa data = .error .stack ∨ divsufsortArray divsufsortSorters sa data = divsufsortArray ⟨callSsSort, trOr⟩ sa data := by
  unfold divsufsortArray
  by_cases h : 2 ^ 31 ≤ data.length
  · rw [if_pos h, if_pos h]
    exact .inr rfl
  · rw [if_neg h, if_neg h]
    refine bind_or ?_ fun sa => .inr rfl
    unfold divsufsort
    generalize data.map UInt8.toNat = t
    match t with
    | [] => exact .inr rfl
    | [_] => exact .inr rfl
    | [_, _] => exact .inr rfl
    | x :: y :: z :: t => exact bind_or (sortTypeBstar_or _ sa) fun s => .inr rfl

/-- C62. For all data of less than 2 GiB in which no B* substring occurs more than 3329021 times, and
whatever is in the memory allocated for the suffix array, divsufsort stays inside its arrays and
its stack, ends, and gives the suffix array. -/
theorem C62_few_repeats (data : Bytes) (hlen : data.length < 2 ^ 31) (hfew : ∀ x, (bStarSubs (data.map UInt8.toNat)).count x ≤ 3329021)
    (sa : List Int) (hsa : sa.length = data.length) : ∃ r, divsufsortArray divsufsortSorters sa data = .ok r ∧ IsSuffixArray r data := by
  refine divsufsortArray_ok hlen (sortStars_names (C62_sssort Tr.callTrsort) (fun sa hg => ?_) (by unfold Sais.Small; rw [List.length_map]; exact hlen) (text_below data).1 (text_below data).2) sa hsa
  refine (C62_trsort _ sa hg).resolve_left fun ⟨⟨v, hv⟩, _⟩ => ?_
  obtain ⟨x, hx⟩ := names_count (t := data.map UInt8.toNat) v
  have := hfew x
  omega

/-- C62. All data of at most 6658043 bytes are such: there is no room for as many substrings. -/
theorem C62_short_data (data : Bytes) (hlen : data.length ≤ 6658043) (sa : List Int) (hsa : sa.length = data.length) :
    ∃ r, divsufsortArray divsufsortSorters sa data = .ok r ∧ IsSuffixArray r data := by
  refine C62_few_repeats data (by omega) (fun x => ?_) sa hsa
  have h1 := nStar_le (t := data.map UInt8.toNat)
  have h2 := List.count_le_length (a := x) (l := bStarSubs (data.map UInt8.toNat))
  have h3 : (bStarSubs (data.map UInt8.toNat)).length = nStar (data.map UInt8.toNat) := by rw [bStarSubs, List.length_map, List.length_range, bStars_length]
  rw [List.length_map] at h1
  omega

/-- C62, in part. For all data of less than 2 GiB, and whatever is in the memory allocated for
the suffix array, divsufsort stays inside its arrays, ends, and gives the suffix array, unless the
stack of `trsort` is full, for which a B* substring must occur more than 3329021 times. What is
missing: that its 64 ranges are always enough. -/
theorem C62_suffix_array_partial (data : Bytes) (hlen : data.length < 2 ^ 31) (sa : List Int) (hsa : sa.length = data.length) :
    ((∃ x, 3329021 < (bStarSubs (data.map UInt8.toNat)).count x) ∧ divsufsortArray divsufsortSorters sa data = .error .stack) ∨
      ∃ r, divsufsortArray divsufsortSorters sa data = .ok r ∧ IsSuffixArray r data := by
  by_cases hfew : ∃ x, 3329021 < (bStarSubs (data.map UInt8.toNat)).count x
  · rcases divsufsortArray_or data sa with h | h
    · exact .inl ⟨hfew, h⟩
    · rw [h]
      exact .inr (C62_any_trsort trOr trOr_sorts data hlen sa hsa)
  · exact .inr (C62_few_repeats data hlen (fun x => Nat.le_of_not_lt fun h => hfew ⟨x, h⟩) sa hsa)

/-- C62, in part. The two algorithms give the same suffix array. -/
theorem C62_same_as_sais_partial (data : Bytes) (hlen : data.length < 2 ^ 31) (sa : List Int) (hsa : sa.length = data.length) :
    ((∃ x, 3329021 < (bStarSubs (data.map UInt8.toNat)).count x) ∧ divsufsortArray divsufsortSorters sa data = .error .stack) ∨ divsufsortArray divsufsortSorters sa data = saisArray data := by
  rcases C62_suffix_array_partial data hlen sa hsa with h | ⟨r, h1, h2⟩
  · exact .inl h
  · exact .inr (by rw [h1, C51_unique data hlen r h2])

theorem divsufsortLib_ok (memory : Bytes → List Int) (codec : Compression → PyCodec) (data : Bytes) (hm : (memory data).length = data.length) (hlen : data.length < 2 ^ 31)
    (hst : divsufsortArray divsufsortSorters (memory data) data ≠ .error .stack) : IsSuffixArray ((divsufsortLib divsufsortSorters memory codec).suffixArray data) data := by
  obtain ⟨r, h1, h2⟩ := (C62_suffix_array_partial data hlen (memory data) hm).resolve_left fun h => hst h.2
  show IsSuffixArray (match divsufsortArray divsufsortSorters (memory data) data with | .ok sa => sa | .error _ => List.range (data.length + 1)) data
  rw [h1]
  exact h2

/-- C62, in part. The two algorithms give the same patch, if the stack is not full for the
from-data, nor, with a data format, for what it is encoded as. -/
theorem C62_same_patch_partial (memory : Bytes → List Int) (hm : ∀ data, (memory data).length = data.length)
    (codec : Compression → PyCodec) (c : Compression) (fmt : Option DataFormat) (fr to : Bytes) (hlen : fr.length < 2 ^ 31)
    (hst : divsufsortArray divsufsortSorters (memory fr) fr ≠ .error .stack)
    (hfmt : ∀ f r, fmt = some f → f.encode fr to = .ok r → r.1.length < 2 ^ 31 ∧ divsufsortArray divsufsortSorters (memory r.1) r.1 ≠ .error .stack) :
    createSequential (divsufsortLib divsufsortSorters memory codec) c fmt fr to = createSequential (saisLib codec) c fmt fr to :=
  C51_same_patch (divsufsortLib divsufsortSorters memory codec) c fmt fr to hlen (divsufsortLib_ok memory codec fr (hm fr) hlen hst) fun f r h1 h2 =>
    ⟨(hfmt f r h1 h2).1, divsufsortLib_ok memory codec r.1 (hm r.1) (hfmt f r h1 h2).1 (hfmt f r h1 h2).2⟩

/-- C62. The two algorithms give the same patch for data in which no B* substring occurs more
than 3329021 times. -/
theorem C62_few_repeats_same_patch (memory : Bytes → List Int) (hm : ∀ data, (memory data).length = data.length)
    (codec : Compression → PyCodec) (c : Compression) (fr to : Bytes) (hlen : fr.length < 2 ^ 31) (hfew : ∀ x, (bStarSubs (fr.map UInt8.toNat)).count x ≤ 3329021) :
    createSequential (divsufsortLib divsufsortSorters memory codec) c none fr to = createSequential (saisLib codec) c none fr to :=
  C62_same_patch_partial memory hm codec c none fr to hlen (fun h => by
    obtain ⟨r, h1, _⟩ := C62_few_repeats fr hlen hfew (memory fr) (hm fr)
    rw [h1] at h
    cases h) (fun _ _ h => nomatch h)

/-- C62. The same for all data of at most 6658043 bytes. -/
theorem C62_short_data_same_patch (memory : Bytes → List Int) (hm : ∀ data, (memory data).length = data.length)
    (codec : Compression → PyCodec) (c : Compression) (fr to : Bytes) (hlen : fr.length ≤ 6658043) :
    createSequential (divsufsortLib divsufsortSorters memory codec) c none fr to = createSequential (saisLib codec) c none fr to :=
  C62_same_patch_partial memory hm codec c none fr to (by omega) (fun h => by
    obtain ⟨r, h1, _⟩ := C62_short_data fr hlen (memory fr) (hm fr)
    rw [h1] at h
    cases h) (fun _ _ h => nomatch h)

/-- Text "abcabcab": equal substrings. -/
example : bStars [97, 98, 99, 97, 98, 99, 97, 98, 99, 97] = [1, 4, 7] ∧ bStarSub [97, 98, 99, 97, 98, 99, 97, 98, 99, 97] 0 = [98, 99, 97, 98, 99] ∧
    bStarSub [97, 98, 99, 97, 98, 99, 97, 98, 99, 97] 1 = [98, 99, 97, 98, 99] ∧ bStarSub [97, 98, 99, 97, 98, 99, 97, 98, 99, 97] 2 = [98, 99, 97] := by decide +kernel

-- The numbers 2, 0 and 1 with 0 and 1 equal: 2 is alone, 0 and 1 are a group
example : rankLoop 3 3 3 [2, 0, -2, 0, 0, 0, 7] = .ok [-1, 0, 1, 2, 2, 0, 7] := by decide +kernel

theorem abcabc_stars : bStars [97, 98, 99, 97, 98, 99, 97, 98, 99, 97] = [1, 4, 7] := by decide +kernel

example : SsGiven [97, 98, 99, 97, 98, 99, 97, 98, 99, 97] [2, 0, 1, 0, 0, 0, 0, 1, 4, 7] 0 3 [2, 0, 1] := by
  refine ⟨by decide, fun r x h => ?_, by decide +kernel, by decide, by decide +kernel, by decide, fun r s hr hs => ?_, by decide +kernel⟩
  · rw [abcabc_stars] at *
    match r, h with
    | 0, h => injection h with h; subst h; rfl
    | 1, h => injection h with h; subst h; rfl
    | 2, h => injection h with h; subst h; rfl
    | r + 3, h => cases h
  · have e : ∀ r ∈ [2, 0, 1], (bStarSub [97, 98, 99, 97, 98, 99, 97, 98, 99, 97] r).take 2 = [98, 99] := by decide +kernel
    rw [e r hr, e s hs]

example : plainSorters.ss [97, 98, 99, 97, 98, 99, 97, 98, 99, 97] 3 0 3 true [2, 0, 1, 0, 0, 0, 0, 1, 4, 7] =
    .ok [2, 0, -2, 0, 0, 0, 0, 1, 4, 7] := by decide +kernel

example : TrGiven [2, 2, 0] [-1, 0, 1, 2, 2, 0, 7] :=
  ⟨by decide, by decide, fun r h => by
      match r, h with
      | 0, _ => decide
      | 1, _ => decide
      | r + 2, h => exact absurd h (by simp), by decide, .sorted 0 1 (by decide) rfl (fun p h1 h2 => ⟨2, fun s => by
      have : p = 0 := by omega
      subst this
      match s with
      | 0 => simp
      | 1 => simp
      | 2 => simp
      | s + 3 => simp⟩)
    (.group 1 2 [0, 1] (by decide) (by decide) (by decide) (fun r => by
      match r with
      | 0 => simp
      | 1 => simp
      | 2 => simp
      | r + 3 => simp) .done)⟩

-- The last is put where it belongs, the others are equal; the elements after them and the positions stay
example : callSsSort [97, 98, 99, 97, 98, 99, 97, 98, 99, 97] 3 0 3 true [2, 0, 1, 0, 0, 0, 0, 1, 4, 7] =
    .ok [2, 0, -2, 0, 0, 0, 0, 1, 4, 7] := by decide +kernel

-- The names 2, 2, 0 are made the ranks 2, 1, 0
example : Tr.callTrsort 3 [-1, 0, 1, 2, 2, 0, 7] = .ok [-1, -2, 0, 2, 1, 0, 7] := by decide +kernel

-- All but the last are the same
example : Tr.callTrsort 9 [-1, 0, 1, 2, 3, 4, 5, 6, 7, 8, 8, 8, 8, 8, 8, 8, 8, 0, 77] = .ok [-1, -8, 6, 5, 4, 3, 2, 1, 0, 8, 7, 6, 5, 4, 3, 2, 1, 0, 77] := by decide +kernel

-- Data without B* suffixes, for which the stack is not used
example : divsufsortArray divsufsortSorters [9, 9, 9, 9] [100, 99, 98, 97] ≠ .error .stack := by
  obtain ⟨r, h, _⟩ := C62_nothing_to_sort divsufsortSorters [100, 99, 98, 97] (by decide) (by decide) [9, 9, 9, 9] rfl
  rw [h]
  exact nofun

-- "banana", with its own sorting functions
example : divsufsortArray divsufsortSorters [9, 9, 9, 9, 9, 9] [98, 97, 110, 97, 110, 97] = .ok [6, 5, 3, 1, 0, 4, 2] := by
  obtain ⟨r, h1, h2⟩ := C62_short_data [98, 97, 110, 97, 110, 97] (by decide) [9, 9, 9, 9, 9, 9] rfl
  have h3 := C51_unique _ (by decide) r h2
  rw [h1, ← h3]
  decide +kernel

-- The substrings of it
example : bStarSubs [98, 97, 110, 97, 110, 97] = [[97, 110, 97, 110], [97, 110, 97]] := by decide +kernel

-- "banana", in memory that is not zero
example : divsufsortArray plainSorters [9, 9, 9, 9, 9, 9] [98, 97, 110, 97, 110, 97] = .ok [6, 5, 3, 1, 0, 4, 2] := by
  rw [C62_any_sorters_same plainSorters plainSorters_ss plainSorters_tr _ (by decide) _ rfl]
  decide +kernel

end Detools
