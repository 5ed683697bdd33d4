import Verif.Model.PyMain
/-
Lemmas for C52.
-/
namespace Detools

/-! ### Numbers -/

theorem digitChar_value : ∀ v : Fin 16, digitValue (Nat.digitChar v) = some v.val ∧ Nat.digitChar v ≠ '_' ∧
    isPySpace (Nat.digitChar v) = false ∧ Nat.digitChar v ≠ '-' ∧ Nat.digitChar v ≠ '+' ∧ (Nat.digitChar v = '0' → v.val = 0) := by decide

/-- A character of a number. -/
structure PlainChar (c : Char) : Prop where
  space : isPySpace c = false
  minus : c ≠ '-'
  plus : c ≠ '+'

theorem digitsValue_digit {base v n : Nat} {fl : Bool} {cs : List Char} (h16 : base ≤ 16) (hv : v < base) :
    digitsValue base (Nat.digitChar v :: cs) n fl = digitsValue base cs (base * n + v) true := by
  obtain ⟨h1, h2, _⟩ := digitChar_value ⟨v, by omega⟩
  simp only [] at h1 h2
  rw [digitsValue, if_neg h2, h1]
  simp only []
  rw [if_pos hv]

theorem digitsOf_value {base : Nat} (h2 : 2 ≤ base) (h16 : base ≤ 16) : ∀ (fuel n : Nat) (acc : List Char) (fl : Bool), n < fuel →
    digitsValue base (digitsOf base fuel n acc) 0 fl = digitsValue base acc n true
  | 0, n, acc, fl, h => by omega
  | fuel + 1, n, acc, fl, h => by
    unfold digitsOf
    simp only []
    have hm := Nat.mod_lt n (show 0 < base by omega)
    by_cases h0 : n / base = 0
    · rw [if_pos h0, digitsValue_digit h16 hm, Nat.mul_zero, Nat.zero_add]
      have : n < base := by
        rcases Nat.div_eq_zero_iff.1 h0 with h | h <;> omega
      rw [Nat.mod_eq_of_lt this]
    · rw [if_neg h0]
      have hlt : n / base < n := Nat.div_lt_self (by rcases Nat.eq_zero_or_pos n with h | h; (subst h; simp at h0); exact h) (by omega)
      rw [digitsOf_value h2 h16 fuel (n / base) _ fl (by omega), digitsValue_digit h16 hm, Nat.div_add_mod]

theorem digitsOf_plain {base : Nat} (h2 : 2 ≤ base) (h16 : base ≤ 16) : ∀ (fuel n : Nat) (acc : List Char),
    (∀ c ∈ acc, PlainChar c) → ∀ c ∈ digitsOf base fuel n acc, PlainChar c
  | 0, n, acc, h => h
  | fuel + 1, n, acc, h => by
    unfold digitsOf
    simp only []
    have hm := Nat.mod_lt n (show 0 < base by omega)
    obtain ⟨_, _, h3, h4, h5, _⟩ := digitChar_value ⟨n % base, by omega⟩
    have hacc : ∀ c ∈ Nat.digitChar (n % base) :: acc, PlainChar c := by
      intro c hc
      rcases List.mem_cons.1 hc with rfl | hc
      · exact ⟨h3, h4, h5⟩
      · exact h c hc
    by_cases h0 : n / base = 0
    · rw [if_pos h0]; exact hacc
    · rw [if_neg h0]; exact digitsOf_plain h2 h16 fuel _ _ hacc

theorem digitsOf_head {base : Nat} (h2 : 2 ≤ base) (h16 : base ≤ 16) : ∀ (fuel n : Nat) (acc : List Char), n < fuel →
    ∃ c cs, digitsOf base fuel n acc = c :: cs ∧ c ≠ '_' ∧ c ≠ '-' ∧ c ≠ '+' ∧ (n ≠ 0 → c ≠ '0')
  | 0, n, acc, h => by omega
  | fuel + 1, n, acc, h => by
    unfold digitsOf
    simp only []
    have hm := Nat.mod_lt n (show 0 < base by omega)
    obtain ⟨_, g2, _, g4, g5, g6⟩ := digitChar_value ⟨n % base, by omega⟩
    by_cases h0 : n / base = 0
    · rw [if_pos h0]
      refine ⟨_, _, rfl, g2, g4, g5, fun hn he => hn ?_⟩
      have := g6 he
      simp only [] at this
      have hlt : n < base := by
        rcases Nat.div_eq_zero_iff.1 h0 with h | h <;> omega
      rw [Nat.mod_eq_of_lt hlt] at this
      exact this
    · rw [if_neg h0]
      have hlt : n / base < n := Nat.div_lt_self (by rcases Nat.eq_zero_or_pos n with h | h; (subst h; simp at h0); exact h) (by omega)
      obtain ⟨c, cs, e, k1, k2, k3, k4⟩ := digitsOf_head h2 h16 fuel (n / base) (Nat.digitChar (n % base) :: acc) (by omega)
      exact ⟨c, cs, e, k1, k2, k3, fun _ => k4 h0⟩

theorem digitsValue_zeros {base : Nat} (h2 : 2 ≤ base) {cs : List Char} (hcs : cs ≠ []) : ∀ (m : Nat) (fl : Bool),
    ∃ fl', digitsValue base (List.replicate m '0' ++ cs) 0 fl = digitsValue base cs 0 fl'
  | 0, fl => ⟨fl, rfl⟩
  | m + 1, fl => by
    obtain ⟨fl', h⟩ := digitsValue_zeros h2 hcs m true
    refine ⟨fl', ?_⟩
    rw [List.replicate_succ, List.cons_append, ← h]
    rw [digitsValue, if_neg (by decide)]
    have : digitValue '0' = some 0 := by decide
    rw [this]
    simp only []
    rw [if_pos (by omega), Nat.mul_zero]

theorem dropWhile_none {p : Char → Bool} : ∀ {l : List Char}, (∀ c ∈ l, p c = false) → l.dropWhile p = l
  | [], _ => rfl
  | c :: l, h => by rw [List.dropWhile_cons, h c List.mem_cons_self]; rfl

theorem pyInt_plain {l : List Char} {n : Nat} (h : ∀ c ∈ l, PlainChar c) (hv : unsignedValue l = some n) : pyInt l = some (n : Int) := by
  have hs : ((l.dropWhile isPySpace).reverse.dropWhile isPySpace).reverse = l := by
    rw [dropWhile_none fun c hc => (h c hc).space, dropWhile_none fun c hc => (h c (List.mem_reverse.1 hc)).space, List.reverse_reverse]
  unfold pyInt
  rw [hs]
  split
  · exact absurd rfl (h _ List.mem_cons_self).minus
  · exact absurd rfl (h _ List.mem_cons_self).plus
  · rw [hv]; rfl

theorem plain_zero : PlainChar '0' := ⟨by decide, by decide, by decide⟩
theorem plain_x : PlainChar 'x' := ⟨by decide, by decide, by decide⟩

theorem formatHex_plain (n : Nat) : ∀ c ∈ formatHex n, PlainChar c := by
  intro c hc
  unfold formatHex at hc
  simp only [List.mem_cons, List.mem_append, List.mem_replicate] at hc
  rcases hc with rfl | rfl | ⟨_, rfl⟩ | hc
  · exact plain_zero
  · exact plain_x
  · exact plain_zero
  · exact digitsOf_plain (by decide) (by decide) _ _ _ (fun c h => by cases h) c hc

theorem formatDec_plain (n : Nat) : ∀ c ∈ formatDec n, PlainChar c :=
  digitsOf_plain (by decide) (by decide) _ _ _ (fun c h => by cases h)

theorem prefixedValue_eq {base : Nat} {c : Char} {cs : List Char} (h : c ≠ '_') : prefixedValue base (c :: cs) = digitsValue base (c :: cs) 0 false := by
  unfold prefixedValue
  split
  · rename_i e
    injection e with e1 _
    exact absurd e1 h
  · rfl

theorem pyInt_hex (n : Nat) : pyInt (formatHex n) = some (n : Int) := by
  refine pyInt_plain (formatHex_plain n) ?_
  obtain ⟨c, cs, e, k1, _⟩ := digitsOf_head (base := 16) (by decide) (by decide) (n + 1) n [] (by omega)
  show prefixedValue 16 (List.replicate (8 - (digitsOf 16 (n + 1) n []).length) '0' ++ digitsOf 16 (n + 1) n []) = some n
  have hp : ∀ m, prefixedValue 16 (List.replicate m '0' ++ digitsOf 16 (n + 1) n []) = digitsValue 16 (List.replicate m '0' ++ digitsOf 16 (n + 1) n []) 0 false := by
    intro m
    cases m with
    | zero => rw [List.replicate_zero, List.nil_append, e, prefixedValue_eq k1]
    | succ m => rw [List.replicate_succ, List.cons_append, prefixedValue_eq (by decide)]
  rw [hp]
  obtain ⟨fl, hz⟩ := digitsValue_zeros (base := 16) (by decide) (cs := digitsOf 16 (n + 1) n []) (by rw [e]; simp) (8 - (digitsOf 16 (n + 1) n []).length) false
  rw [hz, digitsOf_value (by decide) (by decide) _ _ _ _ (Nat.lt_succ_self n)]
  rfl

theorem pyInt_dec (n : Nat) : pyInt (formatDec n) = some (n : Int) := by
  refine pyInt_plain (formatDec_plain n) ?_
  by_cases h0 : n = 0
  · subst h0; decide
  · obtain ⟨c, cs, e, _, _, _, k4⟩ := digitsOf_head (base := 10) (by decide) (by decide) (n + 1) n [] (by omega)
    have hv := digitsOf_value (base := 10) (by decide) (by decide) (n + 1) n [] false (Nat.lt_succ_self n)
    unfold formatDec
    rw [e] at hv ⊢
    have hc := k4 h0
    have : unsignedValue (c :: cs) = digitsValue 10 (c :: cs) 0 false := by
      unfold unsignedValue
      split <;> first | rfl | (rename_i e; injection e with e1 _; exact absurd e1 hc)
    rw [this, hv]
    rfl

/-! ### Ranges -/

theorem splitDash_plain : ∀ {l : List Char}, (∀ c ∈ l, PlainChar c) → splitDash l = [l]
  | [], _ => rfl
  | c :: l, h => by
    rw [splitDash, if_neg (h c List.mem_cons_self).minus, splitDash_plain fun c hc => h c (List.mem_cons_of_mem _ hc)]

theorem splitDash_two : ∀ {a b : List Char}, (∀ c ∈ a, PlainChar c) → (∀ c ∈ b, PlainChar c) → splitDash (a ++ '-' :: b) = [a, b]
  | [], b, _, hb => by
    rw [List.nil_append, splitDash, if_pos rfl, splitDash_plain hb]
  | c :: a, b, ha, hb => by
    rw [List.cons_append, splitDash, if_neg (ha c List.mem_cons_self).minus, splitDash_two (fun c hc => ha c (List.mem_cons_of_mem _ hc)) hb]

theorem parseRange_two {option : String} {a b : List Char} {x y : Int} (ha : ∀ c ∈ a, PlainChar c) (hb : ∀ c ∈ b, PlainChar c)
    (hx : pyInt a = some x) (hy : pyInt b = some y) (h : x ≤ y) : parseRange option (some (a ++ '-' :: b)) = .ok (x, y) := by
  unfold parseRange
  simp only []
  rw [splitDash_two ha hb]
  simp only [parseInteger, hx, hy, Bind.bind, Except.bind]
  rw [if_neg (by omega)]
  rfl

theorem parseRange_reversed {option : String} {a b : List Char} {x y : Int} (ha : ∀ c ∈ a, PlainChar c) (hb : ∀ c ∈ b, PlainChar c)
    (hx : pyInt a = some x) (hy : pyInt b = some y) (h : y < x) : parseRange option (some (a ++ '-' :: b)) =
      .error (.error (option ++ ": End value " ++ String.ofList b ++ " is less than begin value " ++ String.ofList a ++ ".")) := by
  unfold parseRange
  simp only []
  rw [splitDash_two ha hb]
  simp only [parseInteger, hx, hy, Bind.bind, Except.bind]
  rw [if_pos h]

/-! ### Files -/

theorem put_same (d : Disk) (n : String) (x : Option Bytes) : (d.put n x).files n = x := by
  show (if n = n then x else d.files n) = x
  rw [if_pos rfl]

theorem put_other (d : Disk) {n m : String} (x : Option Bytes) (h : m ≠ n) : (d.put n x).files m = d.files m := by
  show (if m = n then x else d.files m) = d.files m
  rw [if_neg h]

theorem put_put (d : Disk) (n : String) (x y : Option Bytes) : (d.put n x).put n y = d.put n y := by
  unfold Disk.put
  congr 1
  funext m
  by_cases h : m = n
  · simp only [if_pos h]
  · simp only [if_neg h]

theorem put_writable (d : Disk) (n m : String) (x : Option Bytes) : (d.put n x).writable m = d.writable m := rfl

theorem openRead_some {d : Disk} {n : String} {x : Bytes} (h : d.files n = some x) : d.openRead n = .ok x := by
  unfold Disk.openRead
  rw [h]

theorem openWrite_ok {d : Disk} {n : String} (h : d.writable n = true) : d.openWrite n = .ok (d.put n (some [])) := by
  unfold Disk.openWrite
  rw [if_pos h]

theorem createPatchFilenames_ok {lib : Lib} {h : HDiff} {args : CreateArgs} {rest : Bytes} {d : Disk} {fromfile tofile patchfile : String} {fr to : Bytes}
    (hf : d.files fromfile = some fr) (ht : d.files tofile = some to) (hw : d.writable patchfile = true)
    (hpf : patchfile ≠ fromfile) (hpt : patchfile ≠ tofile) :
    createPatchFilenames lib h args rest d fromfile tofile patchfile =
      match createPatch lib h true args fr to with
      | .ok patch => (d.put patchfile (some patch), .ok ())
      | .error e => (d.put patchfile (some rest), .error e) := by
  unfold createPatchFilenames
  rw [openRead_some hf, openRead_some ht, openWrite_ok hw]
  simp only []
  rw [openRead_some (by rw [put_other _ _ hpf.symm]; exact hf), openRead_some (by rw [put_other _ _ hpt.symm]; exact ht)]
  simp only []
  cases createPatch lib h true args fr to with
  | ok p => simp only [put_put]
  | error e => simp only [put_put]

theorem applyFilenames_ok {apply : PyFile → Bytes → W Int} {d : Disk} {fromfile patchfile tofile : String} {fr patch : Bytes}
    (hf : d.files fromfile = some fr) (hp : d.files patchfile = some patch) (hw : d.writable tofile = true) (hne : tofile ≠ patchfile) :
    applyFilenames apply d fromfile patchfile tofile = (d.put tofile (some (apply { data := fr } patch).out), (apply { data := fr } patch).res) := by
  unfold applyFilenames
  rw [openRead_some hf, openRead_some hp, openWrite_ok hw]
  simp only []
  rw [openRead_some (by rw [put_other _ _ hne.symm]; exact hp)]
  simp only [put_put]

theorem applyInPlaceFilenames_ok {lib : Lib} {fuel : Nat} {d : Disk} {memfile patchfile : String} {mem patch : Bytes}
    (hm : d.files memfile = some mem) (hp : d.files patchfile = some patch) (hw : d.writable memfile = true) :
    applyInPlaceFilenamesPy lib fuel d memfile patchfile = (d.put memfile (some (applyInPlace lib fuel patch mem).1), (applyInPlace lib fuel patch mem).2) := by
  unfold applyInPlaceFilenamesPy
  rw [openRead_some hm, openRead_some hp]
  simp only []
  rw [if_neg (by rw [hw]; simp)]

end Detools
