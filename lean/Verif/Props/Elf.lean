import Verif.Proofs.Elf
import Verif.Props.PyMain
/-
C53: the ranges that the command line tool takes from ELF files.
-/
namespace Detools

/-! ### The ranges of an ELF file -/

/-- C53. Ranges are found exactly if each function and object of the file that is not empty
starts in a section. Otherwise the tool reports an error. -/
theorem C53_ranges_found (elf : Elf) :
    ((∃ code data, elfFromFile elf = .ok (code, data)) ↔ ∀ s : ElfSymbol, s.In elf .func ∨ s.In elf .object → ∃ i, s.StartsIn elf i) ∧
    ((∃ s : ElfSymbol, (s.In elf .func ∨ s.In elf .object) ∧ ∀ i, ¬ s.StartsIn elf i) →
      elfFromFile elf = .error (.error "Symbol ... not part of any section.")) := by
  have G0 : Groups elf [] [] := ⟨.nil, fun i l h => (by cases h), fun s h => (by cases h)⟩
  obtain ⟨_, h2, h3⟩ := symbolsPerSection_groups (elfSymbols elf) [] [] G0
  have herr : (∃ s : ElfSymbol, (s.In elf .func ∨ s.In elf .object) ∧ ∀ i, ¬ s.StartsIn elf i) →
      elfFromFile elf = .error (.error "Symbol ... not part of any section.") := by
    rintro ⟨s, k1, k2⟩
    unfold elfFromFile
    rw [h3 ⟨s, mem_elfSymbols.2 k1, k2⟩]
    rfl
  refine ⟨⟨?_, ?_⟩, herr⟩
  · rintro ⟨code, data, h⟩ s hs
    apply Classical.byContradiction
    intro hn
    rw [herr ⟨s, hs, fun i hi => hn ⟨i, hi⟩⟩] at h
    cases h
  · intro h
    obtain ⟨g, hg⟩ := h2 fun s hs => h s (mem_elfSymbols.1 hs)
    unfold elfFromFile
    rw [hg]
    exact ⟨_, _, rfl⟩

/-- C53. Without functions the code range is empty. Otherwise it belongs to one section: it
begins at the first function of the section and ends with the last one. No section has
functions further apart. -/
theorem C53_code_range {elf : Elf} {code data : AddressRange} (h : elfFromFile elf = .ok (code, data)) :
    ((∀ s : ElfSymbol, ¬ s.In elf .func) → code = {}) ∧
    ((∃ s : ElfSymbol, s.In elf .func) → ∃ i, code.sectionIndex = some i ∧ ∃ f g : ElfSymbol,
      (f.In elf .func ∧ f.StartsIn elf i ∧ code.begin_ = f.value) ∧ (g.In elf .func ∧ g.StartsIn elf i ∧ code.end_ = g.value + g.size) ∧
      ∀ s : ElfSymbol, s.In elf .func → s.StartsIn elf i → f.value ≤ s.value ∧ s.value ≤ g.value) ∧
    (∀ j, ∀ f g : ElfSymbol, f.In elf .func → f.StartsIn elf j → g.In elf .func → g.StartsIn elf j → (g.value : Int) - f.value < code.end_ - code.begin_) := by
  obtain ⟨groups, G, rfl, _⟩ := elfFromFile_groups h
  obtain ⟨h1, h2⟩ := codeRange_spec G
  refine ⟨?_, ?_, ?_⟩
  · intro hn
    rcases h1 with ⟨h1, _⟩ | ⟨i, f, g, H⟩
    · exact h1
    · exact absurd H.first.1 (hn f)
  · rintro ⟨s, hs⟩
    rcases h1 with ⟨_, h1⟩ | ⟨i, f, g, H⟩
    · exact absurd hs (h1 s)
    · refine ⟨i, by rw [H.range], f, g, ⟨H.first.1, H.first.2, by rw [H.range]⟩, ⟨H.last.1, H.last.2, by rw [H.range]; simp⟩, H.between⟩
  · intro j f g hf hf' hg hg'
    obtain ⟨f', g', r, k1, k2⟩ := h2 j f hf hf'
    have b1 := (k1.between f hf hf').1
    have b2 := (k1.between g hg hg').2
    have b3 := k1.last.1.notEmpty
    rw [k1.range] at k2
    unfold AddressRange.size at k2
    simp only [] at k2
    omega

/-- C53. If no functions or objects overlap, the code range contains each function of its
section, and no section has functions that would need a larger range. -/
theorem C53_code_range_covers {elf : Elf} {code data : AddressRange} (h : elfFromFile elf = .ok (code, data)) (hno : NoOverlap elf) :
    (∀ i, code.sectionIndex = some i → ∀ s : ElfSymbol, s.In elf .func → s.StartsIn elf i → code.Contains s.value (s.value + s.size)) ∧
    (∀ j, ∀ f g : ElfSymbol, f.In elf .func → f.StartsIn elf j → g.In elf .func → g.StartsIn elf j →
      ((g.value + g.size : Nat) : Int) - f.value ≤ code.end_ - code.begin_) := by
  obtain ⟨groups, G, rfl, _⟩ := elfFromFile_groups h
  obtain ⟨h1, h2⟩ := codeRange_spec G
  have hend : ∀ (i : Nat) (f g : ElfSymbol) (r : AddressRange), FunctionSpan elf i f g r → ∀ s : ElfSymbol, s.In elf .func → s.StartsIn elf i →
      s.value + s.size ≤ g.value + g.size := by
    intro i f g r H s hs hi
    have b := (H.between s hs hi).2
    have p := H.last.1.notEmpty
    rcases noOverlap_mem hno (mem_elfSymbols.2 (.inl hs)) (mem_elfSymbols.2 (.inl H.last.1)) with e | e | e
    · rw [e]; exact Nat.le_refl _
    · omega
    · omega
  refine ⟨?_, ?_⟩
  · intro i hi s hs hsi
    rcases h1 with ⟨h1, hn⟩ | ⟨i', f, g, H⟩
    · exact absurd hs (hn s)
    · have e : i' = i := by
        rw [H.range] at hi
        exact Option.some.inj hi
      subst e
      have b1 := (H.between s hs hsi).1
      have b2 := hend _ _ _ _ H s hs hsi
      rw [H.range]
      constructor <;> simp only [] <;> omega
  · intro j f g hf hf' hg hg'
    obtain ⟨f', g', r, k1, k2⟩ := h2 j f hf hf'
    have b1 := (k1.between f hf hf').1
    have b2 := hend _ _ _ _ k1 g hg hg'
    rw [k1.range] at k2
    unfold AddressRange.size at k2
    simp only [] at k2
    omega

theorem code_le {elf : Elf} {groups : List (Nat × List ElfSymbol)} (G : Groups elf (elfSymbols elf) groups) :
    (createCodeRange (rangesPerSection .func groups)).begin_ ≤ (createCodeRange (rangesPerSection .func groups)).end_ := by
  rcases (codeRange_spec G).1 with ⟨h1, _⟩ | ⟨i, f, g, H⟩
  · rw [h1]; exact Int.le_refl _
  · have := H.pos
    unfold AddressRange.size at this
    omega

/-- C53. Either there is no data range, or it belongs to one section and is not empty; it
lies between the start of an object of the section and the end of another. If no functions or
objects overlap, no function of the section is between these two. -/
theorem C53_data_range {elf : Elf} {code data : AddressRange} (h : elfFromFile elf = .ok (code, data)) :
    data = {} ∨ data.begin_ < data.end_ ∧ ∃ i, data.sectionIndex = some i ∧ ∃ o p : ElfSymbol,
      (o.In elf .object ∧ o.StartsIn elf i ∧ (o.value : Int) ≤ data.begin_) ∧
      (p.In elf .object ∧ p.StartsIn elf i ∧ data.end_ ≤ p.value + p.size) ∧
      (NoOverlap elf → ∀ f : ElfSymbol, f.In elf .func → f.StartsIn elf i → f.value + f.size ≤ o.value ∨ p.value + p.size ≤ f.value) := by
  obtain ⟨groups, G, rfl, rfl⟩ := elfFromFile_groups h
  rcases (dataRange_spec G (code_le G)).1 with h1 | ⟨i, o, p, r, B, h1, h2⟩
  · exact .inl h1
  · right
    obtain ⟨t1, ⟨t2, t3⟩, _⟩ := trimRange_spec (code_le G) B.le
    unfold AddressRange.size at h2
    refine ⟨by omega, i, ?_, o, p, ⟨B.first.1, B.first.2, ?_⟩, ⟨B.last.1, B.last.2, ?_⟩, B.functions⟩
    · rw [h1, t1, B.range]
    · rw [h1]
      rw [B.range] at t2 ⊢
      exact t2
    · rw [h1]
      rw [B.range] at t3 ⊢
      simpa using t3

/-- C53. If no functions or objects overlap, no function of the section of the data range has
an address in it. -/
theorem C53_data_no_function {elf : Elf} {code data : AddressRange} (h : elfFromFile elf = .ok (code, data)) (hno : NoOverlap elf)
    (f : ElfSymbol) (hf : f.In elf .func) (hi : ∀ i, data.sectionIndex = some i → f.StartsIn elf i) : data.Disjoint f.value (f.value + f.size) ∨ data = {} := by
  rcases C53_data_range h with h1 | ⟨h1, i, h2, o, p, ⟨_, _, h3⟩, ⟨_, _, h4⟩, h5⟩
  · exact .inr h1
  · left
    unfold AddressRange.Disjoint
    rcases h5 hno f hf (hi i h2) with h6 | h6 <;> omega

/-- C53. The data range and the code range have no address in common, or the data range lies
wholly inside the code range. -/
theorem C53_data_and_code {elf : Elf} {code data : AddressRange} (h : elfFromFile elf = .ok (code, data)) :
    code.begin_ ≤ code.end_ ∧ data.begin_ ≤ data.end_ ∧
    (data = {} ∨ code.Disjoint data.begin_ data.end_ ∨ code.Contains data.begin_ data.end_) := by
  obtain ⟨groups, G, rfl, rfl⟩ := elfFromFile_groups h
  refine ⟨code_le G, ?_⟩
  rcases (dataRange_spec G (code_le G)).1 with h1 | ⟨i, o, p, r, B, h1, h2⟩
  · exact ⟨by rw [h1]; exact Int.le_refl _, .inl h1⟩
  · obtain ⟨_, _, t3, t4⟩ := trimRange_spec (code_le G) B.le
    rw [h1]
    refine ⟨t3, .inr ?_⟩
    rcases t4 with t4 | ⟨t4, t5⟩
    · exact .inl t4
    · right
      rw [t4]
      exact t5

/-- C53. If no functions or objects overlap, no object outside the code range is larger than
the data range. -/
theorem C53_data_largest {elf : Elf} {code data : AddressRange} (h : elfFromFile elf = .ok (code, data)) (hno : NoOverlap elf)
    (s : ElfSymbol) (hs : s.In elf .object) (hout : code.Disjoint s.value (s.value + s.size)) : (s.size : Int) ≤ data.end_ - data.begin_ := by
  obtain ⟨groups, G, rfl, rfl⟩ := elfFromFile_groups h
  exact (dataRange_spec G (code_le G)).2 hno s hs hout

/-! ### The offset of the data in the file -/

theorem dataFormatFromFiles_parts {option : String} {elf : Elf} {bin : Bytes} {offset : Option Int} {r : Ranges}
    (h : dataFormatFromFiles option elf bin offset = .ok r) :
    ∃ code data o, elfFromFile elf = .ok (code, data) ∧ dataOffset option elf bin offset data = .ok o ∧
      r = { offsetBegin := o, offsetEnd := o + data.size, codeBegin := code.begin_, codeEnd := code.end_, dataBegin := data.begin_, dataEnd := data.end_ } := by
  unfold dataFormatFromFiles at h
  cases h1 : elfFromFile elf with
  | error e => rw [h1] at h; cases h
  | ok cd =>
    obtain ⟨code, data⟩ := cd
    rw [h1] at h
    simp only [Bind.bind, Except.bind] at h
    cases h2 : dataOffset option elf bin offset data with
    | error e => rw [h2] at h; cases h
    | ok o =>
      rw [h2] at h
      injection h with h
      exact ⟨code, data, o, rfl, h2, h.symm⟩

/-- C53. The ranges given to creation are the code and data addresses of the ELF file and
offsets as far apart as the data addresses. -/
theorem C53_ranges {option : String} {elf : Elf} {bin : Bytes} {offset : Option Int} {r : Ranges}
    (h : dataFormatFromFiles option elf bin offset = .ok r) :
    ∃ code data, elfFromFile elf = .ok (code, data) ∧ r.codeBegin = code.begin_ ∧ r.codeEnd = code.end_ ∧
      r.dataBegin = data.begin_ ∧ r.dataEnd = data.end_ ∧ r.offsetEnd - r.offsetBegin = r.dataEnd - r.dataBegin := by
  obtain ⟨code, data, o, h1, h2, rfl⟩ := dataFormatFromFiles_parts h
  refine ⟨code, data, h1, rfl, rfl, rfl, rfl, ?_⟩
  unfold AddressRange.size
  simp only []
  omega

/-- C53. Without an offset the data of the section at the data addresses is in the binary file
at the offset that is found, and nowhere before. There is one if the data is in the file. -/
theorem C53_offset_found (option : String) (elf : Elf) (bin : Bytes) {code data : AddressRange} (h : elfFromFile elf = .ok (code, data))
    {i : Nat} {sec : ElfSection} (hi : data.sectionIndex = some i) (hs : elf[i]? = some sec) :
    let contents := (sec.data.drop (data.begin_ - sec.addr).toNat).take (data.end_ - data.begin_).toNat
    (sec.addr : Int) ≤ data.begin_ ∧
    (∀ r, dataFormatFromFiles option elf bin none = .ok r →
      ∃ before after, bin = before ++ contents ++ after ∧ r.offsetBegin = before.length ∧
        ∀ before' after', bin = before' ++ contents ++ after' → before.length ≤ before'.length) ∧
    ((∃ before after, bin = before ++ contents ++ after) → ∃ r, dataFormatFromFiles option elf bin none = .ok r) := by
  intro contents
  have haddr : (sec.addr : Int) ≤ data.begin_ := by
    rcases C53_data_range h with h1 | ⟨_, j, h2, o, p, ⟨_, ⟨⟨sec', k1, k2, _⟩, _⟩, h3⟩, _⟩
    · rw [h1] at hi; cases hi
    · rw [hi] at h2
      injection h2 with h2
      subst h2
      rw [hs] at k1
      injection k1 with k1
      subst k1
      omega
  have hprefix : ∀ before after : Bytes, bin = before ++ contents ++ after → contents <+: bin.drop before.length ∧ before.length ≤ bin.length := by
    intro before after hb
    rw [hb]
    refine ⟨⟨after, by simp⟩, by simp⟩
  have hdef : findDataOffset option elf bin data = match bytesIndex contents bin 0 with
      | some i => .ok (i : Int)
      | none => .error (.error ("Failed to calculate ELF offset. Use " ++ option ++ " to manually give the offset. ...")) := by
    unfold findDataOffset
    rw [hi]
    simp only [hs]
    rfl
  refine ⟨haddr, ?_, ?_⟩
  · intro r hr
    obtain ⟨code', data', o, k1, k2, rfl⟩ := dataFormatFromFiles_parts hr
    rw [h] at k1
    injection k1 with k1
    injection k1 with e1 e2
    subst e1 e2
    change findDataOffset option elf bin data = .ok o at k2
    rw [hdef] at k2
    cases hb : bytesIndex contents bin 0 with
    | none => rw [hb] at k2; cases k2
    | some k =>
      rw [hb] at k2
      injection k2 with k2
      obtain ⟨_, m1, ⟨after, m2⟩, m3⟩ := (bytesIndex_some _ _ _ _).1 hb
      rw [Nat.sub_zero] at m1 m2 m3
      refine ⟨bin.take k, after, ?_, ?_, ?_⟩
      · rw [List.append_assoc, m2, List.take_append_drop]
      · show o = _
        rw [← k2, List.length_take, Nat.min_eq_left m1]
      · intro before' after' hb'
        rw [List.length_take, Nat.min_eq_left m1]
        apply Classical.byContradiction
        intro hn
        exact m3 before'.length (by omega) (hprefix before' after' hb').1
  · rintro ⟨before, after, hb⟩
    have : ∃ k, bytesIndex contents bin 0 = some k := by
      -- The least offset at which the contents are.
      have hex : ∀ n, (∃ k ≤ n, contents <+: bin.drop k ∧ k ≤ bin.length) → ∃ k, contents <+: bin.drop k ∧ k ≤ bin.length ∧ ∀ j < k, ¬ contents <+: bin.drop j := by
        intro n
        induction n with
        | zero =>
          rintro ⟨k, k1, k2, k3⟩
          refine ⟨k, k2, k3, fun j hj => by omega⟩
        | succ n ih =>
          rintro ⟨k, k1, k2, k3⟩
          by_cases hlt : ∃ k ≤ n, contents <+: bin.drop k ∧ k ≤ bin.length
          · exact ih hlt
          · refine ⟨k, k2, k3, fun j hj hp => hlt ⟨j, by omega, hp, by omega⟩⟩
      obtain ⟨k, k1, k2, k3⟩ := hex before.length ⟨before.length, Nat.le_refl _, hprefix before after hb⟩
      exact ⟨k, (bytesIndex_some _ _ _ _).2 ⟨Nat.zero_le _, by simpa using k2, by simpa using k1, by simpa using k3⟩⟩
    obtain ⟨k, hk⟩ := this
    unfold dataFormatFromFiles
    rw [h]
    simp only [Bind.bind, Except.bind]
    have e : dataOffset option elf bin none data = _ := hdef
    rw [e, hk]
    exact ⟨_, rfl⟩

/-- C53. With an offset, the data is where the ELF file has it, less the offset: that is, where
it is in a binary file that begins `offset` bytes into the ELF file. This needs that only one
section contains the address. -/
theorem C53_offset_given (option : String) (elf : Elf) (bin : Bytes) (offset : Int) {code data : AddressRange} (h : elfFromFile elf = .ok (code, data))
    (sec : ElfSection) (hs : sec ∈ elf) (hin : (sec.addr : Int) ≤ data.begin_ ∧ data.begin_ < sec.addr + sec.size)
    (hone : ∀ t ∈ elf, (t.addr : Int) ≤ data.begin_ ∧ data.begin_ < t.addr + t.size → (t.addr, t.offset) = (sec.addr, sec.offset)) :
    ∃ r, dataFormatFromFiles option elf bin (some offset) = .ok r ∧ r.offsetBegin + offset = sec.offset + (data.begin_ - sec.addr) := by
  obtain ⟨h1, h2⟩ := offsetForAddress_spec (sortSections elf) data.begin_
  obtain ⟨o, ho⟩ := h2 ⟨sec, (sortSections_mem _ _).2 hs, hin⟩
  obtain ⟨t, t1, t2, t3, t4⟩ := h1 o ho
  have e := hone t ((sortSections_mem _ _).1 t1) ⟨t2, t3⟩
  injection e with e1 e2
  unfold dataFormatFromFiles
  rw [h]
  simp only [Bind.bind, Except.bind, dataOffset, ho, Except.map]
  refine ⟨_, rfl, ?_⟩
  show o - offset + offset = _
  rw [t4, e1, e2]
  omega

/-- C53 does not extend to ELF files with another section that contains the data address, such
as debug information, whose address is 0: the tool may take the offset of that section. Here
the data is at offset 100 of the ELF file and the tool says 37. -/
theorem C53_offset_given_other_section :
    ∃ elf : Elf, ∃ code data sec, elfFromFile elf = .ok (code, data) ∧ data.sectionIndex = some 1 ∧ elf[1]? = some sec ∧ data.begin_ = sec.addr ∧ sec.offset = 100 ∧
      (dataFormatFromFiles "" elf [] (some 0)).map Ranges.offsetBegin = .ok 37 := by
  refine ⟨[{ addr := 0, size := 0, symbols := some [⟨.object, 32, 4⟩] }, { addr := 32, size := 8, offset := 100 }, { addr := 0, size := 1000, offset := 5 }],
    {}, ⟨32, 36, some 1⟩, { addr := 32, size := 8, offset := 100 }, ?_, rfl, rfl, rfl, rfl, ?_⟩ <;> rfl

/-- C53 does not extend to ELF files without an object: looking for the data fails with a
TypeError of Python, which the tool reports. -/
theorem C53_no_object (option : String) (elf : Elf) (bin : Bytes) {code data : AddressRange} (h : elfFromFile elf = .ok (code, data))
    (hn : ∀ s : ElfSymbol, ¬ s.In elf .object) : dataFormatFromFiles option elf bin none = .error (.builtin "TypeError") := by
  have : data = {} := by
    rcases C53_data_range h with h1 | ⟨_, i, _, o, p, ⟨h2, _⟩, _⟩
    · exact h1
    · exact absurd h2 (hn o)
  unfold dataFormatFromFiles
  rw [h, this]
  rfl

/-- The code range need not contain each function of its section if functions overlap. -/
theorem C53_overlap : ∃ elf : Elf, ∃ code data, elfFromFile elf = .ok (code, data) ∧ code.sectionIndex = some 0 ∧
    ∃ s : ElfSymbol, s.In elf .func ∧ s.StartsIn elf 0 ∧ ¬ code.Contains s.value (s.value + s.size) := by
  refine ⟨[{ addr := 0, size := 100, symbols := some [⟨.func, 10, 50⟩, ⟨.func, 20, 4⟩] }], ⟨10, 24, some 0⟩, {}, rfl, rfl, ⟨.func, 10, 50⟩, ⟨⟨_, .head _, _, rfl, .head _⟩, rfl, by decide⟩, ⟨⟨_, rfl, by decide, by decide⟩, fun j hj => by omega⟩, ?_⟩
  unfold AddressRange.Contains
  decide

/-- The data range can lie inside the code range: objects between functions. -/
theorem C53_data_inside_code : ∃ elf : Elf, NoOverlap elf ∧ ∃ code data, elfFromFile elf = .ok (code, data) ∧ data ≠ {} ∧ code.Contains data.begin_ data.end_ := by
  refine ⟨[{ addr := 0, size := 100, symbols := some [⟨.func, 10, 10⟩, ⟨.object, 20, 8⟩, ⟨.func, 28, 4⟩] }], ?_, ⟨10, 32, some 0⟩, ⟨20, 28, some 0⟩, rfl, by decide, ?_⟩
  · unfold NoOverlap
    decide
  · unfold AddressRange.Contains
    decide

/-- A value of `--from-elf-offset` that is no integer is ignored without a message. -/
theorem C53_bad_offset_ignored (value : List Char) (h : pyInt value = none) (option : String) (elf : Elf) (bin : Bytes) :
    dataFormatFromFiles option elf bin (parseIntegerDefault (some value)) = dataFormatFromFiles option elf bin (parseIntegerDefault none) := by
  unfold parseIntegerDefault
  simp [h]

/-! ### Round trip -/

/-- Each function and object ends at an address of 2^31 or less. -/
def Elf.Small (elf : Elf) : Prop := ∀ s : ElfSymbol, s.In elf .func ∨ s.In elf .object → s.value + s.size ≤ 2 ^ 31

theorem ranges_small {option : String} {elf : Elf} {bin : Bytes} {offset : Option Int} {r : Ranges} (hsmall : elf.Small)
    (h : dataFormatFromFiles option elf bin offset = .ok r) :
    (0 ≤ r.codeBegin ∧ r.codeBegin ≤ r.codeEnd ∧ r.codeEnd ≤ 2 ^ 31) ∧ (0 ≤ r.dataBegin ∧ r.dataBegin ≤ r.dataEnd ∧ r.dataEnd ≤ 2 ^ 31) ∧
    r.offsetEnd - r.offsetBegin = r.dataEnd - r.dataBegin ∧ (offset = none → 0 ≤ r.offsetBegin ∧ r.offsetBegin ≤ bin.length) := by
  obtain ⟨code, data, o, h1, h2, rfl⟩ := dataFormatFromFiles_parts h
  obtain ⟨c1, c2, _⟩ := C53_data_and_code h1
  refine ⟨?_, ?_, ?_, ?_⟩
  · obtain ⟨k1, k2, _⟩ := C53_code_range h1
    by_cases hf : ∃ s : ElfSymbol, s.In elf .func
    · obtain ⟨i, _, f, g, ⟨_, _, m1⟩, ⟨m2, _, m3⟩, _⟩ := k2 hf
      have := hsmall g (.inl m2)
      simp only []
      omega
    · rw [k1 fun s hs => hf ⟨s, hs⟩]
      simp
  · rcases C53_data_range h1 with k | ⟨k1, i, _, o, p, ⟨_, _, m1⟩, ⟨m2, _, m3⟩, _⟩
    · rw [k]
      simp
    · have := hsmall p (.inr m2)
      simp only []
      omega
  · unfold AddressRange.size
    simp only []
    omega
  · rintro rfl
    change findDataOffset option elf bin data = .ok o at h2
    unfold findDataOffset at h2
    cases hi : data.sectionIndex with
    | none => rw [hi] at h2; cases h2
    | some i =>
      rw [hi] at h2
      simp only [] at h2
      cases hs : elf[i]? with
      | none => rw [hs] at h2; cases h2
      | some sec =>
        rw [hs] at h2
        simp only [] at h2
        generalize hb : bytesIndex ((sec.data.drop (data.begin_ - sec.addr).toNat).take data.size.toNat) bin 0 = res at h2
        cases res with
        | none => cases h2
        | some k =>
          injection h2 with h2
          have := ((bytesIndex_some _ _ _ _).1 hb).2.1
          simp only []
          omega

/-- C53. `create_patch` with the ELF files of both images, for any of the data formats, followed by
`apply_patch` restores the to-file, whatever the ELF files contain, as long as ranges are found
and addresses are below 2^31. -/
theorem C53_create_apply (T : Tools) (c : Compression) (sais : Bool) (ms mb : Nat) (noMmap : Bool) (window lookahead : Nat)
    (hsa : SuffixArrayInRange (T.suffixArray sais)) (L : Lossless ((T.lib sais window lookahead).codecOf c)) (hm : T.matcher.Ok)
    (name : FormatName) (fromElf toElf : Elf) (toOffset : Option Int) (rf rt : Ranges)
    (d : Disk) (fromfile tofile patchfile outfile : String) (fr to : Bytes)
    (hrf : dataFormatFromFiles "--from-elf-offset" fromElf fr none = .ok rf) (hrt : dataFormatFromFiles "--to-elf-offset" toElf to toOffset = .ok rt)
    (hsf : fromElf.Small) (hst : toElf.Small)
    (hf : d.files fromfile = some fr) (ht : d.files tofile = some to) (hsz : fr.length + to.length < 2 ^ 31)
    (hw : d.writable patchfile = true) (hw' : d.writable outfile = true)
    (hpf : patchfile ≠ fromfile) (hpt : patchfile ≠ tofile) (hof : outfile ≠ fromfile) (hop : outfile ≠ patchfile) (rest : Bytes) :
    ∃ F, ∀ fuel, F ≤ fuel → ∃ e1 e2,
      runCommand T rest fuel d (.createPatch c .sequential .bsdiff sais ms mb noMmap window lookahead
        { dataFormat := some name, fromElf := some (dataFormatFromFiles "--from-elf-offset" fromElf fr none)
          toElf := some (dataFormatFromFiles "--to-elf-offset" toElf to toOffset) } fromfile tofile patchfile) = some e1 ∧
      runCommand T rest fuel e1.disk (.applyPatch fromfile patchfile outfile) = some e2 ∧
      e1.status = 0 ∧ e2.status = 0 ∧ e2.disk.files outfile = some to ∧ SameExcept d e1.disk [patchfile] ∧ SameExcept e1.disk e2.disk [outfile] := by
  obtain ⟨⟨a1, a2, a3⟩, ⟨a4, a5, a6⟩, a7, a8⟩ := ranges_small hsf hrf
  obtain ⟨⟨b1, b2, b3⟩, ⟨b4, b5, b6⟩, _, _⟩ := ranges_small hst hrt
  obtain ⟨a8, a9⟩ := a8 rfl
  refine C52_create_apply T c sais ms mb noMmap window lookahead hsa L _ { from_ := rf, to := rt } ?_ ?_ d fromfile tofile patchfile outfile fr to
    hf ht hsz hw hw' hpf hpt hof hop rest
  · rw [hrf, hrt]
    rfl
  · intro name' _
    refine ⟨hm, ?_, ⟨?_, ?_, ?_, ?_, ?_, a7⟩⟩
    · cases name' with
      | armCortexM4 => exact .cortexM4 ⟨fun _ => b6, fun _ => b3⟩
      | aarch64 => exact .aarch64 ⟨fun _ => by simp only []; omega, fun _ => by simp only []; omega⟩
      | xtensaLx106 => exact .xtensaLx106 ⟨fun _ => b6, fun _ => b3⟩
    all_goals (unfold Address; simp only []; omega)

/-! ### Examples -/

/-- A file with code, data and a symbol table. -/
def exampleElf : Elf :=
  [{ addr := 0, size := 0 },
   { addr := 4096, size := 16, offset := 64, data := [1, 2, 3, 4, 5, 6, 7, 8, 9, 10, 11, 12, 13, 14, 15, 16] },
   { addr := 8192, size := 8, offset := 80, data := [21, 22, 23, 24, 25, 26, 27, 28] },
   { addr := 0, size := 64, offset := 88
     symbols := some [⟨.func, 4104, 4⟩, ⟨.object, 8192, 4⟩, ⟨.other, 5, 5⟩, ⟨.func, 4096, 8⟩, ⟨.object, 4108, 2⟩, ⟨.object, 8196, 4⟩] }]

example : elfFromFile exampleElf = .ok (⟨4096, 4108, some 1⟩, ⟨8192, 8200, some 2⟩) := by decide +kernel

example : NoOverlap exampleElf := by unfold NoOverlap; decide +kernel

example : (⟨.func, 4104, 4⟩ : ElfSymbol).In exampleElf .func := ⟨⟨exampleElf[3], by simp [exampleElf], _, rfl, by simp⟩, rfl, by decide⟩

example : dataFormatFromFiles "--from-elf-offset" exampleElf [1, 2, 3, 4, 21, 22, 23, 24, 25, 26, 27, 28, 0] none =
    .ok { offsetBegin := 4, offsetEnd := 12, codeBegin := 4096, codeEnd := 4108, dataBegin := 8192, dataEnd := 8200 } := by decide +kernel

/-- The binary file is the ELF file from its offset 64 on. -/
example : dataFormatFromFiles "--from-elf-offset" exampleElf [] (parseIntegerDefault (some "0x40".toList)) =
    .ok { offsetBegin := 16, offsetEnd := 24, codeBegin := 4096, codeEnd := 4108, dataBegin := 8192, dataEnd := 8200 } := by decide +kernel

example : parseIntegerDefault (some "4o".toList) = none := by decide +kernel

/-- A symbol in no section. -/
example : elfFromFile [{ addr := 0, size := 4, symbols := some [⟨.func, 4, 1⟩] }] = .error (.error "Symbol ... not part of any section.") := by decide +kernel

example : exampleElf.Small := by
  have h : ∀ s ∈ elfSymbols exampleElf, s.value + s.size ≤ 2 ^ 31 := by decide +kernel
  exact fun s hs => h s (mem_elfSymbols.2 hs)

end Detools
