import Verif.Model.PyMain
/-
Model of detools/data_format/elf.py and of the functions of detools/__init__.py that use it.
Left out: pyelftools. An ELF file is the list of its sections, with their addresses, sizes,
offsets in the file, contents and symbols.
-/
namespace Detools

/-- `symbol['st_info']['type']`, as far as it matters. -/
inductive SymbolType where
  | func | object | other
deriving DecidableEq, Repr

structure ElfSymbol where
  type : SymbolType
  value : Nat
  size : Nat
deriving DecidableEq, Repr

/-- A section. `symbols` is `none` if it is not a symbol table or its entry size is 0. -/
structure ElfSection where
  addr : Nat
  size : Nat
  offset : Nat := 0
  data : Bytes := []
  symbols : Option (List ElfSymbol) := none

abbrev Elf := List ElfSection

/-- detools/data_format/elf.py:9-18. -/
structure AddressRange where
  begin_ : Int := 0
  end_ : Int := 0
  sectionIndex : Option Nat := none
deriving DecidableEq, Repr

/-- detools/data_format/elf.py:16-18. -/
def AddressRange.size (r : AddressRange) : Int := r.end_ - r.begin_

/-- The symbols that are looked at, in the order of the file.
detools/data_format/elf.py:37-49. -/
def elfSymbols (elf : Elf) : List ElfSymbol :=
  elf.flatMap fun s =>
    match s.symbols with
    | none => []
    | some symbols => symbols.filter fun s => decide (s.type ≠ .other ∧ s.size ≠ 0)

/-- The loop of `find_section_index_for_symbol`: `none` is its `Error`.
detools/data_format/elf.py:95-105. -/
def findSectionIndex : (elf : Elf) → (index address : Nat) → Option Nat
  | [], _, _ => none
  | s :: rest, index, address =>
    if s.addr ≤ address ∧ address < s.addr + s.size then some index else findSectionIndex rest (index + 1) address

/-- `symbols_per_section[section_index].append(symbol)`: keys are kept in the order in which
they were first used. detools/data_format/elf.py:52. -/
def addSymbol (index : Nat) (s : ElfSymbol) : List (Nat × List ElfSymbol) → List (Nat × List ElfSymbol)
  | [] => [(index, [s])]
  | (i, l) :: rest => if i = index then (i, l ++ [s]) :: rest else (i, l) :: addSymbol index s rest

/-- detools/data_format/elf.py:34-52. -/
def symbolsPerSection (elf : Elf) : List ElfSymbol → List (Nat × List ElfSymbol) → Except PyErr (List (Nat × List ElfSymbol))
  | [], groups => .ok groups
  | s :: rest, groups =>
    match findSectionIndex elf 0 s.value with
    | none => .error (.error "Symbol ... not part of any section.")
    | some index => symbolsPerSection elf rest (addSymbol index s groups)

def insertByValue (s : ElfSymbol) : List ElfSymbol → List ElfSymbol
  | [] => [s]
  | t :: rest => if s.value ≤ t.value then s :: t :: rest else t :: insertByValue s rest

/-- `symbols.sort(key=itemgetter('st_value'))`, a stable sort.
detools/data_format/elf.py:55-56. -/
def sortByValue : List ElfSymbol → List ElfSymbol
  | [] => []
  | s :: rest => insertByValue s (sortByValue rest)

/-- The blocks of symbols of one type, each with whether it is one of functions. `type` is
`block_type`, and `b` and `e` are `block_begin` and `block_end`.
detools/data_format/elf.py:67-90. -/
def blockLoop (index : Nat) (type : SymbolType) (b e : Int) : List ElfSymbol → List (SymbolType × AddressRange)
  | [] => [(type, ⟨b, e, some index⟩)]
  | s :: rest =>
    if s.type ≠ type then (type, ⟨b, e, some index⟩) :: blockLoop index s.type s.value (s.value + s.size : Nat) rest
    else blockLoop index type b (s.value + s.size : Nat) rest

/-- detools/data_format/elf.py:61-90. A group is never empty. -/
def blocksOf (index : Nat) (symbols : List ElfSymbol) : List (SymbolType × AddressRange) :=
  match symbols with
  | [] => []
  | s :: _ => blockLoop index s.type s.value s.size symbols

/-- The ranges of one type per section, for sections with such a range.
detools/data_format/elf.py:58-92. -/
def rangesPerSection (type : SymbolType) (groups : List (Nat × List ElfSymbol)) : List (List AddressRange) :=
  (groups.map fun g => ((blocksOf g.1 (sortByValue g.2)).filter fun b => b.1 = type).map Prod.snd).filter fun l => l ≠ []

/-- `if r.size > largest_range.size: largest_range = r`. -/
def AddressRange.larger (largest r : AddressRange) : AddressRange := if largest.size < r.size then r else largest

/-- The range from the first to the last of `code_ranges`.
detools/data_format/elf.py:112-114. -/
def spanOf (ranges : List AddressRange) : AddressRange :=
  match ranges with
  | [] => {}
  | r :: rest => ⟨r.begin_, ((r :: rest).getLast (by simp)).end_, r.sectionIndex⟩

/-- `create_code_range`. detools/data_format/elf.py:108-119. -/
def createCodeRange (rangesPerSection : List (List AddressRange)) : AddressRange :=
  rangesPerSection.foldl (fun largest ranges => largest.larger (spanOf ranges)) {}

/-- A data range without the part that is code. detools/data_format/elf.py:126-149. -/
def trimRange (code data : AddressRange) : AddressRange :=
  let left := if data.begin_ < code.begin_ ∧ code.begin_ < data.end_ then some { data with end_ := code.begin_ } else none
  let right := if data.begin_ < code.end_ ∧ code.end_ < data.end_ then some { data with begin_ := code.end_ } else none
  match left, right with
  | some l, some r => if l.size > r.size then l else r
  | some l, none => l
  | none, some r => r
  | none, none => data

/-- `create_data_range`. detools/data_format/elf.py:122-154. -/
def createDataRange (rangesPerSection : List (List AddressRange)) (code : AddressRange) : AddressRange :=
  rangesPerSection.flatten.foldl (fun largest r => largest.larger (trimRange code r)) {}

/-- `from_file`: the range of the code and the range of the data.
detools/data_format/elf.py:157-168. -/
def elfFromFile (elf : Elf) : Except PyErr (AddressRange × AddressRange) := do
  let groups ← symbolsPerSection elf (elfSymbols elf) []
  let code := createCodeRange (rangesPerSection .func groups)
  return (code, createDataRange (rangesPerSection .object groups) code)

/-- `haystack.index(needle)`: `none` is ValueError. `i` is the number of bytes skipped. -/
def bytesIndex (needle : Bytes) : (haystack : Bytes) → (i : Nat) → Option Nat
  | [], i => if needle = [] then some i else none
  | b :: rest, i => if needle.isPrefixOf (b :: rest) then some i else bytesIndex needle rest (i + 1)

/-- `find_data_offset_into_binfile`. `get_section(None)` computes with `None`. The offset into
the section is not negative. detools/__init__.py:87-113. -/
def findDataOffset (option : String) (elf : Elf) (bin : Bytes) (data : AddressRange) : Except PyErr Int :=
  match data.sectionIndex with
  | none => .error (.builtin "TypeError")
  | some index =>
    match elf[index]? with
    | none => .error (.builtin "IndexError")
    | some s =>
      let offset := data.begin_ - s.addr
      match bytesIndex ((s.data.drop offset.toNat).take data.size.toNat) bin 0 with
      | some i => .ok i
      | none => .error (.error ("Failed to calculate ELF offset. Use " ++ option ++ " to manually give the offset. ..."))

/-- The order of the tuples (address, offset, size). -/
def ElfSection.before (s t : ElfSection) : Bool :=
  decide (s.addr < t.addr ∨ s.addr = t.addr ∧ (s.offset < t.offset ∨ s.offset = t.offset ∧ s.size ≤ t.size))

def insertSection (s : ElfSection) : List ElfSection → List ElfSection
  | [] => [s]
  | t :: rest => if s.before t then s :: t :: rest else t :: insertSection s rest

/-- `sorted(sections)`. -/
def sortSections : List ElfSection → List ElfSection
  | [] => []
  | s :: rest => insertSection s (sortSections rest)

/-- The loop of `find_offset_for_address`. detools/__init__.py:124-128. -/
def offsetForAddress : List ElfSection → (address : Int) → Except PyErr Int
  | [], _ => .error (.error "Symbol not part of any section.")
  | s :: rest, address =>
    if s.addr ≤ address ∧ address < s.addr + s.size then .ok (address - s.addr + s.offset) else offsetForAddress rest address

/-- Where the data is in the file. detools/__init__.py:136-142. -/
def dataOffset (option : String) (elf : Elf) (bin : Bytes) (offset : Option Int) (data : AddressRange) : Except PyErr Int :=
  match offset with
  | none => findDataOffset option elf bin data
  | some offset => (offsetForAddress (sortSections elf) data.begin_).map fun o => o - offset

/-- `data_format_from_files`, for files that can be opened. detools/__init__.py:131-149. -/
def dataFormatFromFiles (option : String) (elf : Elf) (bin : Bytes) (offset : Option Int) : Except PyErr Ranges := do
  let (code, data) ← elfFromFile elf
  let offset ← dataOffset option elf bin offset data
  return { offsetBegin := offset, offsetEnd := offset + data.size, codeBegin := code.begin_, codeEnd := code.end_
           dataBegin := data.begin_, dataEnd := data.end_ }

/-- `parse_integer_default`: a value that is no integer counts as not given.
detools/__init__.py:54-58. -/
def parseIntegerDefault (value : Option (List Char)) : Option Int := value.bind pyInt

end Detools
