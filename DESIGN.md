# Formal model of eerimoq/detools in Lean 4

The Lean project is in `lean/`.

* `lean/Verif/Model/` is the model of the code. Every definition cites the file and the
  lines in `/repo` it models, and says where it simplifies.
* `lean/Verif/Spec/` holds the small independent specifications the property theorems
  are stated with: what a list of records means, what a lossless codec is, what a flash
  memory that loses power does, and so on.
* `lean/Verif/Proofs/` holds helper lemmas. Nothing in it needs to be read to see what is
  claimed.
* `lean/Verif/Props/` holds the property theorems, named after the property
  (`C08_...`), with a concrete, non-trivial case beside each.

`properties.jsonl` lists the properties in words, `MANIFEST.json` which theorems prove
them, `seeded/LOG.jsonl` what happened when the model was edited like a bug would change
the code.

## Modelling conventions

* A byte is `UInt8`. A byte string, file or buffer is `List UInt8`.
* Python integers are `Int` or `Nat`. C `size_t` values are `Nat` reduced modulo 2^64
  wherever the C code adds, subtracts or casts. C `int` and `int32_t` values are `Int`
  with an explicit outcome for overflow, or with an explicit conversion (`wrapInt`).
* A Python function that may raise returns `Except PyErr _`. A message is compared only
  where a theorem is about the message.
* Undefined behaviour of C is a distinct outcome (`Ub`: out of bounds, use of an
  uninitialised byte, signed overflow, division by zero), never a default value.
  `timeout` is the outcome of a loop that ran out of fuel; theorems show that it does not
  happen.
* Python file objects are a byte list and a position. C callbacks are parameters: the
  theorems about arbitrary callbacks quantify over an arbitrary environment with a state
  of any type; the round trip theorems instantiate them with files or with a flash memory.
* Loops are modelled by structural recursion, or with fuel where the fuel is proved
  sufficient. In the C model the fuel is computed from the state. In the Python model it is
  a parameter, and theorems hold for all sufficiently large values.

## Trusted base

* Lean's kernel. Every theorem depends on at most the axioms `propext`,
  `Classical.choice` and `Quot.sound` (checked with `#print axioms` and by `vcheck`).
  There are no other axioms, no `sorry`, no `native_decide`, no `bv_decide`, and nothing
  from Mathlib is imported. Concrete examples are checked with `decide +kernel`.
* That the definitions in `Verif/Model` say what the cited lines do.
* The contracts below, wherever a theorem has them as a hypothesis.

### What is modelled

| code | model | lines |
|------|-------|-------|
| `detools/bsdiff.c` (pack/unpack of sizes, search, create, add_bytes) | `Model/Varint`, `Model/Bsdiff`, `Model/ExtResources` | all but what the arguments may be; buffers, references and failing calls are in `ExtResources` |
| `detools/create.py` | `Model/PySequential`, `PyInPlace`, `PyContainers` | sequential, in-place, BSDIFF40, hdiffpatch, match-blocks, dispatch |
| `detools/hdiffpatch.cpp` | `Model/HDiffModule`, `Model/ExtResources` | all but what the arguments may be; the library is a parameter, and so is what the system refuses (memory, reading back the temporary file) |
| `detools/apply.py` | `Model/PyStream`, `PySequential`, `PyInPlace`, `PyContainers` | all patch types |
| `detools/info.py`, the `info` functions of `detools/data_format/*.py`, the ranges shown by `detools/__init__.py` | `Model/PyInfo`, `PyInfoText`, `PyInfoShow` | all but the compression info; ratios are not rounded |
| `detools/common.py` | `Model/Varint`, `PySequential` | sizes, headers, compression names |
| `detools/compression/*.py` | `Model/PyStream`, `PyCompression` | none, crle, heatshrink, zstd, lz4 |
| `detools/data_format/*.py` but `elf.py` | `Model/DataFormat`, `DataFormatArch` | blocks, readers, encoders, the three disassemblers |
| `detools/data_format/elf.py` and its use in `detools/__init__.py` | `Model/Elf` | all; an ELF file is the list of its sections as pyelftools gives it |
| `c/examples/dump_restore/main.c` | `Model/CDumpRestore`; `Model/CDumpRestoreFail` with calls that can fail | all but arguments, messages and failing `fclose` and `remove`; files below 2^31 bytes |
| `c/examples/in_place/main.c` | `Model/CExampleInPlace` | `update`; the callbacks, `serial_read` and `verify_written_data` are arbitrary; not the parsing of arguments |
| `detools/sais/sais.c`, `detools/suffix_array.c` | `Model/Sais`, `Model/ExtResources` | all but what the arguments may be and assertions; allocation and its failure are in `ExtResources`; elements are 32 bits; arrays in the unused end of the suffix array are separate lists, which do not overlap (`C51_layout`); names are copied in place |
| `detools/libdivsufsort/trsort.c.inc.h` | `Model/Trsort` | all of it; the stack of 64 entries is modelled, and a push on a full one is its own outcome; `int` does not overflow as a length is less than 2^31 |
| `detools/libdivsufsort/divsufsort.c.inc.h` | `Model/Divsufsort`, `Model/ExtResources` | `sort_typeBstar`, `construct_SA`, `divsufsort`; `sssort` and `trsort` are parameters of the model, and given in the theorems; allocation and its failure are in `ExtResources`; no OpenMP or assertions; `divbwt`, which is not used, is not modelled |
| `detools/libdivsufsort/sssort.c.inc.h` | `Model/Sssort`, `Model/SsMerge` | all of it, with the stacks of fixed size; as `sort_typeBstar` calls it in `callSsSort`. Two pointers are compared as indices |
| `c/detools.c`, `c/detools.h` | `Model/CBase`, `CReader`, `CSequential`, `CDump`, `CInPlace`, `CCallbacks`, `CInPlaceFiles`, `CStdio`, `CLzmaHeap` | all functions; the readers none, LZMA, CRLE and heatshrink with static allocation |
| `c/main.c` | `Model/CMain`, `Model/CMainStdio` | all; `CMain` is on named files, of which some cannot be opened, and `CMainStdio` on a stdio of which each call may fail; printing succeeds |
| `detools/__init__.py`, the functions of `create.py`, `apply.py` and `info.py` that take file names | `Model/PyMain` | the seven commands after argument parsing, ranges, exit status; not the printed text. A file that is read while it is written is not modelled (`none`), except where it is empty from the beginning |
| `c/heatshrink/heatshrink_decoder.c` | `Model/Heatshrink` | all, static and dynamic parameters |

### What is not modelled

* `argparse`, the layout of what the Python command line tool prints on success (the values shown by patch_info are modelled), read and write errors of open files in Python.
* pyelftools.
* In the theorems other than those of C51 and C62 the suffix array is any list of in-range
  offsets (`SuffixArrayInRange`); that it is sorted is assumed only in C32 and in
  `C51_same_patch`. C51 gives both for SA-IS without assumption, and C62 for divsufsort
  unless the stack of `trsort` is full, for which a B* substring must occur more than
  3329021 times, so the data must be longer than 6658043 bytes.
* The HDiffPatch submodule, `difflib`, `bitstruct`, heatshrink2, zstandard, lz4, bz2,
  lzma and liblzma. They enter as contracts:
  * `Lossless` and `WholeStream` (`Spec/Codec`, `Spec/Containers`): decompression in the
    calls `PatchReader` makes gives back what was compressed. Proved for none and crle,
    and from the library contracts of `Spec/Compression` for heatshrink, zstd and lz4.
  * `DetectsTruncation` (`Spec/Truncation`): the end of a stream is not reported before
    all of it was seen. Proved for none, crle and heatshrink.
  * `LzmaLib` (`Model/CReader`): `lzma_code` stays in its buffers and puts out a bounded
    amount per input byte. `LzmaLib.Keeps` (`Spec/Lzma`): it decompresses what Python's
    lzma module compressed, and uses up its input unless the output buffer is full and
    more is to come. This matches the .lzma format with an end marker, which is what
    `lzma.FORMAT_ALONE` writes: with the output buffer full the decoder still tries the
    next symbol, and so takes the end marker.
  * `HDiff.Inverts`, `HDiff.WritesRecords` (`Spec/Containers`) for the extension module; C60
    has them from `HDiffPatch.Correct`, `HDiffPatch.WritesRecords` (`Spec/HDiffModule`) for the library.
  * genuinely matching blocks of `difflib.SequenceMatcher` (`Spec/DataFormat`).
  Each contract is met by an example beside the theorems.
* Exceptions raised by the libraries while compressing, `malloc` failing (except in the LZMA reader of the C library, C64, in the extension modules, C65, and in C60), CPython's own
  errors (memory, signals), mmap (same data as reading the file; that mmap mode raises for
  empty and unreal files is in the model).
* Logging and timing.

### Assumptions about callers of the C library

Statements about arbitrary histories of calls start with init. Finalize may be called at
any time. After finalize of an LZMA update the buffers are freed and not forgotten, so
calling finalize twice frees twice: c/detools.h asks for one finalize, and the model of the
LZMA reader is one of that use (`AsDocumented` in the histories). For the other readers all
histories are allowed. Reading the size of a chunk of 2^64 bytes or more is not considered.

## Builds

The C library can be built with or without LZMA. `Build` is a parameter of the whole C
model: `noLzma`, or a build with any `LzmaLib`. Theorems quantify over it, and C46 shows
that the builds agree on patches that do not select LZMA.

## Per property: model and proof

| id | model | proof |
|----|-------|-------|
| C01 | `bsdiff.c` create loop for an arbitrary in-range suffix array, sequential create and apply, none codec | loop invariants of the matcher give well-formed records; applying encoded records by induction over the records |
| C02 | CRLE compressor and decompressor objects | CRLE satisfies the streaming contract of C03 |
| C03 | `PatchReader` over an abstract streaming codec with a lossless contract | invariant "the reader still owes exactly these bytes" |
| C04 | `pack_size`, `unpack_size` | induction on the 7-bit groups |
| C05 | `pack_usize`, `unpack_usize` | from C04; partial: 2^63 is signed overflow in C, shown |
| C06 | CRLE objects | invariants over arbitrary slicing |
| C07 | `bsdiff.c` with partial reads and `int32_t` arithmetic | invariants: every read in range, no `int32_t` overflow if the two sizes sum to less than 2^31; sizes of 2^31 fail |
| C08 | C sequential state machine with all four readers | none, crle: refinement to a byte-at-a-time automaton; heatshrink: exact characterisation (C37); LZMA: the reader owes the decompressed stream |
| C09 | same | refinement to the automaton, which folds over bytes; witnesses for the exceptions |
| C10 | same, arbitrary callbacks | invariant relating `to_offset` and written bytes |
| C11 | same | invariant; partial: a negative size in a patch defeats it, shown |
| C12 | same | the failed state absorbs |
| C13 | same | explicit measure; lengths of transfers; partial: two kinds of undefined behaviour are reachable, shown |
| C14 | `dump`, `restore`, any number of cycles | restored state equals dumped state up to fields overwritten by process; partial: one case reads uninitialised memory, shown |
| C15 | C size decoders, called with any pieces | by the shared automaton, and C04 |
| C16 | both apply sides | fewer bytes than owed; witness for LZMA in C |
| C17 | both apply sides | more bytes than owed; witnesses for crle, heatshrink and LZMA |
| C18 | in-place create and apply, memory as byte list | per-segment invariant on memory |
| C19 | in-place part of `detools.c` | same invariant through the state machine, for any reader that owes the body |
| C20 | same with a flash memory that may lose power in any operation | idempotent steps; invariant per completed step |
| C21 | same, with bounds recorded | invariant; witness for patches that were not created |
| C22 | same, trace of step_set | invariant |
| C23 | BSDIFF40, bz2 as lossless contract | records of C07 |
| C24 | `offtin`, `offtout` | arithmetic |
| C25 | `info.py` | records of C07; format of C39 |
| C26 | header functions, Python and C | case analysis over all bytes |
| C27 | `heatshrink_decoder.c` | refinement to a bit-level specification |
| C28 | same with bounds as outcomes | invariant |
| C29 | pack/unpack functions of the data formats | arithmetic on fields |
| C30 | `Blocks` | induction, C04 |
| C31 | disassemblers, `encode`, `create_readers` | every write reproduces original bytes; witnesses for each condition |
| C32 | `search` | binary search invariant over sorted suffixes; partial: not always the longest match, shown |
| C33 | C sequential machine, arbitrary callbacks | case analysis on the step |
| C34 | callback and file name functions | unfolding to the incremental API, C08 |
| C35 | `calc_shift` | arithmetic |
| C36 | `apply_patch_sequential` over an arbitrary codec | loop invariant |
| C37 | both apply sides, all byte strings | both decide the format of `Spec/Records` |
| C38 | containers, HDiffPatch as a contract | PatchReader lemma |
| C39 | `apply_patch`, all byte strings | induction over what was read, both directions |
| C40 | in-place C API, all histories and callbacks | measure and bounds as for C13; partial: undefined behaviour with foreign patches, shown |
| C41 | same | the failed state absorbs |
| C42 | same | case analysis on each callback |
| C43 | Python classes around heatshrink2, zstandard, lz4 | contract of the library to `Lossless` |
| C44 | in-place file name function | the file environment simulates the flash memory of C19 |
| C45 | `apply_patch_in_place`, all byte strings | induction over segments, both directions |
| C46 | C library built with and without LZMA | the state machines run in lockstep |
| C47 | causes of undefined behaviour, sequential C API | an invariant says what an empty CRLE segment or a position still to come means for the bytes fed so far |
| C48 | causes of undefined behaviour, in-place C API | the same, with the decoded header in the invariant |
| C49 | error codes and messages of the C library, `c/main.c` | case analysis on every return, lifted over loops and histories |
| C50 | in-place part of `detools.c`, patches of the format of `Spec/DeviceFormat` | the invariant of C19 to C22 only needs the format, which created patches have |
| C51 | `sais.c`, `suffix_array.c` | the place of a suffix is its rank; each induced pass is a fold whose invariant gives the next free place of each bucket as a count; substrings are compared by type and character codes, names are ranks, the order of the reduced text is that of the left-most S suffixes |
| C52 | `__init__.py`, `*_filenames` | each command is the function proved correct before, between opening and closing files of a disk; applying does not depend on the parameters of creation; digits are read back by induction on their number; a file named twice is empty when it is read |
| C53 | `elf.py`, `data_format_from_files` | the groups of symbols per section by induction on the symbols; blocks are consecutive parts of the sorted list; the fold over ranges gives the largest; round trip from C52 |
| C54 | `c/examples/dump_restore/main.c` over runs and interruptions | invariant on the files: what state.bin holds continues an unbroken update of the same pieces whose output is a prefix of the to-file; the restored object follows the original (C14), and its pieces give the same result as the whole patch (C09). With failing calls: a run that ends with status 0 is simulated by one without (`Proofs/CDumpRestoreFail`), any other leaves no state.bin |
| C55 | bsdiff on to-data that is a prefix of the from-data; CRLE of the result | the score always equals the distance scanned ahead, so no record is written before the end; one run of zeros between short sizes is one repeated segment |
| C56 | number of records, lengths of sizes, CRLE segments | the score is the number of matches ahead and never negative, as a byte of the from-data is always found; so a record needs a match of nine bytes more than scanned; a repeated segment saves three bytes, which pays for the scattered one before it |
| C57 | the values shown by patch_info: tables of data format patches, ranges and totals of segments | `info` reads the tables in the order of `create_readers`, so both are the same composition of parsers; for created patches the tables written are read back (as in C31); ranges by arithmetic from C25 |
| C58 | the loop of apply_patch_bsdiff on any three streams | the relation `Bs40` (Spec/Bsdiff40) says when records use up the streams; the loop is followed case by case by induction on the length of the control data: either the relation holds and the output is the same, or it does not and an exception is raised or a stream is left over |
| C59 | `c/examples/in_place/main.c`, any serial line | the loop does what the loop over the pieces does up to an error of the line; runs that are not completed are attempts in the sense of C20, which now include a finalize at any point |
| C60 | `hdiffpatch.cpp` over any library and any system | the loop for the cache halves down to 8 kB and not below; cases of create and apply; the Python layer passes the result on |
| C61 | every negative return value of the sequential C API | an invariant of the object ties its reader and what is left of a size to the bytes given; each step is followed to the codes it can return; a header fault makes every split of the patch fail at the byte where it shows |
| C62 | `sort_typeBstar`, `construct_SA`, `sssort`, `trsort` | `sssort`: the introsort, the merges and the rotation permute what they are given and keep the marks of equal neighbours, the stacks of 16 and 32 suffice as the larger part is pushed; `trsort`: ranks refine the order of suffixes at all times, each range that is done has ranks by twice as many names (partition, heap, insertion, copying of tandem repeats), a pass is over segments that are in place or have one rank, and passes double the names until all are in place; its stack of 64 is not filled if no substring occurs more than 3329021 times: the larger parts are pushed, and a part of equal keys that is worked on as a tandem repeat leaves at most half of the range, since each element outside a repeat is followed by one of the range that is not in the part, so that the logarithm of the cube of the size is enough room; that it suffices in general is not proved, a full one is an outcome of its own; each bucket is a count; the loop over buckets keeps those done sorted and the others as placed; the loop of ranks turns groups into names; names compare as suffixes (a B* suffix is less than another type B suffix with the same two characters); the two scans place each suffix at its rank |
| C63 | every negative return value of the in-place C API | an invariant of the object ties its header, reader and what is left of a size to the bytes given, and the trace of callbacks tells which one was made last; each step is followed to the codes it can return; a header fault makes every split of the patch fail at the byte where it shows, with the same memory |
| C64 | the buffers of the LZMA reader on a heap of blocks, each byte written or not, with a malloc that fails at will | the pointers, offsets and sizes represent the byte lists of the reader in `Model/CReader`, and its live blocks are the only ones; each function keeps this and gives the same result, or OUT_OF_MEMORY; an invariant of the sequential and in-place objects says that their readers got where such uses lead |
| C65 | buffers, references, memory blocks and the temporary file of the extension modules, where any call of CPython or malloc can fail; releasing what is not held is a distinct outcome | the loop over the chunks keeps that the list owns exactly the chunks so far; the recursion of `sais_main` keeps that each level's blocks are those of its flags, by induction over the levels; cases of the failing call |
| C66 | averages, medians and ratios of the patch_info command; the mean and the median of no values raise | in the loop over records the sizes so far are the position, so a loop that ends gives the size, and at least one record if it is positive; each segment is positive by the number of segments; sorting is a permutation in order |
| C67 | `detools_apply_patch_filenames`, `detools_apply_patch_in_place_filenames` and the functions they pass as callbacks, on a stdio that is a parameter with its own state; which files are open, and which calls failed, is kept as ghost state | `Model/CStdio`: an invariant (all files open, nothing misused, failed only if the value is negative) carried through every function of the two state machines for any environment that keeps it (`Proofs/CStdio`, `Proofs/CStdioInPlace`), then through opening and closing. That `fclose` failed is lost is a witness. What is in the to-file: a simulation of the sequential state machine on such a stdio by the same on files in memory, as long as nothing fails (`Proofs/CStdioSim`), and then C34. What is in the memory file: the same of the in-place state machine (`Proofs/CStdioInPlaceSim`), and then C44. That an update succeeds if no call fails that need not: the same simulations in the other direction (`Proofs/CStdioWorks`) |
| C68 | `main` of `c/main.c` on the stdio of C67 | `Model/CMainStdio`: C67 and, for the range of the status, the documented error codes of C49 carried through the functions on any stdio (`Proofs/CMainStdio`). That a failing `fclose` gives status 0 is a witness |
