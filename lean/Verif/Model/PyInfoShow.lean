import Verif.Model.PyInfoText
/-
Model of the averages, medians and ratios that the patch_info command shows.
detools/__init__.py:316-497.
-/
namespace Detools

/-- `int(mean(sizes))`: Python's `mean` raises StatisticsError for no values, and `int`
rounds towards zero. The mean is a float in Python if it is not an integer; here it is exact.
detools/__init__.py:362, 367, 396, 403. -/
def shownMean (sizes : List Int) : Except PyErr Int :=
  if sizes = [] then .error (.builtin "StatisticsError") else .ok ((sizes.sum).tdiv sizes.length)

/-- Insertion into a sorted list. -/
def insertSorted (x : Int) : List Int → List Int
  | [] => [x]
  | y :: ys => if x ≤ y then x :: y :: ys else y :: insertSorted x ys

/-- Python's `sorted`. -/
def pySorted : List Int → List Int
  | [] => []
  | x :: xs => insertSorted x (pySorted xs)

/-- `int(median(sizes))`, with `median` as in Python's statistics module: the middle value, or
the mean of the two in the middle. It raises StatisticsError for no values.
detools/__init__.py:363, 368, 397, 404. -/
def shownMedian (sizes : List Int) : Except PyErr Int :=
  let data := pySorted sizes
  let n := data.length
  if n = 0 then .error (.builtin "StatisticsError")
  else if n % 2 = 1 then .ok (data.getD (n / 2) 0)
  else
    let i := n / 2
    .ok ((data.getD (i - 1) 0 + data.getD i 0).tdiv 2)

/-- `_format_ratio`: the two numbers whose quotient is shown, rounded, or `none` for "inf".
The rounding to one decimal is left out. detools/__init__.py:316-320. -/
def formatRatio (numerator denominator : Int) : Option (Int × Int) :=
  if denominator > 0 then some (100 * numerator, denominator) else none

/-- The lines about the diffs, or the extras. -/
structure SizesShown where
  number : Nat
  total : Int
  mean : Option Int
  median : Option Int
deriving DecidableEq, Repr

/-- The lines of a segment; the ranges are in `SegmentShown`. -/
structure RecordsShown where
  diffExtraRatio : Option (Int × Int)
  sizeDataRatio : Option (Int × Int)
  diffs : SizesShown
  extras : SizesShown
deriving DecidableEq, Repr

/-- The lines about sizes in `_patch_info_in_place_segment`, where the mean and the median are
always asked for. detools/__init__.py:360-368. -/
def segmentSizesShown (sizes : List Int) : Except PyErr SizesShown := do
  let mean ← shownMean sizes
  let median ← shownMedian sizes
  return ⟨sizes.length, sizes.sum, some mean, some median⟩

/-- `_patch_info_in_place_segment`. detools/__init__.py:323-369. -/
def segmentRecordsShown (info : RecordsInfo) : Except PyErr RecordsShown := do
  let diffBytes := info.diffSizes.sum
  let extraBytes := info.extraSizes.sum
  let sizeDataRatio := formatRatio info.numberOfSizeBytes (diffBytes + extraBytes)
  let diffExtraRatio := formatRatio diffBytes extraBytes
  let diffs ← segmentSizesShown info.diffSizes
  let extras ← segmentSizesShown info.extraSizes
  return ⟨diffExtraRatio, sizeDataRatio, diffs, extras⟩

/-- The loop of `_patch_info_in_place`. detools/__init__.py:464-478. -/
def segmentsRecordsShown : List (Int × Option Int × RecordsInfo) → Except PyErr (List RecordsShown)
  | [] => .ok []
  | s :: rest => do
    let shown ← segmentRecordsShown s.2.2
    let more ← segmentsRecordsShown rest
    return shown :: more

/-- The lines about sizes in `_patch_info_sequential`: "-" (`none`) if there are none.
detools/__init__.py:395-407, 422-430. -/
def sequentialSizesShown (sizes : List Int) : Except PyErr SizesShown :=
  if sizes ≠ [] then do
    let mean ← shownMean sizes
    let median ← shownMedian sizes
    return ⟨sizes.length, sizes.sum, some mean, some median⟩
  else .ok ⟨sizes.length, sizes.sum, none, none⟩

/-- `_patch_info_sequential`. detools/__init__.py:372-430. -/
def sequentialRecordsShown (info : RecordsInfo) : Except PyErr RecordsShown := do
  let diffBytes := info.diffSizes.sum
  let extraBytes := info.extraSizes.sum
  let sizeDataRatio := formatRatio info.numberOfSizeBytes (diffBytes + extraBytes)
  let diffExtraRatio := formatRatio diffBytes extraBytes
  let diffs ← sequentialSizesShown info.diffSizes
  let extras ← sequentialSizesShown info.extraSizes
  return ⟨diffExtraRatio, sizeDataRatio, diffs, extras⟩

/-- What `_do_patch_info` shows: the patch/to ratio, and the records of the patch or of each
segment. detools/__init__.py:494-509. -/
def showPatchInfo : PatchInfo → Except PyErr (Option (Int × Int) × List RecordsShown)
  | .sequential info => do
    let patchToRatio := formatRatio info.patchSize info.records.toSize
    let shown ← sequentialRecordsShown info.records
    return (patchToRatio, [shown])
  | .inPlace info => do
    let patchToRatio := formatRatio info.patchSize info.header.toSize
    let shown ← segmentsRecordsShown info.segments
    return (patchToRatio, shown)
  | .hdiffpatch patchSize _ toSize => .ok (formatRatio patchSize toSize, [])

end Detools
