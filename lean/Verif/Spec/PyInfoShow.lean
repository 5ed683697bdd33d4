import Verif.Model.PyInfoShow
/-
What the numbers shown by the patch_info command mean.
-/
namespace Detools

/-- `m` is the mean of the values, rounded towards zero: it is not further from zero than the
mean, on the same side, and less than one from it. -/
def IsShownMean (m : Int) (l : List Int) : Prop :=
  (0 ≤ l.sum → m * l.length ≤ l.sum ∧ l.sum < (m + 1) * l.length) ∧
  (l.sum ≤ 0 → l.sum ≤ m * l.length ∧ (m - 1) * l.length < l.sum)

/-- `m` is the median of the values, rounded towards zero: half the sum of the two values in the
middle when they are in order, which are the same one if their number is odd. -/
def IsShownMedian (m : Int) (l : List Int) : Prop :=
  ∃ s : List Int, s.Perm l ∧ s.Pairwise (· ≤ ·) ∧
    ∃ a b, s[(s.length - 1) / 2]? = some a ∧ s[s.length / 2]? = some b ∧ m = (a + b).tdiv 2

/-- The lines about sizes tell the truth; there is a mean and a median unless there are none. -/
def SizesTrue (l : List Int) (s : SizesShown) : Prop :=
  s.number = l.length ∧ s.total = l.sum ∧
  (l = [] → s.mean = none ∧ s.median = none) ∧
  (l ≠ [] → ∃ m d, s.mean = some m ∧ s.median = some d ∧ IsShownMean m l ∧ IsShownMedian d l)

/-- A ratio in percent, or infinity if what is divided by is not positive. -/
def RatioTrue (a b : Int) (r : Option (Int × Int)) : Prop :=
  (b ≤ 0 → r = none) ∧ (0 < b → ∃ x y, r = some (x, y) ∧ 0 < y ∧ x * b = 100 * a * y)

/-- The lines about records tell the truth. -/
def RecordsTrue (i : RecordsInfo) (s : RecordsShown) : Prop :=
  SizesTrue i.diffSizes s.diffs ∧ SizesTrue i.extraSizes s.extras ∧
  RatioTrue i.diffSizes.sum i.extraSizes.sum s.diffExtraRatio ∧
  RatioTrue i.numberOfSizeBytes (i.diffSizes.sum + i.extraSizes.sum) s.sizeDataRatio

end Detools
