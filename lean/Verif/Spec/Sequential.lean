import Verif.Model.PySequential
import Verif.Spec.Codec
/-
What the sequential round trip assumes of the libraries detools calls.
-/
namespace Detools

/-- All that patch creation needs of the suffix array: one entry per position plus
the empty suffix, each a position of the data. (A correct suffix array gives short
patches; correctness of the patch does not depend on the order of the entries.) -/
def SuffixArrayInRange (suffixArray : Bytes → List Nat) : Prop :=
  ∀ fr, (suffixArray fr).length = fr.length + 1 ∧ ∀ p ∈ suffixArray fr, p ≤ fr.length

/-- A data format is lossless on `fr`, `to`: encoding succeeds, preserves both
sizes, gives a non-empty patch, and the readers made from the original from-data and
the patch deliver the encoded from-data, and a diff that turns the encoded to-data
back into `to`. -/
def DataFormat.LosslessOn (f : DataFormat) (fr to : Bytes) : Prop :=
  ∃ fr' to' patch dfdiff, f.encode fr to = .ok (fr', to', patch) ∧
    fr'.length = fr.length ∧ to'.length = to.length ∧ patch ≠ [] ∧ patch.length < 2 ^ 62 ∧
    f.readers fr patch to.length = .ok (dfdiff, fr') ∧
    dfdiff.length = to.length ∧ List.zipWith (· + ·) to' dfdiff = to

/-- `apply_patch` knows how to read the data format, whatever it was created with. -/
def ReadsFormat (formats : Int → Option DataFormat) (f : DataFormat) : Prop :=
  ∃ g, formats f.number = some g ∧ g.readers = f.readers

end Detools
