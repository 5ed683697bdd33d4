import Verif.Spec.Containers
/-
What a BSDIFF40 patch means, stated without reference to how it is applied.
-/
namespace Detools

/-- What `apply_patch_bsdiff` needs of bz2 when a stream is shorter than the control data
says: what is left is delivered; when nothing is left, asking for more is an error. -/
structure WholeStream.Ends {C : PyCodec} (S : WholeStream C) : Prop where
  short : ∀ {st out n}, S.owes st out → out ≠ [] → out.length < n → ∃ st', C.decomp.decompress st [] n = .ok (st', out) ∧ S.owes st' []
  ended : ∀ {st n}, S.owes st [] → 0 < n → ∃ e, e ≠ .timeout ∧ C.decomp.decompress st [] n = .error e

/-- Eight bytes are an integer: the magnitude, least significant byte first, without the last
bit, which is the sign. -/
def IsOff8 (a : Bytes) (v : Int) : Prop :=
  a.length = 8 ∧ v = if leValue a < 2 ^ 63 then (leValue a : Int) else -((leValue a : Int) - 2 ^ 63)

/-- `Takes n s p rest`: `p` is what is read of the stream `s` when `n` bytes are wanted. At the
end of the stream it is less, but it is not nothing. -/
def Takes (n : Int) (s p rest : Bytes) : Prop :=
  s = p ++ rest ∧ ((n ≤ 0 ∧ p = []) ∨ (p ≠ [] ∧ (p.length = n ∨ (p.length < n ∧ rest = []))))

/-- `Bs40 clamp fr left pos ctrl diff extra out`: with `left` bytes of to-data missing and at
position `pos` of the from-data, the three streams are used up exactly by records that give
`out`. -/
inductive Bs40 (clamp : Bool) (fr : Bytes) : (left : Int) → (pos : Nat) → (ctrl diff extra out : Bytes) → Prop
  | done {left : Int} {pos : Nat} : left ≤ 0 → Bs40 clamp fr left pos [] [] [] []
  | record {left d e adj : Int} {pos : Nat} {a b c ctrl diff dd diff' extra ee extra' out : Bytes} : 0 < left →
      IsOff8 a d → IsOff8 b e → IsOff8 c adj →
      d ≤ left → Takes d diff dd diff' → dd.length = ((fr.drop pos).take d.toNat).length →
      d.toNat + e ≤ left → Takes e extra ee extra' →
      (0 ≤ (pos : Int) + dd.length + adj ∨ clamp = true) →
      Bs40 clamp fr (left - d.toNat - e.toNat) ((pos : Int) + dd.length + adj).toNat ctrl diff' extra' out →
      Bs40 clamp fr left pos (a ++ b ++ c ++ ctrl) diff extra (List.zipWith (· + ·) dd (fr.drop pos) ++ ee ++ out)

end Detools
