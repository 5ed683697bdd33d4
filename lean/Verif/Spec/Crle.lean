import Verif.Model.PyStream
/-
The CRLE stream format: a sequence of segments. A scattered segment is a zero byte, a
size and that many bytes; a repeated segment is a one byte, a size and the byte to
repeat. Sizes are little endian groups of seven bits, most significant bit set on all
but the last.
-/
namespace Detools

/-- `CrleDec k inp out`: with `k` bytes of a scattered segment still to come, the rest
`inp` of a complete stream without empty segments decodes to `out`. -/
inductive CrleDec : Nat → Bytes → Bytes → Prop
  | done : CrleDec 0 [] []
  | lit {k b inp out} : CrleDec k inp out → CrleDec (k + 1) (b :: inp) (b :: out)
  | scattered {n inp rest out} : crleUnpackSize 0 0 inp = some (n, rest) → 0 < n →
      CrleDec n rest out → CrleDec 0 (0 :: inp) out
  | repeated {n b inp rest out} : crleUnpackSize 0 0 inp = some (n, b :: rest) → 0 < n →
      CrleDec 0 rest out → CrleDec 0 (1 :: inp) (List.replicate n b ++ out)

end Detools
