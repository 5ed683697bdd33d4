import Verif.Model.Heatshrink
/-
The heatshrink format, and programs that use a decoder.
-/
namespace Detools

/-- The low `width` bits of a number, most significant first. -/
def numBits : (width : Nat) → Nat → List Bool
  | 0, _ => []
  | width + 1, v => v.testBit width :: numBits width v

/-- The bits of bytes, most significant bit of each byte first. -/
def bytesBits (x : Bytes) : List Bool := x.flatMap (fun b => numBits 8 b.toNat)

/-- A symbol: a literal byte, or `count` bytes copied from `distance` bytes back. -/
inductive HsSym where
  | literal (b : UInt8)
  | backref (distance count : Nat)
deriving DecidableEq

/-- A symbol as bits, for a window of `2 ^ w` and counts up to `2 ^ l`: a tag bit, then
the byte, or distance and count, each less one. -/
def HsSym.bits (w l : Nat) : HsSym → List Bool
  | .literal b => true :: numBits 8 b.toNat
  | .backref distance count => false :: (numBits w (distance - 1) ++ numBits l (count - 1))

/-- The symbol has a representation. -/
def HsSym.Fits (w l : Nat) : HsSym → Prop
  | .literal _ => True
  | .backref distance count => 1 ≤ distance ∧ distance ≤ 2 ^ w ∧ 1 ≤ count ∧ count ≤ 2 ^ l

/-- The byte `distance` bytes back; zero before the beginning. -/
def lookback (hist : Bytes) (distance : Nat) : UInt8 :=
  if distance ≤ hist.length then hist.getD (hist.length - distance) 0 else 0

/-- Copy `count` bytes from `distance` back, one by one: they may overlap. -/
def copyBack (hist : Bytes) (distance : Nat) : (count : Nat) → Bytes
  | 0 => []
  | count + 1 => lookback hist distance :: copyBack (hist ++ [lookback hist distance]) distance count

/-- The bytes a symbol stands for, after `hist`. -/
def HsSym.expand (hist : Bytes) : HsSym → Bytes
  | .literal b => [b]
  | .backref distance count => copyBack hist distance count

/-- The bytes symbols stand for, after `hist`. -/
def hsExpand (hist : Bytes) : List HsSym → Bytes
  | [] => []
  | s :: syms => s.expand hist ++ hsExpand (hist ++ s.expand hist) syms

/-- No symbol is at the beginning of these bits. -/
def HsIncomplete (w l : Nat) (tail : List Bool) : Prop :=
  ∀ (s : HsSym) (rest : List Bool), s.Fits w l → tail ≠ s.bits w l ++ rest

/-- The bits are these symbols, followed by too few bits for another one. -/
def HsParses (w l : Nat) (bits : List Bool) (syms : List HsSym) : Prop :=
  (∀ s ∈ syms, s.Fits w l) ∧ ∃ tail, bits = syms.flatMap (·.bits w l) ++ tail ∧ HsIncomplete w l tail

/-- `x` is a heatshrink encoding of `data`: the last byte is padded. -/
def HsEncodes (w l : Nat) (x data : Bytes) : Prop :=
  ∃ syms pad, (∀ s ∈ syms, s.Fits w l) ∧ bytesBits x = syms.flatMap (·.bits w l) ++ pad ∧ pad.length < 8 ∧
    hsExpand [] syms = data

/-- Supported configurations: those `heatshrink_decoder_alloc` accepts
(c/heatshrink/heatshrink_decoder.c:48-57), with an input buffer whose size fits in the
16 bits of the type. -/
structure HsCfg.Ok (cfg : HsCfg) : Prop where
  w4 : 4 ≤ cfg.window
  w15 : cfg.window ≤ 15
  l3 : 3 ≤ cfg.lookahead
  lw : cfg.lookahead < cfg.window
  i1 : 1 ≤ cfg.inputSize
  i16 : cfg.inputSize < 2 ^ 16

/-- A call of the decoder: offer bytes, or ask for up to `n` bytes of output. -/
inductive HsOp where
  | sink (data : Bytes)
  | poll (n : Nat)

/-- Calls of a decoder, with the bytes it took and the bytes it output. -/
def hsRun (cfg : HsCfg) : Hsd → List HsOp → C (Hsd × Bytes × Bytes)
  | h, [] => .ok (h, [], [])
  | h, .sink data :: ops => do
    let (n, h) ← hsSink cfg h data
    let (h, fed, out) ← hsRun cfg h ops
    return (h, data.take n ++ fed, out)
  | h, .poll n :: ops => do
    let (h, d) ← hsPoll cfg h n
    let (h, fed, out) ← hsRun cfg h ops
    return (h, fed, d ++ out)

end Detools
