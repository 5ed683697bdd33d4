import Verif.Model.DataFormat
import Verif.Proofs.Varint
/-
Blocks are read back as they were written.
-/
namespace Detools

/-- A value `pack_size` accepts. -/
def Packs (v : Int) : Prop := -2 ^ 63 < v ∧ v < 2 ^ 63

/-- All values of a block are accepted by `pack_size`. -/
structure Block.Packs (b : Block) : Prop where
  fromOffset : Detools.Packs b.fromOffset
  toAddress : Detools.Packs b.toAddress
  length : b.values.length < 2 ^ 63
  values : ∀ v ∈ b.values, Detools.Packs v

theorem pyPackSize_ok {v : Int} (h : Packs v) : pyPackSize v = .ok (packSize v) := by
  obtain ⟨h1, h2⟩ := h
  unfold pyPackSize
  rw [if_neg (by omega), if_neg (by omega)]

theorem packSizes_ok : ∀ (vs : List Int), (∀ v ∈ vs, Packs v) → packSizes vs = .ok (vs.flatMap packSize)
  | [], _ => rfl
  | v :: vs, h => by
    simp only [packSizes, pyPackSize_ok (h v (by simp)), packSizes_ok vs (fun w hw => h w (by simp [hw])), bind, Except.bind,
      pure, Except.pure, List.flatMap_cons]

theorem packSizes_length : ∀ (vs : List Int), (∀ v ∈ vs, Packs v) → (vs.flatMap packSize).length ≤ 10 * vs.length
  | [], _ => by simp
  | v :: vs, h => by
    have := packSizes_length vs (fun w hw => h w (by simp [hw]))
    have hv := h v (by simp)
    have := packSize_length_le v (by obtain ⟨h1, h2⟩ := hv; omega)
    simp only [List.flatMap_cons, List.length_append, List.length_cons]
    omega

theorem unpackValues_ok : ∀ (vs : List Int) (rest : Bytes), unpackValues vs.length (vs.flatMap packSize ++ rest) = .ok (vs, rest)
  | [], rest => rfl
  | v :: vs, rest => by
    simp only [List.length_cons, unpackValues, List.flatMap_cons, List.append_assoc, unpackSize_packSize, unpackValues_ok vs rest, bind,
      Except.bind, pure, Except.pure]

/-- What the header says of a block. -/
def Block.head (b : Block) : List Int := [b.fromOffset, b.toAddress, (b.values.length : Int)]

/-- The same, as read. -/
def Block.entry (b : Block) : Int × Int × Int := (b.fromOffset, b.toAddress, (b.values.length : Int))

theorem unpackHeaderLoop_ok : ∀ (bs : List Block) (rest : Bytes),
    unpackHeaderLoop bs.length ((bs.flatMap Block.head).flatMap packSize ++ rest) = .ok (bs.map Block.entry, rest)
  | [], rest => rfl
  | b :: bs, rest => by
    have := unpackHeaderLoop_ok bs rest
    simp only [List.length_cons, unpackHeaderLoop, List.flatMap_cons, Block.head, List.flatMap_append, List.flatMap_nil, List.append_nil,
      List.append_assoc, unpackSize_packSize, bind, Except.bind] at this ⊢
    rw [this]
    rfl

theorem blocksFromFpatch_ok : ∀ (bs : List Block) (rest : Bytes),
    blocksFromFpatch (bs.map Block.entry) ((bs.flatMap Block.values).flatMap packSize ++ rest) = .ok (bs, rest)
  | [], rest => rfl
  | b :: bs, rest => by
    simp only [List.map_cons, Block.entry, blocksFromFpatch, List.flatMap_cons, List.flatMap_append, List.append_assoc, Int.toNat_natCast,
      unpackValues_ok, bind, Except.bind]
    have := blocksFromFpatch_ok bs rest
    rw [this]
    rfl

/-- The header of blocks. -/
def headerBytes (bs : List Block) : Bytes := packSize bs.length ++ (bs.flatMap Block.head).flatMap packSize
/-- The data of blocks. -/
def dataBytes (bs : List Block) : Bytes := (bs.flatMap Block.values).flatMap packSize

theorem blocksToBytes_ok {bs : List Block} (hn : bs.length < 2 ^ 63) (h : ∀ b ∈ bs, b.Packs) :
    blocksToBytes bs = .ok (headerBytes bs, dataBytes bs) := by
  have h1 : packSizes ((bs.length : Int) :: bs.flatMap Block.head) = .ok (headerBytes bs) := by
    rw [packSizes_ok]
    · rfl
    · intro v hv
      rw [List.mem_cons] at hv
      rcases hv with rfl | hv
      · constructor <;> omega
      · obtain ⟨b, hb, hv⟩ := List.mem_flatMap.1 hv
        have := h b hb
        simp only [Block.head, List.mem_cons, List.not_mem_nil, or_false] at hv
        rcases hv with rfl | rfl | rfl
        · exact this.fromOffset
        · exact this.toAddress
        · have := this.length; constructor <;> omega
  have h2 : packSizes (bs.flatMap Block.values) = .ok (dataBytes bs) := by
    rw [packSizes_ok]
    · rfl
    · intro v hv
      obtain ⟨b, hb, hv⟩ := List.mem_flatMap.1 hv
      exact (h b hb).values v hv
  simp only [blocksToBytes, bind, Except.bind, pure, Except.pure]
  rw [show (fun b : Block => [b.fromOffset, b.toAddress, (b.values.length : Int)]) = Block.head from rfl, h1]
  simp only [h2]

theorem unpackBlocksHeader_ok (bs : List Block) (rest : Bytes) :
    unpackBlocksHeader (headerBytes bs ++ rest) = .ok (bs.map Block.entry, rest) := by
  simp only [unpackBlocksHeader, headerBytes, List.append_assoc, unpackSize_packSize, bind, Except.bind, Int.toNat_natCast]
  exact unpackHeaderLoop_ok bs rest

theorem headerBytes_ne_nil (bs : List Block) : headerBytes bs ≠ [] := by
  simp [headerBytes, packSize_ne_nil]

theorem blocks_length {bs : List Block} (hn : bs.length < 2 ^ 63) (h : ∀ b ∈ bs, b.Packs) :
    (headerBytes bs).length ≤ 10 + 30 * bs.length ∧ (dataBytes bs).length ≤ 10 * (bs.flatMap Block.values).length := by
  constructor
  · have h1 := packSize_length_le bs.length (by omega)
    have h2 := packSizes_length (bs.flatMap Block.head) (by
      intro v hv
      obtain ⟨b, hb, hv⟩ := List.mem_flatMap.1 hv
      have := h b hb
      simp only [Block.head, List.mem_cons, List.not_mem_nil, or_false] at hv
      rcases hv with rfl | rfl | rfl
      · exact this.fromOffset
      · exact this.toAddress
      · have := this.length; constructor <;> omega)
    have h3 : (bs.flatMap Block.head).length = 3 * bs.length := by
      clear h h1 h2 hn
      induction bs with
      | nil => rfl
      | cons b bs ih => simp only [List.flatMap_cons, List.length_append, ih, Block.head, List.length_cons, List.length_nil]; omega
    simp only [headerBytes, List.length_append]
    omega
  · refine packSizes_length _ ?_
    intro v hv
    obtain ⟨b, hb, hv⟩ := List.mem_flatMap.1 hv
    exact (h b hb).values v hv

end Detools
