import Verif.Proofs.HsDecodes
import Verif.Proofs.CAccept
import Verif.Proofs.PyCompression
/-
The sequential C API and heatshrink patches.
-/
namespace Detools

/-- Nothing of what is left over was needed. -/
theorem runTo_cut (fr : Bytes) : ∀ (y : Bytes) (a r : SeqA) (z : Bytes), runTo fr a (y ++ z) = some (r, z) → runTo fr a y = some (r, []) := by
  intro y
  induction y with
  | nil =>
    intro a r z h
    by_cases hd : a.phase = .done
    · rw [runTo_done hd] at h
      cases h
      exact runTo_done hd _
    · exfalso
      cases z with
      | nil => rw [List.nil_append, runTo_nil hd] at h; cases h
      | cons b z =>
        rw [List.nil_append, runTo_cons hd, ← eats_runTo] at h
        obtain ⟨y, hy⟩ := h.suffix
        have := congrArg List.length hy
        simp at this
        omega
  | cons b y ih =>
    intro a r z h
    by_cases hd : a.phase = .done
    · rw [runTo_done hd] at h
      have := congrArg (fun o => o.map (fun p => p.2.length)) h
      simp at this
      omega
    · rw [List.cons_append, runTo_cons hd] at h
      rw [runTo_cons hd]
      exact ih _ _ _ h

theorem hsExpand_length_le {w l : Nat} : ∀ {S : List HsSym} {hist : Bytes}, (∀ s ∈ S, s.Fits w l) →
    (hsExpand hist S).length ≤ 2 ^ l * (S.flatMap (·.bits w l)).length := by
  intro S
  induction S with
  | nil => intro hist _; simp [hsExpand]
  | cons s S ih =>
    intro hist h
    have h1 := ih (hist := hist ++ s.expand hist) (fun s hs => h s (by simp [hs]))
    have h2 := h s (by simp)
    have h3 : (s.expand hist).length ≤ 2 ^ l := by
      cases s with
      | literal b => exact Nat.one_le_two_pow
      | backref d c => rw [HsSym.expand, copyBack_length]; exact h2.2.2.2
    have h4 := s.bits_pos (w := w) (l := l)
    rw [hsExpand, List.length_append, List.flatMap_cons, List.length_append, Nat.mul_add]
    have := Nat.mul_le_mul_left (2 ^ l) (show 1 ≤ (s.bits w l).length from h4)
    omega

theorem HsParses.expand_lt {x : Bytes} {S : List HsSym} (h : HsParses 8 7 (bytesBits x) S) (hl : x.length < 2 ^ 50) :
    (hsExpand [] S).length < 2 ^ 62 := by
  obtain ⟨h1, t, h2, _⟩ := h
  have := hsExpand_length_le (hist := []) h1
  have h2 := congrArg List.length h2
  rw [List.length_append, bytesBits_length] at h2
  omega

/-- What may follow the header byte of a heatshrink patch. -/
def HsBody (fr : Bytes) (v : Nat) (rest out : Bytes) : Prop :=
  ∃ x S S1, rest = 0x44 :: x ∧ HsParses 8 7 (bytesBits x) S ∧ S1 <+: S ∧ CBodyMeans fr v (hsExpand [] S1) out []

theorem body_hs (fr : Bytes) (v : Nat) (hv : v < 2 ^ 27) (rest : Bytes) (hr : rest.length < 2 ^ 50) :
    (∀ res, Succ (seqSink fr) (.heatshrink none, none) (startA v) rest res → res.toSize = v ∧
      ((v = 0 ∧ res.out = []) ∨ (0 < v ∧ HsBody fr v rest res.out))) ∧
    (∀ out, ((v = 0 ∧ out = []) ∨ (0 < v ∧ HsBody fr v rest out)) →
      ∃ res, Succ (seqSink fr) (.heatshrink none, none) (startA v) rest res ∧ res.toSize = v ∧ res.out = out) := by
  by_cases h0 : v = 0
  · subst h0
    constructor
    · intro res h
      obtain ⟨rfl, _⟩ := (succ_done startA_zero).1 h
      exact ⟨rfl, .inl ⟨rfl, rfl⟩⟩
    · rintro out (⟨_, rfl⟩ | ⟨h, _⟩)
      · exact ⟨startA 0, (succ_done startA_zero).2 ⟨rfl, rfl⟩, rfl, rfl⟩
      · omega
  · have hnd : ¬ (seqSink fr).done (startA v) := by
      show (startA v).phase ≠ .done
      simp [startA, show 0 < v by omega]
    constructor
    · intro res h
      cases rest with
      | nil => exact absurd h (succ_nil hnd rfl)
      | cons b x =>
        obtain ⟨S, hS⟩ := hsParses_exists 8 7 _ (bytesBits x) (Nat.le_refl _)
        obtain ⟨rfl, z, S1, g1, g2, g3⟩ := (hs_reader (seqSink fr) hnd b x hS res).1 h
        have hlen := hS.expand_lt (by simp at hr; omega)
        have g1 := (eats_runTo fr _ _ _ _).1 g1
        rw [← g3] at g1
        have hl := (hsExpand_prefix g2).length_le
        obtain ⟨k1, k2⟩ := (runTo_body fr v (by omega) (by omega) _ (by omega) []).1 res (runTo_cut fr _ _ _ _ g1)
        exact ⟨k1, .inr ⟨by omega, x, S, S1, rfl, hS, g2, k2⟩⟩
    · rintro out (⟨h, _⟩ | ⟨_, x, S, S1, rfl, hS, hpre, hb⟩)
      · exact absurd h h0
      · have hlen := hS.expand_lt (by simp at hr; omega)
        obtain ⟨z, hz⟩ := hsExpand_prefix hpre
        have hb' := hb.append z
        rw [hz, List.nil_append] at hb'
        obtain ⟨r, g1, g2, g3⟩ := (runTo_body fr v (by omega) (by omega) _ hlen z).2 out hb'
        exact ⟨r, (hs_reader (seqSink fr) hnd 0x44 x hS r).2 ⟨rfl, z, S1, (eats_runTo fr _ _ _ _).2 g1, hpre, hz⟩, g3, g2⟩

end Detools
