import Verif.Proofs.TrTandem
/-
trsort: `tr_introsort` sorts a range, at least by twice the depth.
-/
namespace Detools
namespace Dss

namespace Tr
open Sais

variable {w : List Nat} {h : Nat}

theorem works (U : LastUniq w) (hn : w.length < 2 ^ 32) (h0 : 0 < h) (t : Task) : Works w h t := by
  intro s x R hlen T hl
  have hd := T.depth U
  have W1 : ∀ t' : Task, (t.f.d < t'.f.d ∨ (t.f.d = t'.f.d ∧ t'.X.length < t.X.length)) → Works w h t' := fun t' ht => works U hn h0 t'
  have W2 : 0 ≤ t.f.limit → ∀ X', X'.Perm t.X → Works w h ⟨{ t.f with limit := -3 }, X', X'.length⟩ := fun hlim X' hp => works U hn h0 _
  have W3 : t.f.limit = -1 → ∀ t' : Task, t.f.d = t'.f.d → t'.X.length ≤ t.X.length → 0 ≤ t'.f.limit → Works w h t' := fun hlim t' h1 h2 h3 => works U hn h0 t'
  by_cases h1 : t.f.limit = -1
  · exact tandem_ok U hn h0 R hlen T hl h1 (W3 h1)
  · by_cases h3 : t.f.limit = -3
    · exact sorted_ok U hn h0 R hlen T hl h3 W1
    · have hlim : 0 ≤ t.f.limit := by
        have := T.lim
        omega
      by_cases h8 : t.f.last - t.f.first ≤ 8
      · exact ins_ok U R hlen T hl hlim h8 (W2 hlim)
      · by_cases hz : t.f.limit = 0
        · exact heap_ok U R hlen T hl hz h8 (W2 hlim)
        · exact pivot_ok U hn h0 R hlen T hl (by omega) h8 W1
termination_by (w.length - t.f.d, t.X.length, phase t)
decreasing_by
  · rcases ht with ht | ht
    · exact Prod.Lex.left _ _ (by omega)
    · rw [show w.length - t'.f.d = w.length - t.f.d by omega]
      exact Prod.Lex.right _ (Prod.Lex.left _ _ (by omega))
  · rw [hp.length_eq]
    refine Prod.Lex.right _ (Prod.Lex.right _ ?_)
    unfold phase
    rw [if_pos rfl, if_neg (by omega), if_neg (by omega)]
    omega
  · rw [show w.length - t'.f.d = w.length - t.f.d by omega]
    rcases Nat.lt_or_eq_of_le h2 with h2 | h2
    · exact Prod.Lex.right _ (Prod.Lex.left _ _ h2)
    · rw [h2]
      refine Prod.Lex.right _ (Prod.Lex.right _ ?_)
      unfold phase
      rw [if_neg (by omega), if_neg (by omega), if_neg (by omega), if_pos hlim]
      omega

/-- `tr_introsort` on a class of ranks. -/
theorem trIntrosort_ok (U : LastUniq w) (hn : w.length < 2 ^ 32) (h0 : 0 < h) {first last : Nat} {X : List Nat} {x : TrSt} (R : Ranks w h x.isa) (hlen : x.sa.length = w.length) (C : Cls w x.isa first last X)
    (hb : 1 < last - first) (hag : ∀ s s', s ∈ X → s' ∈ X → Ag w h s s') (hat : At x.sa first (X.map Int.ofNat)) :
    (3329021 < X.length ∧ trIntrosort h first last x = .error .stack) ∨ ∃ x' fl, trIntrosort h first last x = .ok x' ∧ Did w h [⟨⟨h, first, last, trIlg (last - first), -1⟩, X, 0⟩] x x' fl := by
  have hCl := C.len
  have hfit := C.fit
  have hpos := trIlg_nonneg (n := last - first) (by omega) (by omega)
  obtain ⟨k, hk, hr⟩ := works U hn h0 ⟨⟨h, first, last, trIlg (last - first), -1⟩, X, 0⟩ [] x R hlen (todo_plain C (decide_eq_true hb) hag (Nat.le_refl _) (by show -1 ≤ trIlg _; omega) (fun hl => by exfalso; have hl : trIlg (last - first) = -1 := hl; omega) hat)
    (fun h => by exfalso; have h : (0 : Int) ≤ -1 := h; omega)
  unfold trIntrosort
  have hc : cost w ⟨⟨h, first, last, trIlg (last - first), -1⟩, X, 0⟩ = 8 * (X.length * (w.length + 1 - h)) + 2 := cost_plain _ hpos
  have hle : X.length * (w.length + 1 - h) ≤ X.length * (w.length + 1) := Nat.mul_le_mul_left _ (by omega)
  rw [R.len, show last - first = X.length by omega]
  rw [show last - first = X.length by omega] at hr
  generalize hK : 8 * (X.length * (w.length + 1)) + 1 = K
  have e : K = k + (K - k) := by omega
  have hp : 0 < K - k := by omega
  rw [e]
  rcases hr with ⟨hf, he⟩ | ⟨x', fl, h1, D⟩
  · refine .inl ⟨lg3_full ?_, he _⟩
    have hpos' : 0 ≤ trIlg X.length := by rw [show X.length = last - first by omega]; exact hpos
    rw [need_plain hpos'] at hf
    simpa using hf
  · refine .inr ⟨x', fl, ?_, by rw [show X.length = last - first by omega]; rw [show X.length = last - first by omega] at D; exact D⟩
    rw [h1]
    have : mk fl (-1) [] = [] := by unfold mk; cases fl <;> rfl
    show trLoop h (K - k) none (mk fl (-1) []) x' = _
    rw [this]
    obtain ⟨m, hm⟩ : ∃ m, K - k = m + 1 := ⟨K - k - 1, by omega⟩
    rw [hm]
    rfl

end Tr

end Dss
end Detools
