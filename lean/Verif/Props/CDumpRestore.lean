import Verif.Proofs.CDumpRestore
import Verif.Proofs.CDumpLzma
import Verif.Props.CBuilds
/-
C54: the program of c/examples/dump_restore/main.c, over all runs and interruptions.
`Applies`, `Interrupted`, `DumpReach` and `DumpDisk.offset` are in Spec/CDumpRestore.lean.
-/
namespace Detools

attribute [local instance] noLzma

/-- C54: after any runs and interruptions that leave a complete state.bin or none, one run
with the rest of the patch completes the update: the status is 0, the to-file is the new
image and state.bin is gone. Interruptions are those where the to-file holds what was
processed before the dump once state.bin is complete (see `C54_unsynced_interruption`). -/
theorem C54_completes [Build] (fr patch : Bytes) (n : Int) (out : Bytes) (ha : Applies fr patch n out) (d : DumpDisk)
    (hd : DumpReach true fr patch d) (hs : d.state ≠ some .short) (after : Nat) :
    d.offset < patch.length ∧ dumpRestoreMain fr patch (patch.length - d.offset) after d = .ok (0, { to := out, state := none }) :=
  run_last ha (reach_good ha hd) hs after

/-- C54: an incomplete state.bin makes the next run fail, which removes it, and the one after
that can apply the whole patch. -/
theorem C54_incomplete_state [Build] (fr patch : Bytes) (n : Int) (out : Bytes) (ha : Applies fr patch n out) (d : DumpDisk)
    (hs : d.state = some .short) (size after after' : Nat) :
    dumpRestoreMain fr patch size after d = .ok (1, { to := d.to, state := none }) ∧
    dumpRestoreMain fr patch patch.length after' { to := d.to, state := none } = .ok (0, { to := out, state := none }) := by
  have h := (run_last ha (d := { to := d.to, state := none }) (fun t h => by cases h) (fun h => by cases h) after').2
  refine ⟨?_, h⟩
  unfold dumpRestoreMain
  by_cases hne : patch = []
  · rw [if_pos hne]; rfl
  · rw [if_neg hne]
    have : tryRestore fr patch.length d = none := by unfold tryRestore; rw [hs]
    rw [this]
    rfl

/-- C54: what a run that ends means, whatever sizes it was given and whatever happened before.
With status 0 and no state.bin left, the to-file is the new image. With status 0 and a
state.bin, the next run begins behind what was processed, or at the begin if not even the
header was. With any other status, 1, there is no state.bin. -/
theorem C54_status [Build] (fr patch : Bytes) (n : Int) (out : Bytes) (ha : Applies fr patch n out) (d : DumpDisk)
    (hd : DumpReach true fr patch d) (size after status : Nat) (d' : DumpDisk)
    (hrun : dumpRestoreMain fr patch size after d = .ok (status, d')) :
    status = 0 ∧ d'.state = none ∧ d'.to = out ∧ d.offset + size = patch.length ∨
    status = 0 ∧ (∃ t, d'.state = some (.whole t)) ∧ d.offset + size < patch.length ∧
      (d'.offset = d.offset + size ∨ d'.offset = 0 ∧ d.offset = 0 ∧ size < 6) ∨
    status = 1 ∧ d'.state = none := by
  obtain ⟨_, _, h1, h2⟩ := run_good ha (reach_good ha hd) hrun
  by_cases h0 : status = 0
  · rcases h2 h0 with ⟨g1, g2, g3⟩ | ⟨g1, g2, g3⟩
    · exact .inl ⟨h0, g1, g2, g3⟩
    · exact .inr (.inl ⟨h0, g1, g2, g3⟩)
  · exact .inr (.inr (h1 h0))

/-- C54: a run that is given data inside the patch, at first at least 6 bytes, succeeds, and
the next one begins behind it; the bytes processed after the dump do not count. The to-file
is a prefix of the new image. -/
theorem C54_progress [Build] (fr patch : Bytes) (n : Int) (out : Bytes) (ha : Applies fr patch n out) (d : DumpDisk)
    (hd : DumpReach true fr patch d) (hs : d.state ≠ some .short) (size after : Nat) (h0 : 0 < size)
    (h1 : d.offset + size < patch.length) (h2 : 0 < after → d.offset + size + after ≤ patch.length) (h3 : 0 < d.offset ∨ 6 ≤ size) :
    ∃ d', dumpRestoreMain fr patch size after d = .ok (0, d') ∧ d'.offset = d.offset + size ∧ d'.to <+: out :=
  run_ok ha (reach_good ha hd) hs h0 h1 h2 h3

theorem dumpRestoreRuns_ok [Build] {fr patch : Bytes} {n : Int} {out : Bytes} (ha : Applies fr patch n out) :
    ∀ (sizes : List Nat) (d : DumpDisk), d.Good fr patch → d.state ≠ some .short → (∀ size ∈ sizes, 0 < size) →
      d.offset + sizes.sum = patch.length → (0 < d.offset ∨ ∃ size rest, sizes = size :: rest ∧ (6 ≤ size ∨ rest = [])) →
      dumpRestoreRuns fr patch sizes d = .ok (0, { to := out, state := none })
  | [], d, hg, hs, _, hsum, _ => by
    have := (run_last ha hg hs 0).1
    simp at hsum
    omega
  | size :: sizes, d, hg, hs, hpos, hsum, hfirst => by
    rw [List.sum_cons] at hsum
    unfold dumpRestoreRuns
    by_cases he : sizes = []
    · subst he
      have h := (run_last ha hg hs 0).2
      rw [show patch.length - d.offset = size by simp at hsum; omega] at h
      rw [h]
      rfl
    · have hp := hpos size (by simp)
      have hrest : 0 < sizes.sum := by
        cases sizes with
        | nil => exact absurd rfl he
        | cons a l => have := hpos a (by simp); rw [List.sum_cons]; omega
      obtain ⟨d', g1, g2, g3⟩ := run_ok ha hg hs (size := size) (after := 0) hp (by omega) (by omega) (by
        rcases hfirst with h | ⟨_, _, h1, h2⟩
        · exact .inl h
        · cases h1
          exact h2.imp id (fun h => absurd h he) |>.elim .inr False.elim)
      rw [g1]
      simp only [Bind.bind, Except.bind]
      rw [if_neg (by decide)]
      obtain ⟨k1, k2, _⟩ := run_good ha hg g1
      exact dumpRestoreRuns_ok ha sizes d' k1 k2 (fun s h => hpos s (by simp [h])) (by rw [g2]; omega) (.inl (by omega))

/-- C54: the patch divided over any number of runs, none of them empty and the first of at
least 6 bytes (or the only one): all succeed and the to-file is the new image, whatever it
was before. -/
theorem C54_runs [Build] (fr patch : Bytes) (n : Int) (out : Bytes) (ha : Applies fr patch n out) (to : Bytes) (first : Nat) (sizes : List Nat)
    (hpos : ∀ size ∈ sizes, 0 < size) (hfirst : 6 ≤ first ∨ 0 < first ∧ sizes = []) (hsum : first + sizes.sum = patch.length) :
    dumpRestoreRuns fr patch (first :: sizes) { to := to, state := none } = .ok (0, { to := out, state := none }) := by
  refine dumpRestoreRuns_ok ha _ _ (fun t h => by cases h) (fun h => by cases h) ?_ (by simpa [DumpDisk.offset] using hsum) (.inr ⟨_, _, rfl, ?_⟩)
  · intro size h
    rcases List.mem_cons.1 h with rfl | h
    · omega
    · exact hpos size h
  · exact hfirst.imp id And.right

/-- C54, patches compressed with LZMA: no state can be stored once the header was read, so
every run begins at the begin of the patch, and only a run with the whole patch completes
the update. -/
theorem C54_lzma [Build] (fr : Bytes) (b : UInt8) (t : Bytes) (hb : b.toNat % 16 = 1) (synced : Bool) (d : DumpDisk)
    (hd : DumpReach synced fr (b :: t) d) :
    d.offset = 0 ∧ ∀ size after d', dumpRestoreMain fr (b :: t) size after d = .ok (0, d') → d'.state = none → size = (b :: t).length := by
  have hb : b.toNat &&& 0xf = 1 := by rw [← hb]; exact Nat.and_two_pow_sub_one_eq_mod _ 4
  have h := reach_lzma hb hd
  refine ⟨?_, fun size after d' hr hs => (run_lzma hb h hr).2 rfl hs⟩
  unfold DumpDisk.offset
  cases hs : d.state with
  | none => rfl
  | some f =>
    cases f with
    | short => rfl
    | whole s => simp only [if_pos (h s hs)]

/-- An interrupted run of the example below: state.bin has been written, the two bytes of the
to-file processed before are still in the buffer of stdio. -/
def unsyncedDisk [Build] : DumpDisk :=
  match applyPatchProcess (fileEnv [1, 2, 3]) (applyPatchInit 10) { arg := {} } [0x00, 4, 0, 0x02, 1, 1, 2] with
  | .ok (_, s, _) => { to := [], state := some (.whole s) }
  | .error _ => {}

theorem exampleApplies : Applies [1, 2, 3] [0x00, 4, 0, 0x02, 1, 1, 2, 9, 9, 0] 4 [2, 3, 9, 9] := by
  refine ⟨by decide, by decide, .inl rfl, ?_, by decide, by decide⟩
  have h : (applyPieces (fileEnv [1, 2, 3]) 10 { arg := {} } [[0x00, 4, 0, 0x02, 1, 1, 2, 9, 9, 0]]).map (fun r => (r.1, r.2.2.arg.out)) =
      .ok (4, [2, 3, 9, 9]) := by decide +kernel
  unfold CAccepts
  show ∃ s w, applyPieces (fileEnv [1, 2, 3]) 10 { arg := {} } [[0x00, 4, 0, 0x02, 1, 1, 2, 9, 9, 0]] = .ok (4, s, w) ∧ _
  generalize applyPieces (fileEnv [1, 2, 3]) 10 { arg := {} } [[0x00, 4, 0, 0x02, 1, 1, 2, 9, 9, 0]] = r at h ⊢
  cases r with
  | error u => cases h
  | ok r =>
    obtain ⟨m, s, w⟩ := r
    simp only [Except.map, Except.ok.injEq, Prod.mk.injEq] at h
    exact ⟨s, w, by rw [h.1], by decide, h.2⟩

/-- C54, what does not hold: state.bin is written and closed before the to-file is flushed. If
the power is lost after that, and what was written to the to-file is not in it, a later run
that completes the update extends the to-file with zeros, and reports success although the
to-file is wrong. -/
theorem C54_unsynced_interruption : ∃ fr patch n out d to, Applies fr patch n out ∧ DumpReach false fr patch d ∧
    dumpRestoreMain fr patch (patch.length - d.offset) 0 d = .ok (0, { to := to, state := none }) ∧ to ≠ out := by
  refine ⟨[1, 2, 3], [0x00, 4, 0, 0x02, 1, 1, 2, 9, 9, 0], 4, [2, 3, 9, 9], unsyncedDisk, [0, 0, 9, 9], exampleApplies, ?_, by decide +kernel, by decide⟩
  refine .interrupted (size := 7) (.first []) ?_
  have h : (applyPatchProcess (fileEnv [1, 2, 3]) (applyPatchInit 10) { arg := {} } [0x00, 4, 0, 0x02, 1, 1, 2]).map
      (fun r => (r.1, decide (applyPatchDump r.2.1 = (0, r.2.1)))) = .ok (0, true) := by decide +kernel
  unfold unsyncedDisk
  generalize hr : applyPatchProcess (fileEnv [1, 2, 3]) (applyPatchInit 10) { arg := {} } [0x00, 4, 0, 0x02, 1, 1, 2] = r at h ⊢
  cases r with
  | error u => cases h
  | ok r =>
    obtain ⟨m, s, w⟩ := r
    simp only [Except.map, Except.ok.injEq, Prod.mk.injEq, decide_eq_true_eq] at h
    exact .stored (restored := false) (s := applyPatchInit 10) (w := { arg := {} }) rfl (by decide) hr (by omega) (by decide) h.2 (List.prefix_refl _)
      (fun h => by cases h)

-- Four runs, the second of them processing on after its dump, from a to-file of other data.
example : (do
    let (s1, d) ← dumpRestoreMain [1, 2, 3] [0x00, 4, 0, 0x02, 1, 1, 2, 9, 9, 0] 6 0 { to := [7, 7, 7, 7, 7, 7], state := none }
    let (s2, d) ← dumpRestoreMain [1, 2, 3] [0x00, 4, 0, 0x02, 1, 1, 2, 9, 9, 0] 2 1 d
    let to := d.to
    let (s3, d) ← dumpRestoreMain [1, 2, 3] [0x00, 4, 0, 0x02, 1, 1, 2, 9, 9, 0] 1 0 d
    let (s4, d) ← dumpRestoreMain [1, 2, 3] [0x00, 4, 0, 0x02, 1, 1, 2, 9, 9, 0] 1 0 d
    return ([s1, s2, s3, s4], to, d) : C _) = .ok ([0, 0, 0, 0], [2, 3, 9, 9], { to := [2, 3, 9, 9], state := none }) := by decide +kernel

-- An LZMA patch in two runs: the dump fails.
example : letI := copyBuild
    (do
      let (s1, d) ← dumpRestoreMain [1, 2, 3] [0x01, 4, 0, 0, 0] 2 0 {}
      return (s1, d) : C _) = .ok (1, {}) := by decide +kernel

-- Less than the header: the next run begins again.
example : ((dumpRestoreMain [1, 2, 3] [0x00, 4, 0, 0x02, 1, 1, 2, 9, 9, 0] 1 0 {}).map fun (s, d) => (s, d.to, d.offset)) = .ok (0, [], 0) := by
  decide +kernel

-- Too much data, or none: the state is lost.
example : dumpRestoreMain [1, 2, 3] [0x00, 4, 0, 0x02, 1, 1, 2, 9, 9, 0] 11 0 {} = .ok (1, {}) := by decide +kernel
example : dumpRestoreMain [1, 2, 3] [0x00, 4, 0, 0x02, 1, 1, 2, 9, 9, 0] 0 0 {} = .ok (1, {}) := by decide +kernel

end Detools
