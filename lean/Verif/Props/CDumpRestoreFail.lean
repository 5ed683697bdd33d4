import Verif.Props.CDumpRestore
import Verif.Proofs.CDumpRestoreFail
/-
C54 on a system on which the calls can fail. `DumpSystem.Honest` and `DumpReachFailing` are in
Spec/CDumpRestoreFail.lean.
-/
namespace Detools

/-- C54: whichever calls of a run fail, but `ftruncate`, it either ends with status 1 and has
removed state.bin, or it ends with status 0 and has done exactly what a run does in which none
fails. (If state.bin is there and cannot be opened, that is a run without it.) -/
theorem C54_failing_calls [Build] {fr patch : Bytes} {Y : DumpSystem κ} (hY : Y.Honest fr) (ht : Y.truncated = true) (size after : Nat) (d : DumpDisk)
    (status : Nat) (d' : DumpDisk) (h : dumpRestoreMainOn Y patch size after d = .ok (status, d')) :
    status = 1 ∧ d'.state = none ∨ status = 0 ∧ (dumpRestoreMain fr patch size after d = .ok (0, d') ∨
      Y.stateFound = false ∧ dumpRestoreMain fr patch size after { d with state := none } = .ok (0, d')) := by
  refine (dumpRestoreMainOn_sim hY.sim ht h).imp id (fun k => ⟨k.1, ?_⟩)
  have k := k.2
  unfold DumpSystem.found at k
  cases hf : Y.stateFound with
  | true => rw [hf] at k; exact .inl k
  | false => rw [hf] at k; exact .inr ⟨rfl, k⟩

/-- C54: no other files are met than without failing calls. -/
theorem C54_failing_reach [Build] {fr patch : Bytes} {d : DumpDisk} (h : DumpReachFailing fr patch d) : DumpReach true fr patch d := by
  induction h with
  | first to => exact .first to
  | interrupted _ hi ih => exact .interrupted ih hi
  | @ran κ Y d size after status d' _ hY ht hr ih =>
    rcases C54_failing_calls hY ht size after d status d' hr with ⟨_, k⟩ | ⟨_, k | ⟨_, k⟩⟩
    · obtain ⟨to, st⟩ := d'
      simp only at k
      subst k
      exact .first to
    · exact .ran ih k
    · exact .ran (.first d.to) k

/-- C54: after any runs, with calls that fail in them, and any interruptions, that leave a complete
state.bin or none, one run with the rest of the patch in which no call fails completes the
update. -/
theorem C54_completes_after_failures [Build] (fr patch : Bytes) (n : Int) (out : Bytes) (ha : Applies fr patch n out) (d : DumpDisk)
    (hd : DumpReachFailing fr patch d) (hs : d.state ≠ some .short) (after : Nat) :
    d.offset < patch.length ∧ dumpRestoreMain fr patch (patch.length - d.offset) after d = .ok (0, { to := out, state := none }) :=
  C54_completes fr patch n out ha d (C54_failing_reach hd) hs after

/-- C54: and a run with failing calls that ends with status 0 and leaves no state.bin has made the
new image. -/
theorem C54_failing_output [Build] (fr patch : Bytes) (n : Int) (out : Bytes) (ha : Applies fr patch n out) (d : DumpDisk)
    (hd : DumpReachFailing fr patch d) {Y : DumpSystem κ} (hY : Y.Honest fr) (ht : Y.truncated = true) (size after : Nat) (d' : DumpDisk)
    (h : dumpRestoreMainOn Y patch size after d = .ok (0, d')) (hn : d'.state = none) : d'.to = out := by
  have key (e : DumpDisk) (he : DumpReach true fr patch e) (k : dumpRestoreMain fr patch size after e = .ok (0, d')) : d'.to = out := by
    rcases C54_status fr patch n out ha e he size after 0 d' k with ⟨_, _, g, _⟩ | ⟨_, ⟨t, g⟩, _⟩ | ⟨g, _⟩
    · exact g
    · rw [hn] at g; cases g
    · cases g
  rcases C54_failing_calls hY ht size after d 0 d' h with ⟨k, _⟩ | ⟨_, k | ⟨_, k⟩⟩
  · cases k
  · exact key d (C54_failing_reach hd) k
  · exact key _ (.first d.to) k

/-- C54: after any runs, with calls that fail in them, and any interruptions, that leave a complete
state.bin or none, one run with the rest of the patch completes the update on every system on which
no call fails then that need not. -/
theorem C54_completes_on [Build] (fr patch : Bytes) (n : Int) (out : Bytes) (ha : Applies fr patch n out) (d : DumpDisk)
    (hd : DumpReachFailing fr patch d) (hs : d.state ≠ some .short) {Y : DumpSystem κ} (hY : Y.Works fr) (after : Nat) :
    dumpRestoreMainOn Y patch (patch.length - d.offset) after d = .ok (0, { to := out, state := none }) :=
  dumpRestoreMainOn_works hY (C54_completes_after_failures fr patch n out ha d hd hs after).2

attribute [local instance] noLzma

/-- Callbacks on the from-file, of which the calls with the given numbers fail. -/
def exampleDumpSystem (fr : Bytes) (fails : List Nat) : DumpSystem Nat where
  env :=
    { fromRead := fun f n => if f.2 ∈ fails then (-1, [], (f.1, f.2 + 1)) else
        let (r, d, g) := (fileEnv fr).fromRead f.1 n; (r, d, (g, f.2 + 1))
      fromSeek := fun f off => if f.2 ∈ fails then (-1, (f.1, f.2 + 1)) else
        let (r, g) := (fileEnv fr).fromSeek f.1 off; (r, (g, f.2 + 1))
      toWrite := fun f d => if f.2 ∈ fails then (-1, (f.1, f.2 + 1)) else
        let (r, g) := (fileEnv fr).toWrite f.1 d; (r, (g, f.2 + 1)) }
  start := 0

theorem exampleDumpSystem_honest (fr : Bytes) (fails : List Nat) : (exampleDumpSystem fr fails).Honest fr where
  read f k n h := by
    by_cases hk : k ∈ fails
    · simp [exampleDumpSystem, hk] at h
    · by_cases hc : n = 0 ∨ f.pos + n ≤ fr.length
      · simp only [exampleDumpSystem, if_neg hk, fileEnv, if_pos hc]
        exact ⟨hc, trivial, trivial⟩
      · simp only [exampleDumpSystem, if_neg hk, fileEnv, if_neg hc] at h
        exact absurd h (by decide)
  seek f k off h := by
    by_cases hk : k ∈ fails
    · simp [exampleDumpSystem, hk] at h
    · by_cases hc : f.pos + off < 0
      · simp only [exampleDumpSystem, if_neg hk, fileEnv, if_pos hc] at h
        exact absurd h (by decide)
      · simp only [exampleDumpSystem, if_neg hk, fileEnv, if_neg hc]
        exact ⟨by omega, trivial⟩
  write f k d h := by
    by_cases hk : k ∈ fails
    · simp [exampleDumpSystem, hk] at h
    · simp only [exampleDumpSystem, if_neg hk, fileEnv]

theorem exampleDumpSystem_works (fr : Bytes) : (exampleDumpSystem fr []).Works fr where
  toHonest := exampleDumpSystem_honest fr []
  reads f k n h := by simp [exampleDumpSystem, fileEnv, h]
  seeks f k off h := by
    have h : ¬ f.pos + off < 0 := by omega
    simp [exampleDumpSystem, fileEnv, h]
  writes f k d := by simp [exampleDumpSystem, fileEnv]
  opened := rfl
  stateFound := rfl
  stateRead := rfl
  truncated := rfl
  patchRead := rfl
  patchReadAfter := rfl
  stateOpened := rfl
  stateWritten := rfl

-- No call fails; then one of the callbacks does; then malloc.
example : dumpRestoreMainOn (exampleDumpSystem [1, 2, 3] []) [0x00, 4, 0, 0x02, 1, 1, 2, 9, 9, 0] 10 0 { to := [7, 7] } =
    .ok (0, { to := [2, 3, 9, 9], state := none }) := by decide +kernel
example : (List.range 4).map (fun k => dumpRestoreMainOn (exampleDumpSystem [1, 2, 3] [k]) [0x00, 4, 0, 0x02, 1, 1, 2, 9, 9, 0] 10 0 { to := [7, 7] }) =
    [.ok (1, { to := [], state := none }), .ok (1, { to := [], state := none }), .ok (1, { to := [2, 3], state := none }),
      .ok (1, { to := [2, 3, 9, 9], state := none })] := by decide +kernel
example : dumpRestoreMainOn { exampleDumpSystem [1, 2, 3] [] with patchRead := false } [0x00, 4, 0, 0x02, 1, 1, 2, 9, 9, 0] 10 0 { to := [7, 7] } =
    .ok (1, { to := [], state := none }) := by decide +kernel

/-- C54, what does not hold: that `ftruncate` failed is not noticed. What the to-file held stays
before the new image, and the status is 0. -/
theorem C54_truncate_failure : dumpRestoreMainOn { exampleDumpSystem [1, 2, 3] [] with truncated := false }
    [0x00, 4, 0, 0x02, 1, 1, 2, 9, 9, 0] 10 0 { to := [7, 7] } = .ok (0, { to := [7, 7, 2, 3, 9, 9], state := none }) := by decide +kernel

end Detools
