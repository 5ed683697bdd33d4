import Verif.Model.CInPlaceFiles
import Verif.Proofs.CEnvSim
import Verif.Props.CInPlaceSafety
/-
The callbacks on the memory file against those of a device.
-/
namespace Detools

variable [Build]

/-- A process all of whose pieces succeed, as a history of calls. -/
theorem runCalls_all {E : MemEnv σ} : ∀ (ps : List Bytes) (s : InPlace) (w : MWorld σ) {s' w'},
    inPlaceProcessAll E s w ps = .ok (0, s', w') → ∃ rs, runInPlaceCalls E s w (ps.map .process) = .ok (rs, s', w') := by
  intro ps
  induction ps with
  | nil => intro s w s' w' h; cases h; exact ⟨[], rfl⟩
  | cons p ps ih =>
    intro s w s' w' h
    unfold inPlaceProcessAll at h
    cases hp : inPlaceProcess E s w p with
    | error u => rw [hp] at h; cases h
    | ok x =>
      obtain ⟨r, s1, w1⟩ := x
      rw [hp] at h
      simp only [Bind.bind, Except.bind] at h
      by_cases hr : r ≠ 0
      · rw [if_pos hr] at h
        cases h
        exact absurd rfl hr
      · rw [if_neg hr] at h
        obtain ⟨rs, e⟩ := ih s1 w1 h
        refine ⟨r :: rs, ?_⟩
        simp only [List.map_cons, runInPlaceCalls, hp, Bind.bind, Except.bind, e]

omit [Build] in
theorem flash_returns {P : Power} {steps : Bool} {res : Int} (h : (flashEnv P steps).Returns res) : res = 0 ∨ res = -1 := by
  rcases h with ⟨a, addr, n, e⟩ | ⟨a, addr, d, e⟩ | ⟨a, addr, n, e⟩
  · rw [← e]; simp only [flashEnv, flashRead]; repeat' split
    all_goals simp
  · rw [← e]; simp only [flashEnv, flashWrite]; repeat' split
    all_goals simp
  · rw [← e]; simp only [flashEnv, flashErase]; repeat' split
    all_goals simp


omit [Build] in
theorem wrapInt_int {n : Nat} (h : n < 2 ^ 31) : wrapInt n = n := by
  unfold wrapInt
  rw [Int.emod_eq_of_lt] <;> omega

omit [Build] in
theorem fileWrite_front {m t d : Bytes} {pos : Nat} (h : pos + d.length ≤ m.length) :
    fileWrite (m ++ t) pos d = fileWrite m pos d ++ t := by
  unfold fileWrite
  split
  · rfl
  · have h1 : (m ++ t).take pos = m.take pos := List.take_append_of_le_length (by omega)
    have h2 : (m ++ t).drop (pos + d.length) = m.drop (pos + d.length) ++ t := List.drop_append_of_le_length h
    have h3 : pos - (m ++ t).length = 0 := by rw [List.length_append]; omega
    have h4 : pos - m.length = 0 := by omega
    rw [h1, h2, h3, h4]
    simp

omit [Build] in
theorem fileWrite_same {m : Bytes} {pos n : Nat} : fileWrite m pos ((m.drop pos).take n) = m := by
  unfold fileWrite
  split
  · rfl
  · rename_i h
    have hp : pos < m.length := by
      rcases Nat.lt_or_ge pos m.length with h' | h'
      · exact h'
      · rw [List.drop_eq_nil_of_le h', List.take_nil] at h; exact absurd rfl h
    have h4 : pos - m.length = 0 := by omega
    rw [h4, List.length_take, List.length_drop]
    rcases Nat.le_total n (m.length - pos) with hn | hn
    · rw [Nat.min_eq_left hn, ← List.drop_drop, List.replicate_zero, List.append_nil, List.append_assoc, List.take_append_drop, List.take_append_drop]
    · rw [Nat.min_eq_right hn, List.take_of_length_le (l := m.drop pos) (by rw [List.length_drop]; omega), show pos + (m.length - pos) = m.length from by omega,
        List.drop_length, List.replicate_zero, List.append_nil, List.append_nil, List.take_append_drop]

omit [Build] in
theorem fileWrite_len {m d : Bytes} {pos : Nat} (h : pos + d.length ≤ m.length) : (fileWrite m pos d).length = m.length := by
  unfold fileWrite
  split
  · rfl
  · simp only [List.length_append, List.length_take, List.length_replicate, List.length_drop]
    omega

omit [Build] in
theorem keep_bytes (op : Nat) (old : Bytes) : Power.bytes { junk := fun _ _ b => b } op old = old := by
  unfold Power.bytes
  apply List.ext_getElem
  · simp
  · intro i _ _; simp

omit [Build] in
theorem keep_read (f : Flash) (addr n : Nat) : flashRead { junk := fun _ _ b => b } f addr n =
    if f.mem.length < addr + n then (-1, [], f) else (0, (f.mem.drop addr).take n, f) := by
  unfold flashRead
  simp only [Power.lost, Bool.false_eq_true, false_or]

omit [Build] in
theorem keep_write (f : Flash) (addr : Nat) (d : Bytes) : flashWrite { junk := fun _ _ b => b } f addr d =
    if f.mem.length < addr + d.length then (-1, f) else (0, { f with mem := fileWrite f.mem addr d, ops := f.ops + 1 }) := by
  unfold flashWrite
  simp only [Power.lost, Bool.false_eq_true, false_or, reduceCtorEq, if_false]

omit [Build] in
theorem keep_erase (f : Flash) (addr n : Nat) : flashErase { junk := fun _ _ b => b } f addr n =
    if f.mem.length < addr + n then (-1, f) else (0, { f with ops := f.ops + 1 }) := by
  unfold flashErase
  simp only [Power.lost, Bool.false_eq_true, false_or, reduceCtorEq, if_false, keep_bytes, fileWrite_same]

theorem all_neg {E : MemEnv σ} (hE : ∀ res, E.Returns res → res ≤ 0) : ∀ (ps : List Bytes) (s : InPlace) (w : MWorld σ) {r s' w'},
    IPState s → inPlaceProcessAll E s w ps = .ok (r, s', w') → r ≤ 0 := by
  intro ps
  induction ps with
  | nil => intro s w r s' w' _ h; cases h; decide
  | cons p ps ih =>
    intro s w r s' w' hs h
    unfold inPlaceProcessAll at h
    cases hp : inPlaceProcess E s w p with
    | error u => rw [hp] at h; cases h
    | ok x =>
      obtain ⟨r1, s1, w1⟩ := x
      obtain ⟨h1, h2⟩ := ip_process_failed hE hs w p hp
      rw [hp] at h
      simp only [Bind.bind, Except.bind] at h
      by_cases hr : r1 ≠ 0
      · rw [if_pos hr] at h
        cases h
        have := (h2 hr).2
        omega
      · rw [if_neg hr] at h
        exact ih _ _ h1 h

/-- The step callbacks do what those of a device do. -/
def StepsMatch (b : Bool) (steps : Steps υ) (rel : Int → υ → Prop) : Prop :=
  (b = false ∧ steps.set = none ∧ steps.get = none) ∨
  (b = true ∧ (∃ g, steps.set = some g ∧ ∀ n u, ∃ u', g u n = (0, u') ∧ rel n u') ∧
    ∃ g, steps.get = some g ∧ ∀ n u, rel n u → g u = (0, n, u))

omit [Build] in
theorem file_sim {memory : Nat} (hm : memory < 2 ^ 31) (tail : Bytes) {b : Bool} {steps : Steps υ} {rel : Int → υ → Prop}
    (hs : StepsMatch b steps rel) :
    EnvSim (fun (f : Flash) (g : Bytes × υ) => g.1 = f.mem ++ tail ∧ f.mem.length = memory ∧ (b = true → rel f.step g.2))
      (flashEnv { junk := fun _ _ b => b } b) (memFileEnv steps) where
  read := by
    rintro ⟨mem, step, ops⟩ ⟨file, u⟩ addr n r d a' ⟨h1, h2, h3⟩ e hr
    simp only at h1 h2 h3
    change flashRead _ _ _ _ = _ at e
    rw [keep_read] at e
    simp only at e
    by_cases hb : mem.length < addr + n
    · rw [if_pos hb] at e
      cases e
      exact absurd hr (by decide)
    · rw [if_neg hb] at e
      cases e
      refine ⟨(file, u), ?_, h1, h2, h3⟩
      simp only [memFileEnv, memFileRead]
      by_cases hn : n = 0
      · subst hn; rw [if_pos rfl]; simp
      · rw [if_neg hn, wrapInt_int (by omega), if_neg (by omega), h1, Int.toNat_natCast,
          if_pos (by rw [List.length_append]; omega), List.drop_append_of_le_length (by omega),
          List.take_append_of_le_length (by rw [List.length_drop]; omega)]
  write := by
    rintro ⟨mem, step, ops⟩ ⟨file, u⟩ addr d r a' ⟨h1, h2, h3⟩ e hr
    simp only at h1 h2 h3
    change flashWrite _ _ _ _ = _ at e
    rw [keep_write] at e
    simp only at e
    by_cases hb : mem.length < addr + d.length
    · rw [if_pos hb] at e
      cases e
      exact absurd hr (by decide)
    · rw [if_neg hb] at e
      cases e
      simp only [memFileEnv, memFileWrite]
      by_cases hn : d.length = 0
      · rw [if_pos hn]
        have : d = [] := List.length_eq_zero_iff.1 hn
        subst this
        exact ⟨_, rfl, by simpa [fileWrite] using h1, by simpa [fileWrite] using h2, h3⟩
      · rw [if_neg hn, wrapInt_int (by omega), if_neg (by omega), h1, Int.toNat_natCast,
          fileWrite_front (by omega)]
        exact ⟨_, rfl, rfl, by rw [← h2]; exact fileWrite_len (by omega), h3⟩
  erase := by
    rintro ⟨mem, step, ops⟩ ⟨file, u⟩ addr n r a' ⟨h1, h2, h3⟩ e hr
    simp only at h1 h2 h3
    change flashErase _ _ _ _ = _ at e
    rw [keep_erase] at e
    simp only at e
    by_cases hb : mem.length < addr + n
    · rw [if_pos hb] at e
      cases e
      exact absurd hr (by decide)
    · rw [if_neg hb] at e
      cases e
      exact ⟨_, rfl, h1, h2, h3⟩
  set := by
    rcases hs with ⟨rfl, h1, h2⟩ | ⟨rfl, ⟨g, h1, h2⟩, _⟩
    · exact .inl ⟨rfl, by simp only [memFileEnv, h1, Option.map_none]⟩
    · refine .inr ⟨_, _, rfl, by simp only [memFileEnv, h1, Option.map_some]; rfl, ?_⟩
      rintro ⟨mem, st, ops⟩ ⟨file, u⟩ step a' ⟨k1, k2, k3⟩ e
      simp only [flashStepSet, Power.lost, Bool.false_eq_true, if_false, reduceCtorEq] at e
      cases e
      obtain ⟨u', q1, q2⟩ := h2 step u
      simp only [q1]
      exact ⟨_, rfl, k1, k2, fun _ => q2⟩
  get := by
    rcases hs with ⟨rfl, h1, h2⟩ | ⟨rfl, _, ⟨g, h1, h2⟩⟩
    · exact .inl ⟨rfl, by simp only [memFileEnv, h2, Option.map_none]⟩
    · refine .inr ⟨_, _, rfl, by simp only [memFileEnv, h1, Option.map_some]; rfl, ?_⟩
      rintro ⟨mem, st, ops⟩ ⟨file, u⟩ step a' ⟨k1, k2, k3⟩ e
      simp only [flashStepGet, Power.lost, Bool.false_eq_true, if_false] at e
      cases e
      simp only [h2 _ _ (k3 rfl)]
      exact ⟨_, rfl, k1, k2, fun _ => k3 rfl⟩

omit [Build] in
theorem memFile_returns {steps : Steps υ} {res : Int} (h : (memFileEnv steps).Returns res) : res ≤ 0 := by
  rcases h with ⟨a, addr, n, e⟩ | ⟨a, addr, d, e⟩ | ⟨a, addr, n, e⟩
  · rw [← e]; simp only [memFileEnv, memFileRead]; repeat' split
    all_goals simp [FILE_SEEK_FAILED, FILE_READ_FAILED]
  · rw [← e]; simp only [memFileEnv, memFileWrite]; repeat' split
    all_goals simp [FILE_SEEK_FAILED]
  · rw [← e]; simp [memFileEnv]

theorem filenames_created {lib : Lib} (hsa : SuffixArrayInRange lib.suffixArray) {c : Compression} {memory seg : Nat} {minShift : Option Nat}
    {fr to patch : Bytes} (h : DevicePatch lib c memory seg minShift fr to patch) (os : IpOs) (file : Bytes)
    (hmem : os.memory = some file) (hlen : memory ≤ file.length) (hfr : fr.length ≤ memory) (hpre : fr <+: file)
    (hpatch : os.patch = some patch) (hseek : os.seeks = true) (hclose : to = [] → inPlaceFileIoCleanup os = 0)
    {b : Bool} {steps : Steps υ} {rel : Int → υ → Prop} (hs : StepsMatch b steps rel) (u : υ) (hu : b = true → rel 0 u) :
    ∃ file' u', applyPatchInPlaceFilenames os steps u = .ok (to.length, some file', u') ∧
      to <+: file' ∧ file'.length = file.length ∧ file'.drop memory = file.drop memory ∧ (to ≠ [] → b = true → rel 0 u') := by
  have hsmall := h.small
  let f : Flash := { mem := file.take memory }
  have hf : Fresh memory fr f :=
    { len := by show (file.take memory).length = _; rw [List.length_take]; omega
      mem := by
        show fr <+: file.take memory
        exact List.prefix_take_iff.2 ⟨hpre, hfr⟩
      step := rfl }
  have hflat := parts512_flatten _ patch (Nat.le_refl _)
  have hw := wholeHeader_parts hsa h hf
  obtain ⟨s, w, h1, h2, h3, h4⟩ := C19_c_in_place_roundtrip hsa h f hf { junk := fun _ _ b => b } rfl b (parts512 patch) hflat hw
  -- No callback failed.
  have hall : AllOk w := by
    have h1' := h1
    unfold inPlacePieces at h1'
    cases hp : inPlaceProcessAll (flashEnv { junk := fun _ _ b => b } b) (inPlaceInit patch.length) (powerOn f) (parts512 patch) with
    | error e => rw [hp] at h1'; cases h1'
    | ok x =>
      obtain ⟨r, s1, w1⟩ := x
      rw [hp] at h1'
      simp only [Bind.bind, Except.bind] at h1'
      by_cases hr : r ≠ 0
      · rw [if_pos hr] at h1'
        cases h1'
        have := all_neg (fun res hres => by rcases flash_returns hres with rfl | rfl <;> decide) _ _ _ (IPState.start patch.length) hp
        omega
      · rw [if_neg hr] at h1'
        rw [Decidable.not_not.1 hr] at hp
        obtain ⟨rs, hrs⟩ := runCalls_all _ _ _ hp
        exact (C42_success _ (fun res hres => by
          rcases flash_returns hres with rfl | rfl <;> decide) _ _ _ (asDocumented_pieces _) hrs h1' (by omega)).2.2.2
  obtain ⟨w2, e1, ⟨k1, k2, k3⟩, _⟩ := (sim_pieces (file_sim (by omega) (file.drop memory) hs) patch.length (powerOn f) (parts512 patch)).sim
    (w2 := { arg := (file, u) }) ⟨⟨by show file = file.take memory ++ _; rw [List.take_append_drop], hf.len, hu⟩, rfl⟩ h1 hall
  have hsup := supplies_file patch patch.length 0 (by omega)
  rw [List.drop_zero, Nat.sub_zero] at hsup
  have he := C34_in_place_equals_incremental (memFileEnv steps) (fun _ => memFile_returns) fileRead patch.length (file, u) _ _ hsup
  rw [e1] at he
  have hpne : patch.length ≠ 0 := by
    obtain ⟨hd1, hd2⟩ := h.dvd hsa hfr
    obtain ⟨_, _, _, _, _, _, _, _, _, _, _, hp, _⟩ := device_patch hsa h hd1 hd2 hf.mem hf.len
    rw [hp]; simp
  cases hc : applyPatchInPlaceCallbacks ((memFileEnv steps).with ReadFile) (patchReadWith (Bytes × υ) fileRead) patch.length ((file, u), { data := patch }) with
  | error u => rw [hc] at he; cases he
  | ok x =>
    obtain ⟨n, w', rs⟩ := x
    rw [hc] at he
    simp only [Except.map, Except.ok.injEq, Prod.mk.injEq] at he
    obtain ⟨rfl, e2, _⟩ := he
    refine ⟨w'.arg.1.1, w'.arg.1.2, ?_, ?_, ?_, ?_, ?_⟩
    · unfold applyPatchInPlaceFilenames inPlaceFileIoInit
      simp only [hmem, hpatch, hseek, Bool.true_eq_false, if_false, hpne, hc, Bind.bind, Except.bind]
      by_cases ht : to = []
      · subst ht
        rw [if_neg (by simp), hclose rfl]
        rfl
      · rw [if_pos (by simpa using ht)]
    · rw [e2, k1]; exact List.IsPrefix.trans h2 (List.prefix_append _ _)
    · rw [e2, k1, List.length_append, k2, List.length_drop]; omega
    · rw [e2, k1, List.drop_append_of_le_length (by omega), List.drop_eq_nil_of_le (by omega), List.nil_append]
    · intro hne hb
      have := k3 hb
      rw [h4 hne hb] at this
      rw [e2]; exact this

end Detools
