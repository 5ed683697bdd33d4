import Verif.Proofs.HsDecodes
/-
The C heatshrink decoder and the heatshrink patch reader.
-/
namespace Detools

/-- C28. Whatever bytes are offered and however much output is asked for, in any order,
no call reads or writes outside the input buffer, the window or the output buffer, or
loops forever; and one more call outputs at most what is asked for. -/
theorem C28_heatshrink_safe (cfg : HsCfg) (hcfg : cfg.Ok) (ops : List HsOp) (n : Nat) :
    ∃ h fed out, hsRun cfg (hsReset cfg) ops = .ok (h, fed, out) ∧
      ∃ h' d, hsPoll cfg h n = .ok (h', d) ∧ d.length ≤ n := by
  obtain ⟨h, fed, out, e1, e2, _⟩ := hsRun_ok hcfg ops (hsReset_inv' hcfg) (HsMean.reset cfg)
  obtain ⟨h', d, f1, f2⟩ := hsPoll_run hcfg e2 n
  exact ⟨h, fed, out, e1, h', d, f1, (f2.inv hcfg e2).2.1⟩

/-- C27. Every byte string is symbols and a rest. Whatever was fed in whatever pieces and
polled in whatever portions, the output is the beginning of what the symbols in the bytes
fed mean; and it is all of it once a poll returns less than asked for. -/
theorem C27_heatshrink_meaning (cfg : HsCfg) (hcfg : cfg.Ok) (ops : List HsOp) (h : Hsd) (fed out : Bytes)
    (hrun : hsRun cfg (hsReset cfg) ops = .ok (h, fed, out)) :
    ∃ syms, HsParses cfg.window cfg.lookahead (bytesBits fed) syms ∧
      (∀ syms', HsParses cfg.window cfg.lookahead (bytesBits fed) syms' → syms' = syms) ∧
      out <+: hsExpand [] syms ∧
      ∀ n h' d, hsPoll cfg h n = .ok (h', d) → d.length < n → out ++ d = hsExpand [] syms := by
  obtain ⟨h1, fed1, out1, e1, e2, e3⟩ := hsRun_ok hcfg ops (hsReset_inv' hcfg) (HsMean.reset cfg)
  rw [e1] at hrun
  cases hrun
  rw [List.nil_append, List.nil_append] at e3
  obtain ⟨syms, hs⟩ := hsParses_exists cfg.window cfg.lookahead _ (bytesBits fed) (Nat.le_refl _)
  refine ⟨syms, hs, fun s' h' => h'.unique hs, e3.prefix hs, ?_⟩
  intro n h' d hp hlt
  obtain ⟨h2, d2, f1, f2⟩ := hsPoll_run hcfg e2 n
  rw [hp] at f1
  cases f1
  obtain ⟨g1, _, _, g4, _⟩ := f2.inv hcfg e2
  obtain ⟨S, k1, k2⟩ := (e3.run hcfg f2 e2).stuck hcfg g1 (g4 hlt)
  rw [k2, k1.unique hs]

/-- C27. In particular all of an encoding of data is decoded to the data. -/
theorem C27_heatshrink_decodes (cfg : HsCfg) (hcfg : cfg.Ok) (ops : List HsOp) (h : Hsd) (fed out data : Bytes)
    (hrun : hsRun cfg (hsReset cfg) ops = .ok (h, fed, out)) (henc : HsEncodes cfg.window cfg.lookahead fed data)
    (n : Nat) (h' : Hsd) (d : Bytes) (hpoll : hsPoll cfg h n = .ok (h', d)) (hlt : d.length < n) : out ++ d = data := by
  obtain ⟨S, h1, rfl⟩ := henc.parses (by have := hcfg.w4; have := hcfg.l3; omega)
  obtain ⟨syms, _, g2, _, g4⟩ := C27_heatshrink_meaning cfg hcfg ops h fed out hrun
  rw [g4 n h' d hpoll hlt, ← g2 S h1]

-- Literals 'a', 'b', then 5 bytes from 2 back: five bytes.
example : HsEncodes 8 7 [0xb0, 0xd8, 0x80, 0x21, 0x00] [97, 98, 97, 98, 97, 98, 97] :=
  ⟨[.literal 97, .literal 98, .backref 2 5], [false, false, false, false, false, false], by
    intro s hs
    simp only [List.mem_cons, List.not_mem_nil, or_false] at hs
    rcases hs with rfl | rfl | rfl <;> simp [HsSym.Fits], by decide +kernel, by decide, by decide +kernel⟩

-- Fed and polled in portions.
example : (hsRun hsStatic (hsReset hsStatic) [.sink [0xb0, 0xd8], .poll 1, .sink [0x80], .poll 3, .sink [0x21, 0x00], .poll 4, .poll 100]).map
    (fun r => (r.2.1, r.2.2)) = .ok ([0xb0, 0xd8, 0x80, 0x21, 0x00], [97, 98, 97, 98, 97, 98, 97]) := by decide +kernel

-- A distance beyond the beginning gives zeros; a supported configuration.
example : hsExpand [] [.literal 5, .backref 3 4] = [5, 0, 0, 5, 0] ∧ hsStatic.Ok := ⟨by decide, hsStatic_ok⟩

end Detools
