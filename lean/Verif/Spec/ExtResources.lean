import Verif.Model.ExtResources
/-
What C65 says about the extension modules.
-/
namespace Detools.Ext

/-- No buffer of an argument is held, no memory is allocated, no file is open. -/
def Tidy (s : State) : Prop := s.views = [] ∧ s.blocks = [] ∧ s.files = 0

/-- No object was left behind. -/
def NoObjects (s : State) : Prop := ∀ o ∈ s.objs, o = none

/-- The only object is `i`, with these bytes and one reference, which is the one returned. -/
def OnlyBytes (d : Bytes) (i : Nat) (s : State) : Prop :=
  s.objs[i]? = some (some ⟨1, [], d⟩) ∧ ∀ j o, s.objs[j]? = some (some o) → j = i

/-- The only objects are the list `i`, with one reference, and its items, each with these bytes
and the reference of the list. -/
def OnlyList (ds : List Bytes) (i : Nat) (s : State) : Prop :=
  ∃ items, s.objs[i]? = some (some ⟨1, items, []⟩) ∧ items.map (fun j => s.objs[j]?) = ds.map (fun d => some (some ⟨1, [], d⟩)) ∧
    ∀ j o, s.objs[j]? = some (some o) → j = i ∨ j ∈ items

/-- A function returned an object and no exception is set, or NULL, with an exception set and
no object left behind. -/
def Proper (result : Nat → State → Prop) (r : Ret) (s : State) : Prop :=
  (∃ i, r = .obj i ∧ s.raised = false ∧ result i s) ∨ (r = .null ∧ s.raised = true ∧ NoObjects s)

end Detools.Ext
