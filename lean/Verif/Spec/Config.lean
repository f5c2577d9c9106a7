import Verif.Model.Interface

/-!
# Specification of configurations as trees of values
-/

namespace GPyOpt.Spec

/-- What a configuration has at a path of keys: nothing (`none`), a section (`some none`) or a value
(`some (some a)`). -/
def view : Cfg → List String → Option (Option Atom)
  | .atom a, [] => some (some a)
  | .dict _, [] => some none
  | .atom _, _ :: _ => none
  | .dict items, k :: p => (items.get k).bind fun c => view c p

mutual
/-- Dictionaries have no repeated keys. -/
def CfgWF : Cfg → Prop
  | .atom _ => True
  | .dict items => ItemsWF items
/-- Dictionaries have no repeated keys. -/
def ItemsWF : Items → Prop
  | .nil => True
  | .cons k v rest => rest.get k = none ∧ CfgWF v ∧ ItemsWF rest
end

/-- The user gave a plain value at `p` or above. -/
def UserLeaf (c : Cfg) (p : List String) : Prop := ∃ q a, q <+: p ∧ view c q = some (some a)

/-- The user gave a section where the default is a plain value. -/
def Conflict (new default : Cfg) (p : List String) : Prop :=
  view new p = some none ∧ ∃ a, view default p = some (some a)

/-- `r` is the merge of `new` over `default`. -/
def IsMerge (new default r : Cfg) : Prop := ∀ p,
  (∀ v, view new p = some v → view r p = some v) ∧
  (view new p = none → UserLeaf new p → view r p = none) ∧
  (view new p = none → ¬ UserLeaf new p → view r p = view default p)

end GPyOpt.Spec
