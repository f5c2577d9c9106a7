import Verif.Model.Space

/-!
# Problem descriptions in memory

`Model/Space` treats the descriptions of variables and constraints as values. Here they are objects at addresses, so that it
is visible what a space shares with the caller: `deepcopy(d)` (`space.py:178`), `variable.copy()` (`space.py:119`, `:123`) and
the list of constraints, which is kept (`space.py:83-87`). Names, types and dimensionalities are immutable. A domain that is
immutable (a tuple) is one that nobody writes to.
-/

namespace GPyOpt

/-- A descriptor dictionary: the domain is a reference. -/
structure DescCell where
  name : Option String
  type : Option String
  domain : Option Nat
  dimensionality : Option Nat

/-- Objects. -/
inductive PCell
  | dom (d : Dom)
  | desc (c : DescCell)
  | constr (c : ConstrDict)
  | list (l : List Nat)

/-- The objects in memory; addresses from `next` on are unused. -/
structure PMem where
  next : Nat
  get : Nat → PCell

/-- Write into an object. -/
def PMem.write (h : PMem) (a : Nat) (c : PCell) : PMem := { h with get := fun b => if b = a then c else h.get b }

/-- A new object. -/
def PMem.alloc (h : PMem) (c : PCell) : PMem × Nat :=
  ({ next := h.next + 1, get := fun b => if b = h.next then c else h.get b }, h.next)

/-- The content of a domain. -/
def PMem.dom (h : PMem) (a : Nat) : Dom := match h.get a with
  | .dom d => d
  | _ => .flat []

/-- The descriptor that a dictionary means. -/
def DescCell.value (h : PMem) (c : DescCell) : Desc :=
  { name := c.name, type := c.type, domain := c.domain.map h.dom, dimensionality := c.dimensionality }

/-- The descriptor at an address. -/
def PMem.desc (h : PMem) (a : Nat) : Desc := match h.get a with
  | .desc c => c.value h
  | _ => {}

/-- The dictionary of a constraint at an address. -/
def PMem.constr (h : PMem) (a : Nat) : ConstrDict := match h.get a with
  | .constr c => c
  | _ => {}

/-- The entries of a list at an address. -/
def PMem.list (h : PMem) (a : Nat) : List Nat := match h.get a with
  | .list l => l
  | _ => []

/-- `deepcopy(d)` (`space.py:178`): a new dictionary with a new domain. -/
def PMem.deepcopy (h : PMem) (a : Nat) : PMem × Nat := match h.get a with
  | .desc c => match c.domain with
    | none => h.alloc (.desc c)
    | some d =>
      let (h1, d') := h.alloc (.dom (h.dom d))
      h1.alloc (.desc { c with domain := some d' })
  | c => h.alloc c

/-- The descriptors that the loop of `_translate_space` (`space.py:177-186`) keeps in the variables. -/
def PMem.deepcopies (h : PMem) : List Nat → PMem × List Nat
  | [] => (h, [])
  | a :: as =>
    let (h1, b) := h.deepcopy a
    let (h2, bs) := h1.deepcopies as
    (h2, b :: bs)

/-- The dictionaries that `_expand_config_space` (`space.py:118-130`) makes of one; the copies are shallow. -/
def DescCell.expand (c : DescCell) : List DescCell := match c.dimensionality with
  | none => [c]
  | some n => (List.range n).map fun k =>
      { c with name := c.name.map fun s => s ++ "_" ++ toString (k + 1), dimensionality := some 1 }

/-- New dictionaries. -/
def PMem.allocs (h : PMem) : List DescCell → PMem × List Nat
  | [] => (h, [])
  | c :: cs =>
    let (h1, b) := h.alloc (.desc c)
    let (h2, bs) := h1.allocs cs
    (h2, b :: bs)

/-- The dictionaries at these addresses. -/
def PMem.cells (h : PMem) (as : List Nat) : List DescCell := as.filterMap fun a => match h.get a with
  | .desc c => some c
  | _ => none

/-- The loop over the constraints (`space.py:83-86`), which writes into the dictionaries of the caller. -/
def PMem.fix (h : PMem) : List Nat → PMem
  | [] => h
  | a :: as => match h.get a with
    | .constr c => match c.constrain with
      | some _ => (h.write a (.constr (fixConstr c))).fix as
      | none => h.fix as
    | _ => h.fix as

/-- A `Design_space` object: the list of the caller (`config_space`), the copies inside the variables, the dictionaries of
`config_space_expanded`, and the list of constraints of the caller. -/
structure MSpace where
  config : Nat
  vars : List Nat
  expanded : List Nat
  constraints : Option Nat

/-- The values of the constraints in a list. -/
def PMem.constrs (h : PMem) (a : Nat) : List ConstrDict := (h.list a).map h.constr

/-- `Design_space.__init__` (`space.py:64-87`). Exceptions come before the constraints are handled. -/
def createSpace (h : PMem) (config : Nat) (constraints : Option Nat) : PMem × Py MSpace :=
  match designSpace ((h.list config).map h.desc) none with
  | .error e => (h, .error e)
  | .ok _ =>
    let (h1, vs) := h.deepcopies (h.list config)
    let (h2, xs) := h1.allocs ((h1.cells (h1.list config)).flatMap DescCell.expand)
    let h3 := match constraints with
      | none => h2
      | some a => h2.fix (h2.list a)
    (h3, .ok { config := config, vars := vs, expanded := xs, constraints := constraints })

/-- What a space is at a moment: the attributes as the methods of the class see them. The variables are those made from the
private copies. -/
def MSpace.view (h : PMem) (sp : MSpace) : Py Space :=
  match translateSpace (sp.vars.map h.desc) with
  | .error e => .error e
  | .ok vars => .ok
      { config := (h.list sp.config).map h.desc
        vars := vars
        configExpanded := sp.expanded.map h.desc
        expanded := computeIndices 0 0 (vars.flatMap Var.expand)
        constraints := sp.constraints.map h.constrs }

/-- A description in memory: a list of descriptors with their domains, and a list of constraint dictionaries, all at
addresses that are in use. -/
structure PMem.Describes (h : PMem) (config : Nat) (constraints : Option Nat) : Prop where
  config_lt : config < h.next
  config_list : ∃ l, h.get config = .list l
  descs : ∀ a ∈ h.list config, a < h.next ∧ ∃ c, h.get a = .desc c ∧ ∀ d, c.domain = some d → d < h.next ∧
    ∃ v, h.get d = .dom v
  cons : ∀ l, constraints = some l → l < h.next ∧ (∃ as, h.get l = .list as) ∧
    ∀ a ∈ h.list l, a < h.next ∧ ∃ c, h.get a = .constr c

end GPyOpt
