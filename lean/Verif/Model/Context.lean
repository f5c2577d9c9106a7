import Verif.Model.Design

/-! # Model of `ContextManager` (`GPyOpt/optimization/acquisition_optimizer.py:81-126`) -/

namespace GPyOpt

/-- A context dictionary, in insertion order. -/
abbrev Context := List (String × ℚ)

/-- Attributes of a `ContextManager`. -/
structure Ctx where
  contextIndex : List Nat
  contextValue : Vec
  contextIndexObj : List Nat
  nocontextIndexObj : List Nat
  noncontextIndex : List Nat
  noncontextBounds : List (ℚ × ℚ)

/-- Loop over the context variables (`acquisition_optimizer.py:102-106`). -/
def contextLoop (sp : Space) : Context → Py (List Nat × List Nat × Vec)
  | [] => .ok ([], [], [])
  | (name, x) :: rest => match sp.findVariable name with
    | .error e => .error e
    | .ok v => match v.kind.objectiveToModel x with
      | .error e => .error e
      | .ok entry => match contextLoop sp rest with
        | .error e => .error e
        | .ok (im, io, vals) => .ok (v.idxModel ++ im, v.idxObj :: io, entry ++ vals)

/-- `ContextManager.__init__` (`acquisition_optimizer.py:88-113`). -/
def contextManager (sp : Space) (context : Option Context) : Py Ctx :=
  let allIndex := List.range sp.modelDim
  let allIndexObj := List.range sp.configExpanded.length
  match sp.getBounds with
  | .error e => .error e
  | .ok bounds => match context with
    | none => .ok
        { contextIndex := [], contextValue := [], contextIndexObj := []
          nocontextIndexObj := allIndexObj, noncontextIndex := allIndex, noncontextBounds := bounds }
    | some c => match contextLoop sp c with
      | .error e => .error e
      | .ok (im, io, vals) =>
        let nci := allIndex.filter (fun i => i ∉ im)
        match mapE (npGet bounds) nci with
        | .error e => .error e
        | .ok ncb => .ok
          { contextIndex := im, contextValue := vals, contextIndexObj := io
            nocontextIndexObj := allIndexObj.filter (fun i => i ∉ io)
            noncontextIndex := nci, noncontextBounds := ncb }

/-- `row[idx] = vals` with numpy broadcasting: equal lengths, or a single value for all
positions; otherwise `ValueError`. -/
def scatterB (idx : List Nat) (vals row : Vec) : Py Vec :=
  if vals.length = idx.length then scatter idx vals row
  else match vals with
    | [v] => scatter idx (idx.map fun _ => v) row
    | _ => .error .valueError

/-- `_expand_vector` (`acquisition_optimizer.py:117-126`), one row. -/
def Ctx.expandVector (c : Ctx) (sp : Space) (x : Vec) : Py Vec :=
  match scatterB c.noncontextIndex x (List.replicate sp.modelDim 0) with
  | .error e => .error e
  | .ok row => scatterB c.contextIndex c.contextValue row

/-- `add_context` of the callers: the identity without a context manager. -/
def addContext (c : Option Ctx) (sp : Space) (x : Vec) : Py Vec :=
  match c with
  | none => .ok x
  | some c => c.expandVector sp x

end GPyOpt
