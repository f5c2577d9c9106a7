import Verif.Model.Space

/-! # Model of `GPyOpt/util/duplicate_manager.py` -/

namespace GPyOpt

/-- A `DuplicateManager`: the set `unique_points` (order and multiplicity are irrelevant). -/
structure DupMgr where
  points : List Vec

/-- `np.any` of an optional matrix (`np.any(None)` is falsy). -/
def optAny (m : Option Mat) : Bool :=
  match m with
  | none => false
  | some m => npAny m

/-- `DuplicateManager.__init__` (`duplicate_manager.py:17-28`): pending and ignored
configurations are added only if `np.any` of the matrix is true. -/
def dupMgr (X : Mat) (pending ignored : Option Mat) : DupMgr :=
  let p1 := X
  let p2 := if optAny pending then p1 ++ pending.getD [] else p1
  let p3 := if optAny ignored then p2 ++ ignored.getD [] else p2
  ⟨p3⟩

/-- `is_zipped_x_duplicate` (`duplicate_manager.py:31-35`). -/
def DupMgr.isZippedDup (dm : DupMgr) (x : Vec) : Bool := decide (x ∈ dm.points)

/-- `is_unzipped_x_duplicate` (`duplicate_manager.py:37-41`): the zipped matrix is flattened. -/
def DupMgr.isUnzippedDup (dm : DupMgr) (sp : Space) (x : Vec) : Py Bool :=
  (sp.zipInputs [x]).map fun m => dm.isZippedDup m.flatten

/-- The check as used by callers, where the manager may be `None`. -/
def isDup (dm : Option DupMgr) (sp : Space) (x : Vec) : Py Bool :=
  match dm with
  | none => .ok false
  | some dm => dm.isUnzippedDup sp x

end GPyOpt
