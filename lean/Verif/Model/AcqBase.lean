import Verif.Model.Evaluators

/-! # Model of `AcquisitionBase` (`GPyOpt/acquisitions/base.py`): weighting by cost and constraints -/

namespace GPyOpt

/-- `x_z` (`acquisitions/base.py:39`): the point at which constraints are evaluated. -/
def constraintRows (sp : Space) (x : Vec) : Py Mat :=
  if sp.modelDim = sp.objectiveDim then .ok [x] else sp.zipInputs [x]

/-- `acquisition_function` (`acquisitions/base.py:33-40`) at one row: `-(f_acqu * indicator) / cost`.
The raw acquisition and the cost are parameters; a zero cost (`inf` or `nan` in numpy) is not
modelled. -/
def acquisitionFunction (sp : Space) (acq cost : Vec → Py ℚ) (x : Vec) : Py ℚ :=
  match acq x with
  | .error e => .error e
  | .ok a => match cost x with
    | .error e => .error e
    | .ok c => match constraintRows sp x with
      | .error e => .error e
      | .ok xz => match sp.indicatorConstraints xz with
        | .error e => .error e
        | .ok [w] => if c = 0 then .error .unmodelled else .ok (-(a * w) / c)
        | .ok _ => .error .unmodelled

end GPyOpt
