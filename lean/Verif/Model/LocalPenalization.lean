import Verif.Model.Acquisition

/-!
# Model of `acquisitions/LP.py` and of `estimate_L`

Real arithmetic. One location `x` at a time (the gradient code multiplies an array of shape `(n,)` with one of
shape `(n, d)`, which is meant for one row only). Logarithms of non-positive numbers, which are `nan` or `-inf`
in numpy, are totalized by Mathlib's `Real.log`; theorems assume positive arguments where it matters. A division
by a zero distance (`inf` in numpy) is totalized to 0.
-/

namespace GPyOpt

/-- A location. -/
abbrev Pt (d : Nat) := Fin d → ℝ

/-- `self.transform` (`LP.py:30-34`). -/
inductive LPTransform where
  | softplus
  | none
  | other
deriving DecidableEq, Repr

/-- `AcquisitionLP.__init__` (`LP.py:30-34`): the transform actually used; `isLCB` is the disjunction of the two
`isinstance` tests. The argument is the name after `lower()`. -/
def lpTransform (name : String) (isLCB : Bool) : LPTransform :=
  if name = "none" then (if isLCB then .softplus else .none)
  else if name = "softplus" then .softplus
  else .other

/-- `np.sqrt(np.square(x - x0).sum(-1))` (`LP.py:68`, `:96-97`). -/
noncomputable def euclid {d : Nat} (x x0 : Pt d) : ℝ := √(∑ j, (x j - x0 j) ^ 2)

/-- A penalizer: centre, `r_x0` and `s_x0`. -/
structure Hammer (d : Nat) where
  x0 : Pt d
  r : ℝ
  s : ℝ

/-- `_hammer_function_precompute` for one point (`LP.py:48-62`); `m`, `dev` are the two values
`model.predict` returns, the second being a standard deviation already (`gpmodel.py:104-113`). -/
noncomputable def hammerPrecompute {d : Nat} (L Min : ℝ) (predict : Pt d → ℝ × ℝ) (x0 : Pt d) : Hammer d :=
  let m := (predict x0).1
  let pred := (predict x0).2
  let pred := if pred < 1 / 10 ^ 16 then 1 / 10 ^ 16 else pred
  { x0 := x0, r := (m - Min) / L, s := √pred / L }

/-- `update_batches` (`LP.py:40-46`). -/
noncomputable def lpUpdateBatches {d : Nat} (X : Option (List (Pt d))) (L Min : ℝ) (predict : Pt d → ℝ × ℝ) :
    Option (List (Hammer d)) :=
  X.map fun X => X.map (hammerPrecompute L Min predict)

/-- `_hammer_function` for one penalizer (`LP.py:64-68`): `norm.logcdf`. -/
noncomputable def hammerValue {d : Nat} (h : Hammer d) (x : Pt d) : ℝ :=
  Real.log (ncdf ((euclid x h.x0 - h.r) / h.s))

/-- The transformed acquisition (`LP.py:76-83`); `g` is minus the value of `acq.acquisition_function`. -/
noncomputable def lpTransformed (t : LPTransform) (g : ℝ) : ℝ :=
  match t with
  | .softplus => if 40 ≤ g then Real.log g else Real.log (Real.log (1 + Real.exp g))
  | .none => Real.log (g + 1 / 10 ^ 50)
  | .other => g

/-- `_penalized_acquisition` (`LP.py:70-89`) with `acq` the value of the underlying acquisition function at
`x`. -/
noncomputable def lpValue {d : Nat} (t : LPTransform) (acq : ℝ) (batch : Option (List (Hammer d))) (x : Pt d) : ℝ :=
  let fval := -(lpTransformed t (-acq))
  match batch with
  | .none => fval
  | .some hs => fval + -(hs.map fun h => hammerValue h x).sum

/-- The entry of one penalizer in `_d_hammer_function` (`LP.py:95-103`). It is one number, used for every
coordinate. -/
noncomputable def dHammer {d : Nat} (h : Hammer d) (x : Pt d) : ℝ :=
  let nm := euclid x h.x0
  let z := (nm - h.r) / h.s
  if ncdf z < 1 / 10 ^ 50 then 0
  else 1 / (h.s * √(2 * Real.pi) * ncdf z) * Real.exp (-z ^ 2 / 2) / nm

/-- The scale of `d_acquisition_function` (`LP.py:118-125`). -/
noncomputable def lpScale (t : LPTransform) (g : ℝ) : ℝ :=
  match t with
  | .softplus => 1 / (Real.log (1 + Real.exp g) * (1 + Real.exp (-g)))
  | .none => 1 / g
  | .other => 1

/-- `d_acquisition_function` (`LP.py:112-132`), coordinate `j`; `dacq` is the gradient of the underlying
acquisition function at `x`. -/
noncomputable def lpGrad {d : Nat} (t : LPTransform) (acq : ℝ) (dacq : Pt d) (batch : Option (List (Hammer d)))
    (x : Pt d) (j : Fin d) : ℝ :=
  match batch with
  | .none => lpScale t (-acq) * dacq j
  | .some hs => lpScale t (-acq) * dacq j - (hs.map fun h => dHammer h x).sum

/-- Euclidean norm of a gradient, `np.sqrt((dmdx*dmdx).sum(1))` (`batch_local_penalization.py:61`). -/
noncomputable def gradNorm {d : Nat} (g : Pt d) : ℝ := √(∑ j, g j * g j)

/-- `estimate_L` (`batch_local_penalization.py:51-72`): `grad` is `model.predictive_gradients`, `samples` the 500
uniform samples, `X` the data of the model and `minimize f x0` the value `res.fun` that L-BFGS-B reports when
started at `x0`. -/
noncomputable def estimateL {d : Nat} (grad : Pt d → Pt d) (samples X : List (Pt d))
    (minimize : (Pt d → ℝ) → Pt d → ℝ) : Py ℝ :=
  let df := fun x => -(gradNorm (grad x))
  let all := samples ++ X
  match argmin (all.map df) with
  | .error e => .error e
  | .ok k => match all[k]? with
    | .none => .error .indexError
    | .some x0 =>
      let minusL := minimize df x0
      let L := -minusL
      .ok (if L < 1 / 10 ^ 7 then 10 else L)

end GPyOpt
