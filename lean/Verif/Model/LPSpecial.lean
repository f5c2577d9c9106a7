import Verif.Model.LocalPenalization

/-!
# Local penalization with `inf` and `nan`

`AcquisitionLP` takes logarithms and exponentials of the acquisition and divides by it and by distances.  Here a number is a
real number, an infinity or `nan`, and the exponential underflows and overflows.  All other operations on real numbers are
exact; the sign of zero is left out (`1 / 0` is `inf`), which matters to no statement made here.
-/

namespace GPyOpt

/-- A floating-point number. -/
inductive XR
  | nan
  | ninf
  | pinf
  | fin (x : ℝ)

namespace XR

/-- `-x`. -/
noncomputable def neg : XR → XR
  | .nan => .nan
  | .ninf => .pinf
  | .pinf => .ninf
  | .fin x => .fin (-x)

/-- `x + y`. -/
noncomputable def add : XR → XR → XR
  | .nan, _ => .nan
  | _, .nan => .nan
  | .pinf, .ninf => .nan
  | .ninf, .pinf => .nan
  | .pinf, _ => .pinf
  | _, .pinf => .pinf
  | .ninf, _ => .ninf
  | _, .ninf => .ninf
  | .fin x, .fin y => .fin (x + y)

open Classical in
/-- An infinity times a real number. -/
noncomputable def scaleInf (positive : Bool) (x : ℝ) : XR :=
  if x = 0 then .nan else if (0 < x) = (positive = true) then .pinf else .ninf

/-- `x * y`. -/
noncomputable def mul : XR → XR → XR
  | .nan, _ => .nan
  | _, .nan => .nan
  | .fin x, .fin y => .fin (x * y)
  | .pinf, .fin x => scaleInf true x
  | .fin x, .pinf => scaleInf true x
  | .ninf, .fin x => scaleInf false x
  | .fin x, .ninf => scaleInf false x
  | .pinf, .pinf => .pinf
  | .ninf, .ninf => .pinf
  | .pinf, .ninf => .ninf
  | .ninf, .pinf => .ninf

open Classical in
/-- `1 / x`. -/
noncomputable def inv : XR → XR
  | .nan => .nan
  | .pinf => .fin 0
  | .ninf => .fin 0
  | .fin x => if x = 0 then .pinf else .fin (1 / x)

open Classical in
/-- `np.log`. -/
noncomputable def log : XR → XR
  | .nan => .nan
  | .pinf => .pinf
  | .ninf => .nan
  | .fin x => if x = 0 then .ninf else if x < 0 then .nan else .fin (Real.log x)

/-- `np.log1p`, for arguments that are not negative. -/
noncomputable def log1p : XR → XR
  | .nan => .nan
  | .pinf => .pinf
  | .ninf => .nan
  | .fin x => .fin (Real.log (1 + x))

/-- A number that is neither infinite nor `nan`. -/
def Finite : XR → Prop
  | .fin _ => True
  | _ => False

end XR

/-- Where `np.exp` underflows to 0 and overflows to `inf`: half the smallest positive double is `2^-1075 = exp(-745.13…)`
and the largest is just below `2^1024 = exp(709.78…)`. -/
structure ExpRange where
  lo : ℝ
  hi : ℝ
  lo_ge : -746 ≤ lo
  lo_le : lo ≤ -745
  hi_ge : 709 ≤ hi
  hi_le : hi ≤ 710

open Classical in
/-- `np.exp` (`LP.py:80`, `:120`), exact between underflow and overflow. -/
noncomputable def xExp (R : ExpRange) (x : ℝ) : XR :=
  if x < R.lo then .fin 0 else if R.hi < x then .pinf else .fin (Real.exp x)

/-- The transformed acquisition (`LP.py:76-83`), `g` being minus the value of the acquisition. -/
noncomputable def xTransformed (R : ExpRange) (t : LPTransform) (g : ℝ) : XR :=
  match t with
  | .softplus => if 40 ≤ g then XR.log (.fin g) else XR.log (XR.log1p (xExp R g))
  | .none => XR.log (.fin (g + 1 / 10 ^ 50))
  | .other => .fin g

/-- `_penalized_acquisition` (`LP.py:70-89`). `norm.logcdf` is finite. -/
noncomputable def xLpValue {d : Nat} (R : ExpRange) (t : LPTransform) (acq : ℝ) (batch : Option (List (Hammer d)))
    (x : Pt d) : XR :=
  let fval := XR.neg (xTransformed R t (-acq))
  match batch with
  | .none => fval
  | .some hs => XR.add fval (.fin (-(hs.map fun h => hammerValue h x).sum))

/-- The scale of `d_acquisition_function` (`LP.py:118-125`). -/
noncomputable def xScale (R : ExpRange) (t : LPTransform) (g : ℝ) : XR :=
  match t with
  | .softplus => XR.inv (XR.mul (XR.log1p (xExp R g)) (XR.add (.fin 1) (xExp R (-g))))
  | .none => XR.inv (.fin g)
  | .other => .fin 1

open Classical in
/-- The entry of one penalizer in `_d_hammer_function` (`LP.py:95-103`). -/
noncomputable def xDHammer {d : Nat} (h : Hammer d) (x : Pt d) : XR :=
  let nm := euclid x h.x0
  let z := (nm - h.r) / h.s
  if ncdf z < 1 / 10 ^ 50 then .fin 0
  else XR.mul (.fin (1 / (h.s * √(2 * Real.pi) * ncdf z) * Real.exp (-z ^ 2 / 2))) (XR.inv (.fin nm))

/-- `d.sum(axis=1)`. -/
noncomputable def xSum : List XR → XR
  | [] => .fin 0
  | a :: l => XR.add a (xSum l)

/-- `d_acquisition_function` (`LP.py:112-132`), coordinate `j`; `dacq` is the gradient of the underlying
acquisition function at `x`. -/
noncomputable def xLpGrad {d : Nat} (R : ExpRange) (t : LPTransform) (acq : ℝ) (dacq : Pt d)
    (batch : Option (List (Hammer d))) (x : Pt d) (j : Fin d) : XR :=
  match batch with
  | .none => XR.mul (xScale R t (-acq)) (.fin (dacq j))
  | .some hs => XR.add (XR.mul (xScale R t (-acq)) (.fin (dacq j))) (XR.neg (xSum (hs.map fun h => xDHammer h x)))

end GPyOpt
