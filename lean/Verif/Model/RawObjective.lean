import Verif.Model.BO
import Verif.Model.Parallel

/-!
# Evaluation of objectives that return arrays of any shape

`evalFunc` (`Model/Cost`) assumes one number per row. Here the function returns any array of at most two dimensions.
-/

namespace GPyOpt

/-- What the user's function returns: a number, a one-dimensional array, or a two-dimensional array with `cols` columns. -/
inductive RawOut
  | scalar (y : ℚ)
  | vec (ys : Vec)
  | mat (cols : Nat) (rows : Mat)
  deriving DecidableEq

/-- The rows that `np.vstack([f_evals, rlt])` (`objective.py:75`) adds to the column `f_evals`: `np.vstack` turns a
number into a 1×1 array and a one-dimensional array into a row; the number of columns must be one. -/
def RawOut.stack : RawOut → Py Vec
  | .scalar y => .ok [y]
  | .vec [y] => .ok [y]
  | .vec _ => .error .valueError
  | .mat cols rows => if cols = 1 then .ok rows.flatten else .error .valueError

/-- A two-dimensional array has rows of `cols` entries. -/
def RawOut.WellShaped : RawOut → Prop
  | .mat cols rows => ∀ r ∈ rows, r.length = cols
  | _ => True

/-- `_eval_func` (`objective.py:64-77`). The record of a call keeps its rows of the column. -/
def rawEval (obj : Nat → Vec → Py RawOut) : Mat → (calls : Nat) → Py Vec
  | [], _ => .ok []
  | x :: xs, k => match obj k x with
    | .error e => .error e
    | .ok r => match r.stack with
      | .error e => .error e
      | .ok y => match rawEval obj xs (k + 1) with
        | .error e => .error e
        | .ok ys => .ok (y ++ ys)

/-- `f_evals[i::n] = v` (`objective.py:99`) for a column `v`: a single row is broadcast. -/
def rawAssign (acc : Vec) (i n : Nat) (v : Vec) : Py Vec :=
  match v with
  | [y] => assignStrided acc i n ((strided acc i n).map fun _ => y)
  | _ => assignStrided acc i n v

/-- The parent's loop over the pipes (`objective.py:97-100`), with the columns the workers have sent. -/
def rawCollect (n : Nat) : Nat → List Vec → Vec → Py Vec
  | _, [], acc => .ok acc
  | i, v :: vs, acc => match rawAssign acc i n v with
    | .error e => .error e
    | .ok acc' => rawCollect n (i + 1) vs acc'

/-- `_syncronous_batch_evaluation` (`objective.py:80-101`) of a function of the location, with workers that end
normally. -/
def rawParallel (obj : Vec → Py RawOut) (n : Nat) (x : Mat) : Py Vec :=
  match mapE (fun i => rawEval (fun _ => obj) (strided x i n) 0) (List.range n) with
  | .error e => .error e
  | .ok vs => rawCollect n 0 vs (x.map fun _ => 0)

end GPyOpt
