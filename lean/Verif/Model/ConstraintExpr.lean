import Verif.Model.Space

/-!
# Model of constraints written as Python expressions

`Design_space.indicator_constraints` compiles the text of a constraint to a function of the matrix `x` of all locations
(`space.py:305`) and evaluates it once for all of them. The model has the expressions of numbers, columns, entries, sums
and arithmetic, with the shapes and the broadcasting of numpy arrays. Division, comparison and other functions of numpy
are not modelled.
-/

namespace GPyOpt

/-- A numpy array with at most two axes, or a Python number. An array of rank 1 has the shape `(c,)` (and `r = 1`), a
scalar has `r = c = 1`. -/
structure NArr where
  rank : Nat
  r : Nat
  c : Nat
  py : Bool
  f : Nat → Nat → ℚ

/-- The expressions of a constraint, in the variable `x`. -/
inductive NExpr where
  /-- a number -/
  | num (q : ℚ)
  /-- `x` -/
  | whole
  /-- `x[:,j]` -/
  | col (j : Int)
  /-- `x[:,j:j+1]`, `j` not negative -/
  | cols (j : Nat)
  /-- `x[i,j]` -/
  | elem (i j : Int)
  /-- `np.sum(e)` -/
  | sumAll (e : NExpr)
  /-- `np.sum(e, axis=1)` -/
  | sumRows (e : NExpr)
  | neg (e : NExpr)
  /-- `abs(e)`, the built-in function -/
  | abs (e : NExpr)
  | pow (e : NExpr) (k : Nat)
  | add (a b : NExpr)
  | sub (a b : NExpr)
  | mul (a b : NExpr)

/-- The length of an axis after broadcasting. -/
def bdim (a b : Nat) : Py Nat :=
  if a = b then .ok a else if a = 1 then .ok b else if b = 1 then .ok a else .error .valueError

/-- An operation on two arrays, with broadcasting. -/
def NArr.bin (op : ℚ → ℚ → ℚ) (a b : NArr) : Py NArr := do
  let r ← bdim a.r b.r
  let c ← bdim a.c b.c
  pure { rank := max a.rank b.rank, r := r, c := c, py := a.py && b.py,
         f := fun i j => op (a.f (if a.r = 1 then 0 else i) (if a.c = 1 then 0 else j))
           (b.f (if b.r = 1 then 0 else i) (if b.c = 1 then 0 else j)) }

/-- An operation on one array. -/
def NArr.un (op : ℚ → ℚ) (a : NArr) : NArr := { a with f := fun i j => op (a.f i j) }

/-- The position of an index, negative ones count from the end. -/
def npIndex (n : Nat) (j : Int) : Py Nat :=
  if 0 ≤ j then (if j < n then .ok j.toNat else .error .indexError)
  else (if 0 ≤ j + n then .ok (j + n).toNat else .error .indexError)

/-- `np.atleast_2d(x)` (`space.py:300`) of rows with `d` columns. -/
def matArr (d : Nat) (x : Mat) : NArr :=
  { rank := 2, r := x.length, c := d, py := false, f := fun i j => (x.getD i []).getD j 0 }

/-- All entries, row by row. -/
def NArr.entries (a : NArr) : List ℚ :=
  (List.range a.r).flatMap fun i => (List.range a.c).map fun j => a.f i j

/-- The value of an expression (the compiled function of `space.py:305`, called at `:306`) at an array of two axes. -/
def NExpr.eval (x : NArr) : NExpr → Py NArr
  | .num q => .ok { rank := 0, r := 1, c := 1, py := true, f := fun _ _ => q }
  | .whole => .ok x
  | .col j => do
    let k ← npIndex x.c j
    pure { rank := 1, r := 1, c := x.r, py := false, f := fun _ i => x.f i k }
  | .cols j => .ok { rank := 2, r := x.r, c := if j < x.c then 1 else 0, py := false, f := fun i _ => x.f i j }
  | .elem i j => do
    let a ← npIndex x.r i
    let b ← npIndex x.c j
    pure { rank := 0, r := 1, c := 1, py := false, f := fun _ _ => x.f a b }
  | .sumAll e => do
    let a ← e.eval x
    pure { rank := 0, r := 1, c := 1, py := false, f := fun _ _ => a.entries.sum }
  | .sumRows e => do
    let a ← e.eval x
    if a.rank = 2 then
      pure { rank := 1, r := 1, c := a.r, py := false, f := fun _ i => ((List.range a.c).map fun j => a.f i j).sum }
    else .error .valueError
  | .neg e => do
    let a ← e.eval x
    pure (a.un fun q => -q)
  | .abs e => do
    let a ← e.eval x
    pure (a.un fun q => |q|)
  | .pow e k => do
    let a ← e.eval x
    pure (a.un fun q => q ^ k)
  | .add a b => do
    let u ← a.eval x
    let v ← b.eval x
    u.bin (· + ·) v
  | .sub a b => do
    let u ← a.eval x
    let v ← b.eval x
    u.bin (· - ·) v
  | .mul a b => do
    let u ← a.eval x
    let v ← b.eval x
    u.bin (· * ·) v

/-- `(constraint(x) <= 0) * 1` and `ind_x.reshape(x.shape[0], 1)` (`space.py:306-307`): a Python number has no `reshape`,
and the number of entries must be the number of locations. -/
def indColumn (n : Nat) (a : NArr) : Py (List ℚ) :=
  if a.py then .error .attributeError
  else if a.r * a.c = n then .ok (a.entries.map fun v => if v ≤ 0 then 1 else 0)
  else .error .valueError

/-- The loop of `indicator_constraints` (`space.py:303-307`) over the texts of the constraints. -/
def exprLoop (d : Nat) (x : Mat) : List NExpr → List ℚ → Py (List ℚ)
  | [], w => .ok w
  | e :: es, w => match e.eval (matArr d x) with
    | .error err => .error err
    | .ok a => match indColumn x.length a with
      | .error err => .error err
      | .ok ind => exprLoop d x es (List.zipWith (· * ·) w ind)

/-- `indicator_constraints` (`space.py:296-311`) for rows with `d` columns. -/
def exprIndicator (d : Nat) (es : List NExpr) (x : Mat) : Py (List ℚ) := exprLoop d x es (x.map fun _ => 1)

/-- The constraint as a function of one location, as the other parts of the model use it. -/
def NExpr.constr (d : Nat) (e : NExpr) : Constr := fun row =>
  match e.eval (matArr d [row]) with
  | .error err => .error err
  | .ok a => if a.py then .error .attributeError
    else if a.r * a.c = 1 then .ok (a.f 0 0) else .error .valueError

end GPyOpt
