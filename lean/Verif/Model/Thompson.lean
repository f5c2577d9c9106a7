import Verif.Model.Anchor

/-!
# Model of `ThompsonSamplingAnchorPointsGenerator.get_anchor_point_scores`

The standard normal numbers are a parameter, in the order in which they are drawn.
-/

namespace GPyOpt

/-- What `model.predict(X)` returns: a column of means and one of standard deviations (`gpmodel.py:102-112`,
`rfmodel.py:79-94`, `warpedgpmodel.py:61-65`), or, for `GPModel_MCMC`, two lists with a column for every sample of the
parameters (`gpmodel.py:257-277`). -/
inductive Prediction
  | single (means stds : Vec)
  | sampled (means stds : List Vec)

/-- `np.random.normal(m, s)` for columns of equal length, from the `k`-th standard normal number on: a negative deviation is
a `ValueError`. -/
def normalColumn (z : Nat → ℚ) (k : Nat) (m s : Vec) : Py Vec :=
  if s.any (fun v => decide (v < 0)) then .error .valueError
  else .ok (((m.zip s).zipIdx k).map fun p => p.1.1 + p.1.2 * z p.2)

/-- The list comprehension of `anchor_points_generator.py:88`, over columns. -/
def normalColumns (z : Nat → ℚ) : Nat → List (Vec × Vec) → Py (List Vec)
  | _, [] => .ok []
  | k, (m, s) :: rest => match normalColumn z k m s with
    | .error e => .error e
    | .ok c => match normalColumns z (k + c.length) rest with
      | .error e => .error e
      | .ok cs => .ok (c :: cs)

/-- `get_anchor_point_scores` (`anchor_points_generator.py:84-88`): `zip` runs over the rows of two columns, but over the
samples of the parameters if the model returns lists; the result is flattened. -/
def thompsonScores (predict : Mat → Py Prediction) (z : Nat → ℚ) (X : Mat) : Py (List ℚ) :=
  match predict X with
  | .error e => .error e
  | .ok (.single m s) => (normalColumns z 0 ((m.zip s).map fun p => ([p.1], [p.2]))).map List.flatten
  | .ok (.sampled ms ss) => (normalColumns z 0 (ms.zip ss)).map List.flatten

end GPyOpt
