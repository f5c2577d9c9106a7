import Verif.Py

/-!
# Stacking rows

The model of the optimization loop appends suggested rows to the data with `++` (`Model/BO.lean`). numpy's `vstack` also
requires that all rows have one width; this is the function with that check.
-/

namespace GPyOpt

/-- `np.vstack((X, S))` (`bo.py:153`) of two arrays with the given rows: a `ValueError` unless all rows have one width. -/
def stackRows (X S : Mat) : Py Mat :=
  match X ++ S with
  | [] => .ok []
  | r :: m => if m.all (fun q => q.length == r.length) then .ok (r :: m) else .error .valueError

end GPyOpt
