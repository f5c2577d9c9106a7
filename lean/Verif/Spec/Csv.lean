import Verif.Py

/-!
# Specification: a table read from a file
-/

namespace GPyOpt.Spec

/-- Numbers of a row of texts. -/
def RowNumbers (parse : List Char → Option ℚ) (texts : List (List Char)) (nums : Vec) : Prop :=
  List.Forall₂ (fun t q => parse t = some q) texts nums

/-- The rows of a file are the evaluations: a headline, then for every evaluation its number from 1 on, the output and the
location. -/
def HoldsEvaluations (parse : List Char → Option ℚ) (rows : List (List (List Char))) (X : Mat) (Y : Vec) : Prop :=
  ∃ head body, rows = head :: body ∧ head.length = 2 + (X.headD []).length ∧
    body.length = X.length ∧ body.length = Y.length ∧
    ∀ (i : ℕ) (x : Vec) (y : ℚ), X[i]? = some x → Y[i]? = some y →
      ∃ texts, body[i]? = some texts ∧ RowNumbers parse texts (((i : ℚ) + 1) :: y :: x)

end GPyOpt.Spec
