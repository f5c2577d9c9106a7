import Verif.Model.Thompson
import Verif.Model.Evaluators
import Verif.Model.Selection

/-!
# Local penalization with the predictions of each model class

`lpBatch` (`Model/Evaluators`) takes it for granted that the constants of the penalizers can be computed. Here this is
done with the model's predictions.
-/

namespace GPyOpt

/-- What `predict` of each class returns: lists for `GPModel_MCMC` (`gpmodel.py:257-277`), columns for the others
(`gpmodel.py:102-112`, `rfmodel.py:79-93`, `warpedgpmodel.py:61-65`). -/
def ModelKind.ReturnsLists : ModelKind → Bool
  | .gpMCMC => true
  | _ => false

/-- A prediction function of the class. -/
def ModelKind.Predicts (m : ModelKind) (predict : Mat → Py Prediction) : Prop :=
  ∀ X p, predict X = .ok p → (m.ReturnsLists = true ↔ ∃ ms ss, p = .sampled ms ss)

/-- `_hammer_function_precompute` (`LP.py:48-62`) without its numerical values (see `Model/LocalPenalization`):
`predict` is called twice; `pred<1e-16` compares a list with a number if `predict` returns lists, a `TypeError`. -/
def lpPrecompute (predict : Mat → Py Prediction) (x0 : Mat) : Py Unit :=
  match predict x0 with
  | .error e => .error e
  | .ok (.single _ _) => .ok ()
  | .ok (.sampled _ _) => .error .typeError

/-- The `while` loop (`batch_local_penalization.py:41-45`) with the computation of the constants. -/
def lpLoopWith (predict : Mat → Py Prediction) (optimize : Nat → LPState → Py Vec) (c : ℚ × ℚ) :
    (todo k : Nat) → (batch : Mat) → LPState → List LPState → Py (Mat × LPState × List LPState)
  | 0, _, batch, s, tr => .ok (batch, s, tr)
  | todo + 1, k, batch, s, tr =>
    match lpPrecompute predict batch with
    | .error e => .error e
    | .ok () =>
      let s' := s.update (some batch) (some c)
      match optimize k s' with
      | .error e => .error e
      | .ok x => lpLoopWith predict optimize c todo (k + 1) (batch ++ [x]) s' (tr ++ [s'])

/-- `LocalPenalization.compute_batch` (`batch_local_penalization.py:22-48`). -/
def lpBatchWith (predict : Mat → Py Prediction) (optimize : Nat → LPState → Py Vec) (consts : Py (ℚ × ℚ))
    (batchSize : Nat) (s : LPState) : Py (Mat × LPState × List LPState) :=
  let s0 := s.update none none
  match optimize 0 s0 with
  | .error e => .error e
  | .ok x =>
    if 1 < batchSize then
      match consts with
      | .error e => .error e
      | .ok c => match lpLoopWith predict optimize c (batchSize - 1) 1 [x] s0 [s0] with
        | .error e => .error e
        | .ok (b, s', tr) => .ok (b, s'.update none none, tr)
    else .ok ([x], s0.update none none, [s0])

end GPyOpt
