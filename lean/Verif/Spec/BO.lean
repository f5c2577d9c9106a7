import Verif.Model.BO
import Mathlib.Analysis.Real.Sqrt

/-! # Specification vocabulary for the optimization loop -/

namespace GPyOpt.Spec

open GPyOpt

/-- A call of the public interface of an optimizer object. -/
inductive Op
  | suggest (context : Option Context) (pending ignored : Option Mat)
  | run (args : RunArgs) (fuel : Nat)

/-- The state after a call, whatever its outcome (for a run that has not ended within `fuel` rounds:
the state at that moment). -/
def Op.after (env : BOEnv) : Op → BOState → BOState
  | .suggest c p i, s => (suggestNext env c p i s).1
  | .run a fuel, s => (runOptimization env a fuel s).1

/-- The call completed without exception. -/
def Op.Completes (env : BOEnv) : Op → BOState → Prop
  | .suggest c p i, s => ∃ m, (suggestNext env c p i s).2 = .ok m
  | .run a fuel, s => ∃ why, (runOptimization env a fuel s).2 = .done why

/-- The state after a sequence of calls. -/
def afterAll (env : BOEnv) : List Op → BOState → BOState
  | [], s => s
  | op :: ops, s => afterAll env ops (op.after env s)

/-- All calls of a sequence completed. -/
def AllComplete (env : BOEnv) : List Op → BOState → Prop
  | [], _ => True
  | op :: ops, s => op.Completes env s ∧ AllComplete env ops (op.after env s)

/-- The last two rows of `X` are at Euclidean distance at most `eps`. -/
def CloseLast (eps : ℚ) (X : Mat) : Prop :=
  ∃ pre b a, X = pre ++ [b, a] ∧
    Real.sqrt ((List.zipWith (fun u v : ℚ => ((u : ℝ) - v) ^ 2) a b).sum) ≤ eps

/-- After the time `t` a run with the arguments `a` may go on: there is no limit of time, or it is not reached. -/
def TimeLeft (a : RunArgs) (t : ℚ) : Prop := ∀ l : ℚ, a.maxTime = some (.fin l) → t < l

/-- After `k` iterations a run with the arguments `a` may go on: there is a limit of some kind, and `k` is less than the number
of iterations, if one is given. -/
def RoundsLeft (a : RunArgs) (k : Nat) : Prop :=
  (a.maxIter ≠ none ∨ a.maxTime ≠ none) ∧ ∀ n : ℚ, a.maxIter = some (.fin n) → (k : ℚ) < n

/-- `y` is the minimum of `Y`. -/
def IsMin (Y : Vec) (y : ℚ) : Prop := y ∈ Y ∧ ∀ v ∈ Y, y ≤ v

end GPyOpt.Spec
