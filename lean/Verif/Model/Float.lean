import Verif.Model.Design
import Verif.Model.General

/-!
# Floating-point arithmetic

The arithmetic of experiment designs, output normalization and rounding to the domain, with every operation followed by a
rounding `rd`. The other modules compute exactly. Rational numbers; no overflow and no underflow.
-/

namespace GPyOpt

/-- `lower + X * (upper - lower)` (`latin_design.py:40-42`), `X * (upper - lower) + lower` (`sobol_design.py:30-33`; the
product with the diagonal matrix adds zeros) and `np.random.uniform(low, high)` (`random_design.py:76`), in floating-point
arithmetic. -/
def flAffine (rd : ℚ → ℚ) (lo hi u : ℚ) : ℚ := rd (lo + rd (u * rd (hi - lo)))

/-- The continuous part of a row. -/
def flRow (rd : ℚ → ℚ) (u : Nat → ℚ) (bounds : List (ℚ × ℚ)) : Vec := bounds.mapIdx fun k b => flAffine rd b.1 b.2 (u k)

/-- `RandomDesign.get_samples_without_constraints` (`random_design.py:56-65`). -/
def flRandomNoConstr (rd : ℚ → ℚ) (sp : Space) (d : Draw) (n : Nat) : Py Mat :=
  mapE (designRow sp d fun r => flRow rd (fun k => d.unif k r) sp.getContinuousBounds) (List.range n)

/-- The loop of `get_samples_with_constraints` (`random_design.py:28-35`). -/
def flConstrLoop (rd : ℚ → ℚ) (sp : Space) (n : Nat) (ds : Nat → Draw) : (fuel round : Nat) → Mat → Py Mat
  | fuel, round, samples =>
    if samples.length < n then
      match fuel with
      | 0 => .error .outOfFuel
      | fuel + 1 => match flRandomNoConstr rd sp (ds round) n with
        | .error e => .error e
        | .ok dom => match sp.indicatorConstraints dom with
          | .error e => .error e
          | .ok w => flConstrLoop rd sp n ds fuel (round + 1) (samples ++ selectValid dom w)
    else .ok (samples.take n)

/-- Entry `i` of `np.linspace(lo, hi, m)`: `arange(m) * step + start`, and the last entry is set to `hi`. -/
def flLinspaceAt (rd : ℚ → ℚ) (lo hi : ℚ) (m i : Nat) : ℚ :=
  if m ≤ 1 then lo
  else if i + 1 = m then hi
  else rd (rd ((i : ℚ) * rd (rd (hi - lo) / ((m : ℚ) - 1))) + lo)

/-- Row `r` of `multigrid` (`grid_design.py:60-70`). -/
def flMultigridRow (rd : ℚ → ℚ) (bounds : List (ℚ × ℚ)) (m r : Nat) : Vec :=
  match bounds with
  | [b] => [flLinspaceAt rd b.1 b.2 m r]
  | bs => bs.mapIdx fun k b => flLinspaceAt rd b.1 b.2 m ((r / m ^ gridStride k) % m)

/-- `initial_design` (`experiment_design/__init__.py:7-20`) in floating-point arithmetic. -/
def flInitialDesign (rd : ℚ → ℚ) (name : String) (sp : Space) (o : DesignOracle) (n : Nat) : Py Mat :=
  if name = "random" then
    if sp.hasConstraints then flConstrLoop rd sp n o.draws o.fuel 0 [] else flRandomNoConstr rd sp (o.draws 0) n
  else if name = "sobol" then
    if sp.hasConstraints then .error .invalidConfig
    else mapE (designRow sp (o.draws 0) fun r => flRow rd (o.sobol r) sp.getContinuousBounds) (List.range n)
  else if name = "grid" then
    if sp.hasConstraints then .error .invalidConfig
    else match sp.getContinuousDims with
      | .error e => .error e
      | .ok dims => match iroot dims.length n with
        | .error e => .error e
        | .ok m => mapE (designRow sp (o.draws 0) fun r => flMultigridRow rd sp.getContinuousBounds m r)
            (List.range (m ^ dims.length))
  else if name = "latin" then
    if sp.hasConstraints then .error .invalidConfig
    else mapE (designRow sp (o.draws 0) fun r => flRow rd (o.lhs r) sp.getContinuousBounds) (List.range n)
  else .error .valueError

/-- `Y.min()` and `Y.max()` of a non-empty array: no arithmetic. -/
def minQ (Y : List ℚ) : ℚ := Y.foldl min (Y.headD 0)
def maxQ (Y : List ℚ) : ℚ := Y.foldl max (Y.headD 0)

/-- The sum of fewer than eight numbers as numpy computes it. -/
def flSum (rd : ℚ → ℚ) (Y : List ℚ) : ℚ := Y.foldl (fun s y => rd (s + y)) 0

/-- `normalize` (`general.py:203-234`) of a non-empty vector. `sum` is the summation and `sq` the square root of the
library; `Y.std()` subtracts the mean, squares, sums and divides. -/
def flNormalize (rd : ℚ → ℚ) (sum : List ℚ → ℚ) (sq : ℚ → ℚ) (Y : List ℚ) (type : String) : Py (List ℚ) :=
  if type = "stats" then
    let mean := rd (sum Y / Y.length)
    let Yn := Y.map fun y => rd (y - mean)
    let std := sq (rd (sum (Yn.map fun y => rd (y * y)) / Y.length))
    if 0 < std then .ok (Yn.map fun y => rd (y / std)) else .ok Yn
  else if type = "maxmin" then
    let Yn := Y.map fun y => rd (y - minQ Y)
    let range := rd (maxQ Y - minQ Y)
    if 0 < range then .ok (Yn.map fun y => rd (2 * rd (rd (y / range) - 1 / 2))) else .ok Yn
  else .error .valueError

/-- The loop of `DiscreteVariable.round` (`variables.py:183-185`). -/
def flRoundDiscreteLoop (rd : ℚ → ℚ) (value : ℚ) : List ℚ → ℚ → ℚ
  | [], r => r
  | d :: ds, r => flRoundDiscreteLoop rd value ds (if |rd (d - value)| < |rd (r - value)| then d else r)

/-- `variable.round` (`variables.py:100-116`, `:175-187`, `:219-227`): continuous and categorical variables are rounded
without arithmetic; bandit variables are left to the exact model. -/
def flKindRound (rd : ℚ → ℚ) (k : Kind) (v : Vec) : Py Piece :=
  match k with
  | .discrete vals => match npGet v 0 with
    | .error e => .error e
    | .ok x => match npGet vals 0 with
      | .error e => .error e
      | .ok r0 => .ok (.flat [flRoundDiscreteLoop rd x vals r0])
  | k => k.round v

/-- Loop of `round_optimum` (`space.py:333-340`). -/
def flRoundPieces (rd : ℚ → ℚ) (x : Vec) : Nat → List EVar → Py (List Piece)
  | _, [] => .ok []
  | idx, v :: vs => match flKindRound rd v.kind (slice x idx v.kind.dimInModel) with
    | .error e => .error e
    | .ok p => match flRoundPieces rd x (idx + v.kind.dimInModel) vs with
      | .error e => .error e
      | .ok ps => .ok (p :: ps)

/-- `round_optimum` (`space.py:321-342`). -/
def flRoundOptimum (rd : ℚ → ℚ) (sp : Space) (x : Vec) : Py Mat :=
  match flRoundPieces rd x 0 sp.expanded with
  | .error e => .error e
  | .ok ps => concatPieces ps

end GPyOpt
