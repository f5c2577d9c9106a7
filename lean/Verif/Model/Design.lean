import Verif.Model.Space

/-!
# Model of `GPyOpt/experiment_design/`

Random sources are parameters: a `Draw` is everything one call of
`get_samples_without_constraints` obtains from numpy.  Matrices are produced row by row (numpy
fills them column by column; the two orders give the same matrix).
-/

namespace GPyOpt

/-- Random data consumed by one unconstrained design: initial content of `np.empty` (row,
column), index drawn for a non-continuous variable (variable, row), uniform number in [0,1]
drawn for a continuous dimension (dimension, row). -/
structure Draw where
  junk : Nat → Nat → ℚ
  choice : Nat → Nat → Nat
  unif : Nat → Nat → ℚ

/-- `samples[r, i] = v`: `IndexError` outside the array. -/
def setCol (row : Vec) (i : Nat) (v : ℚ) : Py Vec :=
  if i < row.length then .ok (row.set i v) else .error .indexError

/-- `row[cols] = vals` for index arrays of equal length (left to right). -/
def scatter : List Nat → Vec → Vec → Py Vec
  | i :: is, v :: vs, row => match setCol row i v with
    | .error e => .error e
    | .ok row' => scatter is vs row'
  | _, _, row => .ok row

/-- `np.random.choice(domain, n)[r]`, the position being drawn modulo the length; an empty domain
is a `ValueError`. -/
def chooseFrom {α : Type} (dom : List α) (i : Nat) : Py α :=
  match dom[i % dom.length]? with
  | some v => .ok v
  | none => .error .valueError

/-- `fill_noncontinous_variables` (`random_design.py:37-53`) for row `r`; `idx` is the position
of the variable in the expanded space. A bandit with arms of width `w` writes columns
`idx .. idx+w-1` (`:52`). -/
def fillRow (d : Draw) (r : Nat) : Nat → List EVar → Vec → Py Vec
  | _, [], row => .ok row
  | idx, v :: vs, row =>
    match v.kind with
    | .continuous .. => fillRow d r (idx + 1) vs row
    | .discrete vals => match chooseFrom vals (d.choice idx r) with
      | .error e => .error e
      | .ok x => match setCol row idx x with
        | .error e => .error e
        | .ok row' => fillRow d r (idx + 1) vs row'
    | .categorical labels => match chooseFrom labels (d.choice idx r) with
      | .error e => .error e
      | .ok x => match setCol row idx x with
        | .error e => .error e
        | .ok row' => fillRow d r (idx + 1) vs row'
    | .bandit arms => match chooseFrom arms (d.choice idx r) with
      | .error e => .error e
      | .ok a => match scatter ((List.range (armDim arms)).map (idx + ·)) a row with
        | .error e => .error e
        | .ok row' => fillRow d r (idx + 1) vs row'

/-- `samples_multidimensional_uniform` (`random_design.py:67-77`), one row:
`np.random.uniform(lo, hi) = lo + (hi - lo) * u`. -/
def uniformRow (u : Nat → ℚ) (bounds : List (ℚ × ℚ)) : Vec :=
  bounds.mapIdx fun k b => b.1 + (b.2 - b.1) * u k

/-- `samples[:, self.space.get_continuous_dims()] = X_design` for one row, under
`if self.space.has_continuous()` (`random_design.py:61-63`, `grid_design.py:38-40`,
`latin_design.py:33-44`, `sobol_design.py:25-33`). -/
def putContinuous (sp : Space) (row design : Vec) : Py Vec :=
  if sp.hasContinuous then
    match sp.getContinuousDims with
    | .error e => .error e
    | .ok dims => scatter dims design row
  else .ok row

/-- Fresh row of `np.empty((n, self.space.dimensionality))`. -/
def emptyRow (sp : Space) (d : Draw) (r : Nat) : Vec := (List.range sp.dimensionality).map (d.junk r)

/-- One row of a design: non-continuous variables drawn at random, continuous ones from
`design`. -/
def designRow (sp : Space) (d : Draw) (design : Nat → Vec) (r : Nat) : Py Vec :=
  match fillRow d r 0 sp.expanded (emptyRow sp d r) with
  | .error e => .error e
  | .ok row => putContinuous sp row (design r)

/-- `RandomDesign.get_samples_without_constraints` (`random_design.py:56-65`). -/
def randomNoConstr (sp : Space) (d : Draw) (n : Nat) : Py Mat :=
  mapE (designRow sp d fun r => uniformRow (fun k => d.unif k r) sp.getContinuousBounds) (List.range n)

/-- Rows of `m` whose weight is 1 (`domain_samples[valid_indices,:]`). -/
def selectValid (m : Mat) (w : List ℚ) : Mat :=
  (m.zip w).filterMap fun p => if p.2 = 1 then some p.1 else none

/-- The `while` loop of `RandomDesign.get_samples_with_constraints` (`random_design.py:28-35`);
`ds` is the stream of random draws, `round` counts the iterations. `fuel` bounds the number of
iterations of the model: when it is used up the result is `outOfFuel`. -/
def constrLoop (sp : Space) (n : Nat) (ds : Nat → Draw) : (fuel round : Nat) → Mat → Py Mat
  | fuel, round, samples =>
    if samples.length < n then
      match fuel with
      | 0 => .error .outOfFuel
      | fuel + 1 => match randomNoConstr sp (ds round) n with
        | .error e => .error e
        | .ok dom => match sp.indicatorConstraints dom with
          | .error e => .error e
          | .ok w => constrLoop sp n ds fuel (round + 1) (samples ++ selectValid dom w)
    else .ok (samples.take n)

/-- `RandomDesign.get_samples` (`random_design.py:15-19`). -/
def randomDesign (sp : Space) (ds : Nat → Draw) (fuel n : Nat) : Py Mat :=
  if sp.hasConstraints then constrLoop sp n ds fuel 0 [] else randomNoConstr sp (ds 0) n

/-- `LatinDesign.get_samples` (`latin_design.py:13-46`): `u r k` is entry `(r,k)` of
`lhs(dim, n)`. -/
def latinDesign (sp : Space) (d : Draw) (u : Nat → Nat → ℚ) (n : Nat) : Py Mat :=
  if sp.hasConstraints then .error .invalidConfig
  else mapE (designRow sp d fun r => sp.getContinuousBounds.mapIdx fun k b => b.1 + u r k * (b.2 - b.1))
    (List.range n)

/-- `SobolDesign.get_samples` (`sobol_design.py:13-35`): `u r k` is entry `(r,k)` of
`i4_sobol_generate(dim, n)`. -/
def sobolDesign (sp : Space) (d : Draw) (u : Nat → Nat → ℚ) (n : Nat) : Py Mat :=
  if sp.hasConstraints then .error .invalidConfig
  else mapE (designRow sp d fun r => sp.getContinuousBounds.mapIdx fun k b => u r k * (b.2 - b.1) + b.1)
    (List.range n)

/-- The loop of `iroot` (`grid_design.py:53-58`). `t // k` with `k = 0` and `n // pow(0, k-1)`
with `k ≥ 2` are `ZeroDivisionError`s. -/
def irootLoop (k n : Nat) (u s : Nat) : Py Nat :=
  if u < s then
    if k = 0 then .error .zeroDivision
    else if u = 0 ∧ 2 ≤ k then .error .zeroDivision
    else irootLoop k n (((k - 1) * u + n / u ^ (k - 1)) / k) u
  else .ok s
termination_by s

/-- `iroot` (`grid_design.py:48-58`), for non-negative arguments. -/
def iroot (k n : Nat) : Py Nat := irootLoop k n n (n + 1)

/-- Entry `i` of `np.linspace(lo, hi, m)`. -/
def linspaceAt (lo hi : ℚ) (m i : Nat) : ℚ :=
  if m ≤ 1 then lo else lo + (i : ℚ) * ((hi - lo) / ((m : ℚ) - 1))

/-- Exponent of the stride of dimension `k` in `multigrid`: `np.meshgrid` uses 'xy' indexing,
which swaps the first two axes (`grid_design.py:68`). -/
def gridStride : Nat → Nat
  | 0 => 1
  | 1 => 0
  | k => k

/-- Row `r` of `multigrid` (`grid_design.py:60-70`) with `m` points per dimension: a single
dimension is a plain `linspace` (`:66-67`), otherwise the 'F'-flattened mesh grid. -/
def multigridRow (bounds : List (ℚ × ℚ)) (m r : Nat) : Vec :=
  match bounds with
  | [b] => [linspaceAt b.1 b.2 m r]
  | bs => bs.mapIdx fun k b => linspaceAt b.1 b.2 m ((r / m ^ gridStride k) % m)

/-- `GridDesign.get_samples` (`grid_design.py:14-43`). -/
def gridDesign (sp : Space) (d : Draw) (n : Nat) : Py Mat :=
  if sp.hasConstraints then .error .invalidConfig
  else match sp.getContinuousDims with
    | .error e => .error e
    | .ok dims => match iroot dims.length n with
      | .error e => .error e
      | .ok m => mapE (designRow sp d fun r => multigridRow sp.getContinuousBounds m r)
          (List.range (m ^ dims.length))

/-- Everything a design may ask from the outside: draws, `lhs`, `i4_sobol_generate`, and the
number of rejection rounds the model follows. -/
structure DesignOracle where
  draws : Nat → Draw
  lhs : Nat → Nat → ℚ
  sobol : Nat → Nat → ℚ
  fuel : Nat

/-- `initial_design` (`experiment_design/__init__.py:7-20`). -/
def initialDesign (name : String) (sp : Space) (o : DesignOracle) (n : Nat) : Py Mat :=
  if name = "random" then randomDesign sp o.draws o.fuel n
  else if name = "sobol" then sobolDesign sp (o.draws 0) o.sobol n
  else if name = "grid" then gridDesign sp (o.draws 0) n
  else if name = "latin" then latinDesign sp (o.draws 0) o.lhs n
  else .error .valueError

end GPyOpt
