import Verif.Model.Parallel
import Mathlib.Analysis.Real.Sqrt

/-!
# Model of `GPyOpt/models/gpmodel.py` (bookkeeping; GPy is a parameter)
-/

namespace GPyOpt

/-! ## `GPModel` -/

/-- `np.sqrt(np.clip(v, 1e-10, np.inf))` (`gpmodel.py:99,112`, `:137,142`, `:274`, `:314`). -/
noncomputable def clippedStd (v : ℝ) : ℝ := Real.sqrt (max v (1 / 10 ^ 10))

/-- Options of a `GPModel` (`gpmodel.py:32-44`); kernels, mean functions and optimizers are
represented by names. -/
structure GPConfig where
  kernel : Option String := none
  noiseVar : Option ℚ := none
  exactFeval : Bool := false
  optimizer : String := "bfgs"
  maxIters : Nat := 1000
  optimizeRestarts : Nat := 5
  sparse : Bool := false
  numInducing : Nat := 10
  verbose : Bool := true
  ard : Bool := false
  meanFunction : Option String := none
  deriving DecidableEq

/-- The GPy model a `GPModel` builds (`gpmodel.py:50-76`): kernel (`matern` with its ARD flag if none is
given), noise variance (`none` is the default `Y.var()*0.01`; the sparse model gets none), inducing
points, mean function, noise constraint, and the data. -/
structure GPyModel where
  kern : String
  ard : Bool
  sparse : Option Nat
  noise : Option (Option ℚ)
  meanFunction : Option String
  noiseFixed : Bool
  X : Mat
  Y : Vec
  deriving DecidableEq

/-- A `GPModel` object: options (with the kernel as it is now) and the GPy model. -/
structure GPObj where
  cfg : GPConfig
  model : Option GPyModel
  deriving DecidableEq

/-- `GPModel._create_model` (`gpmodel.py:50-76`); a given kernel is used once. -/
def GPObj.create (g : GPObj) (X : Mat) (Y : Vec) : GPObj :=
  let c := g.cfg
  { cfg := { c with kernel := none }
    model := some
      { kern := c.kernel.getD "matern"
        ard := if c.kernel = none then c.ard else false
        sparse := if c.sparse then some c.numInducing else none
        noise := if c.sparse then none else some c.noiseVar
        meanFunction := c.meanFunction
        noiseFixed := c.exactFeval
        X := X, Y := Y } }

/-- `GPModel.updateModel` (`gpmodel.py:78-93`), without the optimization of the parameters. -/
def GPObj.update (g : GPObj) (X : Mat) (Y : Vec) : GPObj :=
  match g.model with
  | none => g.create X Y
  | some m => { g with model := some { m with X := X, Y := Y } }

/-- `GPModel.copy` (`gpmodel.py:144-160`): the new object gets the kernel of the GPy model and some of
the options. `AttributeError` if there is no model yet. The ARD flag of the copied kernel is that of
the original kernel. -/
def GPObj.copy (g : GPObj) : Py GPObj :=
  match g.model with
  | none => .error .attributeError
  | some m =>
    let c : GPConfig :=
      { kernel := some m.kern, noiseVar := g.cfg.noiseVar, exactFeval := g.cfg.exactFeval,
        optimizer := g.cfg.optimizer, maxIters := g.cfg.maxIters,
        optimizeRestarts := g.cfg.optimizeRestarts, verbose := g.cfg.verbose, ard := g.cfg.ard }
    let g1 := GPObj.create { cfg := c, model := none } m.X m.Y
    let g2 := { g1 with model := g1.model.map fun (m' : GPyModel) => { m' with ard := m.ard } }
    .ok (g2.update m.X m.Y)

/-! ## Keyword arguments -/

/-- A call `f(**kwargs)` of a function with the given parameter names: unknown keywords raise
`TypeError`. -/
def callKw {α : Type} (params : List String) (kwargs : List String) (body : Py α) : Py α :=
  if kwargs.all (fun k => params.contains k) then body else .error .typeError

/-- Parameters of `GPModel.__init__` (`gpmodel.py:32`). -/
def gpModelParams : List String :=
  ["kernel", "noise_var", "exact_feval", "optimizer", "max_iters", "optimize_restarts", "sparse",
   "num_inducing", "verbose", "ARD", "mean_function"]

/-- Keywords in `GPModel_MCMC.copy` (`gpmodel.py:331-339`). -/
def mcmcCopyKwargs : List String :=
  ["kernel", "noise_var", "exact_feval", "n_samples", "n_burnin", "subsample_interval", "step_size",
   "leapfrog_steps", "verbose"]

/-- `GPModel_MCMC.copy` (`gpmodel.py:326-343`): calls the constructor of `GPModel`. -/
def mcmcCopy {α : Type} (rest : Py α) : Py α := callKw gpModelParams mcmcCopyKwargs rest

/-! ## `GPModel_MCMC` -/

/-- Thinning in `GPModel_MCMC.updateModel` (`gpmodel.py:254-255`): `hmc n` are the `n` samples drawn;
`ss[n_burnin::subsample_interval]` (a zero step raises). -/
def thinnedSamples {α : Type} (hmc : Nat → List α) (nSamples nBurnin interval : Nat) : Py (List α) :=
  if interval = 0 then .error .valueError
  else .ok (strided (hmc (nBurnin + nSamples * interval)) nBurnin interval)

/-- The state of the GPy model that predictions use: parameter array, mask of the parameters that are
not fixed (`_fixes_`, `none` if none is fixed), and the posterior computed from the parameters. -/
structure MCMCState (δ : Type) where
  params : List ℝ
  fixes : Option (List Bool)
  post : δ

/-- `a[mask] = s` for arrays of fitting sizes. -/
def assignMask : List Bool → List ℝ → List ℝ → List ℝ
  | true :: m, _ :: p, v :: s => v :: assignMask m p s
  | false :: m, x :: p, s => x :: assignMask m p s
  | _, p, _ => p

/-- `self.model[:] = s` or `self.model[self.model._fixes_] = s` (`gpmodel.py:264-267`); numpy raises if
the sizes do not fit (the broadcast of a sample with one entry is not modelled). -/
def setParams (fixes : Option (List Bool)) (p s : List ℝ) : Py (List ℝ) :=
  match fixes with
  | none => if s.length = p.length then .ok s else .error .valueError
  | some m => if m.length = p.length ∧ s.length = m.count true then .ok (assignMask m p s)
    else .error .valueError

/-- The loop over the samples (`gpmodel.py:263-270`, `:283-288`, `:303-319`): set the parameters,
recompute the posterior (`_trigger_params_changed`, here `infer`), compute with it. -/
def sampleLoop {δ β : Type} (infer : List ℝ → δ) (g : δ → Py β) :
    List (List ℝ) → MCMCState δ → MCMCState δ × Py (List β)
  | [], st => (st, .ok [])
  | s :: ss, st => match setParams st.fixes st.params s with
    | .error e => (st, .error e)
    | .ok p =>
      let st1 := { st with params := p, post := infer p }
      match g st1.post with
      | .error e => (st1, .error e)
      | .ok b => match sampleLoop infer g ss st1 with
        | (st2, .error e) => (st2, .error e)
        | (st2, .ok bs) => (st2, .ok (b :: bs))

/-- Saving and restoring the parameters around the loop (`gpmodel.py:263`, `:275-276` and the same in
`get_fmin` and `predict_withGradients`). -/
def withSamples {δ β : Type} (infer : List ℝ → δ) (g : δ → Py β) (samples : List (List ℝ))
    (st : MCMCState δ) : MCMCState δ × Py (List β) :=
  match sampleLoop infer g samples st with
  | (st1, .error e) => (st1, .error e)
  | (st1, .ok bs) => ({ st1 with params := st.params, post := infer st.params }, .ok bs)

/-- `GPModel_MCMC.predict` (`gpmodel.py:257-274`) at one location: mean and variance of the posterior. -/
noncomputable def mcmcPredict {δ : Type} (infer : List ℝ → δ) (predict : δ → List ℝ → Py (ℝ × ℝ))
    (samples : List (List ℝ)) (x : List ℝ) (st : MCMCState δ) : MCMCState δ × Py (List (ℝ × ℝ)) :=
  withSamples infer (fun d => (predict d x).map fun mv => (mv.1, clippedStd mv.2)) samples st

/-- `GPModel_MCMC.get_fmin` (`gpmodel.py:276-292`): minimum of the posterior mean over the training
inputs (at least one). -/
noncomputable def mcmcFmin {δ : Type} (infer : List ℝ → δ) (means : δ → Py (List ℝ))
    (samples : List (List ℝ)) (st : MCMCState δ) : MCMCState δ × Py (List ℝ) :=
  withSamples infer (fun d => match means d with
    | .error e => .error e
    | .ok [] => .error .valueError
    | .ok (m :: ms) => .ok (ms.foldl min m)) samples st

/-- `GPModel_MCMC.predict_withGradients` (`gpmodel.py:294-324`) at one location: mean, standard
deviation and their gradients. -/
noncomputable def mcmcPredictGrad {δ : Type} (infer : List ℝ → δ)
    (predict : δ → List ℝ → Py (ℝ × ℝ)) (grad : δ → List ℝ → Py (List ℝ × List ℝ))
    (samples : List (List ℝ)) (x : List ℝ) (st : MCMCState δ) :
    MCMCState δ × Py (List ((ℝ × ℝ) × List ℝ × List ℝ)) :=
  withSamples infer (fun d => match predict d x with
    | .error e => .error e
    | .ok mv => match grad d x with
      | .error e => .error e
      | .ok g => .ok ((mv.1, clippedStd mv.2), g.1, g.2.map fun dv => dv / (2 * clippedStd mv.2)))
    samples st

end GPyOpt
