import Verif.Model.Epmgp
import Verif.Model.GPModel

/-!
# Model of the entropy search acquisition (`acquisitions/ES.py`) and of the covariance predictions of `GPModel`

The Gaussian process library is a parameter: `Posterior` is what GPy reports for the current data.  The sampler
of representer points is a parameter as well: the points and log-densities it returns.
-/

namespace GPyOpt

/-- Posterior of the Gaussian process: mean, covariance of the latent function
(`posterior_covariance_between_points`, `gpmodel.py:173-177`) and noise variance. -/
structure Posterior where
  mean : List ℝ → ℝ
  cov : List ℝ → List ℝ → ℝ
  noise : ℝ

/-- What GPy's `predict` with `full_cov=True` and `include_likelihood=with_noise` returns for a list of points
(`gpmodel.py:98`). -/
def Posterior.fullCov {D : Nat} (post : Posterior) (withNoise : Bool) (pts : Fin D → List ℝ) :
    Matrix (Fin D) (Fin D) ℝ :=
  Matrix.of fun i j => post.cov (pts i) (pts j) + if withNoise ∧ i = j then post.noise else 0

/-- `GPModel.predict_covariance` (`gpmodel.py:114-123`, `:95-100`): `np.clip(v, 1e-10, np.inf)` acts on every entry
of the matrix. -/
noncomputable def Posterior.predictCovariance {D : Nat} (post : Posterior) (withNoise : Bool) (pts : Fin D → List ℝ) :
    Matrix (Fin D) (Fin D) ℝ :=
  Matrix.of fun i j => max (post.fullCov withNoise pts i j) (1 / 10 ^ 10)

/-- Deviation returned by `GPModel.predict` (`gpmodel.py:102-112`). -/
noncomputable def Posterior.std (post : Posterior) (withNoise : Bool) (x : List ℝ) : ℝ :=
  clippedStd (post.cov x x + if withNoise then post.noise else 0)

/-! ## `joint_min` with derivatives -/

/-- The rows of `dlogPdMu`, `dlogPdMudMu` and `dlogPdSigma` before the adjustment (`epmgp.py:83-90`); zeros where
the propagation failed (`:158-165`). -/
noncomputable def rawDMu {n : Nat} (Mu : RVec (n + 1)) (Sigma : RMat (n + 1)) (k i : Fin (n + 1)) : ℝ :=
  match minFaktor Mu Sigma k 1 with
  | some o => o.2.1 i
  | none => 0
noncomputable def rawDMuDMu {n : Nat} (Mu : RVec (n + 1)) (Sigma : RMat (n + 1)) (k i j : Fin (n + 1)) : ℝ :=
  match minFaktor Mu Sigma k 1 with
  | some o => o.2.2.1 i j
  | none => 0
noncomputable def rawDSigma {n : Nat} (Mu : RVec (n + 1)) (Sigma : RMat (n + 1)) (k : Fin (n + 1)) : List ℝ :=
  match minFaktor Mu Sigma k 1 with
  | some o => packSigma fun i j => o.2.2.2 i j
  | none => List.replicate ((n + 1) * (n + 2) / 2) 0

/-- `dlogPdSigma` after the adjustment, on the packed rows (`epmgp.py:109`, `:112`). -/
noncomputable def adjustPacked {n : Nat} (logP : RVec (n + 1)) (rows : Fin (n + 1) → List ℝ) (k : Fin (n + 1)) :
    List ℝ :=
  List.zipWith (· - ·) (rows k) ((List.range ((n + 1) * (n + 2) / 2)).map fun p =>
    (∑ k', Real.exp (logP k') * (rows k').getD p 0) / epZ logP)

/-! ## The acquisition -/

/-- A log-density as a floating point number. -/
inductive LogVal
  | nan
  | posInf
  | negInf
  | fin (r : ℝ)

/-- What `_update_parameters` stores (`ES.py:85-112`), for `n + 1` representer points. -/
structure ESParams where
  n : Nat
  points : Fin (n + 1) → List ℝ
  logs : RVec (n + 1)
  logP : RVec (n + 1)
  dMu : Fin (n + 1) → Fin (n + 1) → ℝ
  dSigma : Fin (n + 1) → List ℝ
  dMuDMu : Fin (n + 1) → Fin (n + 1) → Fin (n + 1) → ℝ

/-- Prediction at the representer points and the belief (`ES.py:104-112`). -/
noncomputable def esBelief (post : Posterior) {n : Nat} (points : Fin (n + 1) → List ℝ) (logs : RVec (n + 1)) :
    ESParams :=
  let mu : RVec (n + 1) := fun i => post.mean (points i)
  let var := post.predictCovariance true points
  let old := rawLogP mu var
  { n := n, points := points, logs := logs
    logP := normalizeLogP old
    dMu := adjustFirst old (rawDMu mu var)
    dSigma := adjustPacked old (rawDSigma mu var)
    dMuDMu := adjustSecond old (rawDMu mu var) (rawDMuDMu mu var) }

/-- The test for invalid log-densities (`ES.py:94`). -/
def badLog : LogVal → Bool
  | .nan => true
  | .posInf => true
  | _ => false

/-- Removal of points with log-density minus infinity (`ES.py:98-102`); the remaining indices are taken in
increasing order (Python iterates over a set of small integers in that order). -/
def keepFinite : List (List ℝ × LogVal) → List (List ℝ × ℝ)
  | [] => []
  | (x, .fin r) :: l => (x, r) :: keepFinite l
  | _ :: l => keepFinite l

/-- `_update_parameters` (`ES.py:85-112`) on the samples the sampler returns; a `RuntimeError` for invalid
log-densities, an error of numpy if no point remains. -/
noncomputable def esUpdate (post : Posterior) (samples : List (List ℝ × LogVal)) : Py ESParams :=
  if samples.any (fun s => badLog s.2) then .error .exception
  else
    match keepFinite samples with
    | [] => .error .valueError
    | s :: l => .ok (esBelief post (n := l.length) (fun i => ((s :: l).get i).1) fun i => ((s :: l).get i).2)

/-- `_innovations` (`ES.py:175-207`): change of the means per standard normal innovation, and change of the
covariances. -/
noncomputable def innovMean (post : Posterior) {D : Nat} (points : Fin D → List ℝ) (x : List ℝ) : RVec D :=
  fun i => post.cov (points i) x / post.std false x
noncomputable def innovVar {D : Nat} (dm : RVec D) : RMat D := Matrix.of fun i j => -(dm i * dm j)

/-- The predicted log-probabilities for the innovation `w` (`ES.py:145-158`). -/
noncomputable def esPredicted (prm : ESParams) (dm : RVec (prm.n + 1)) (w : ℝ) : RVec (prm.n + 1) := fun k =>
  prm.logP k
    + ((List.zipWith (· * ·) (prm.dSigma k) (lowerTriangle fun i j => innovVar dm i j)).sum
      + 1 / 2 * ∑ i, ∑ j, prm.dMuDMu k i j * (dm i * dm j))
    + (∑ i, prm.dMu k i * dm i) * w

/-- The value for one innovation (`ES.py:159-167`); the normalization is the one of `joint_min`. -/
noncomputable def esValue (prm : ESParams) (dm : RVec (prm.n + 1)) (w : ℝ) : ℝ :=
  let q := normalizeLogP (esPredicted prm dm w)
  ∑ k, Real.exp (q k) * (q k + prm.logs k)

/-- `_compute_acq` for one row, with initialized parameters (`ES.py:140-170`); `W` are the innovations
(`:76-78`). -/
noncomputable def esAcq (W : List ℝ) (post : Posterior) (prm : ESParams) (x : List ℝ) : ℝ :=
  (W.map (esValue prm (innovMean post prm.points x))).sum / W.length

/-- `_compute_acq` (`ES.py:124-170`): `cols` is `x.shape[1]`, `samples` what the sampler would return now, `st` the
stored parameters, which are computed only if they are missing. A matrix without rows fails in numpy (`:156`). -/
noncomputable def esCompute (inputDim : Nat) (W : List ℝ) (post : Posterior) (samples : List (List ℝ × LogVal))
    (cols : Nat) (X : List (List ℝ)) (st : Option ESParams) : Py (List ℝ) × Option ESParams :=
  if cols ≠ inputDim then (.error .valueError, st)
  else
    match (match st with
      | some p => .ok p
      | none => esUpdate post samples : Py ESParams) with
    | .error e => (.error e, none)
    | .ok prm => (if X.isEmpty then .error .valueError else .ok (X.map (esAcq W post prm)), some prm)

/-- A sequence of evaluations of the acquisition; between them the model may have been updated, so that every
evaluation has its own posterior and samples. -/
noncomputable def esHistory (inputDim : Nat) (W : List ℝ)
    (calls : List (Posterior × List (List ℝ × LogVal) × Nat × List (List ℝ))) (st : Option ESParams) :
    Option ESParams :=
  calls.foldl (fun st c => (esCompute inputDim W c.1 c.2.1 c.2.2.1 c.2.2.2 st).2) st

end GPyOpt
