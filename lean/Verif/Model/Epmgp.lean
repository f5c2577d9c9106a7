import Verif.Model.Acquisition
import Mathlib.LinearAlgebra.Matrix.NonsingularInverse
import Mathlib.Data.Fin.Tuple.Basic

/-!
# Model of `util/epmgp.py`: expectation propagation for the location of the minimum

Real arithmetic with matrices over `Fin`. `nan` results are `none`: in exact arithmetic the only `nan` is the `d`
of a step that failed with flag -1, after which all loops are left (`epmgp.py:146-153`), and the `d` that was
never set because there is only one point (`:135`). Infinite values of `z` (`:218-220`) do not occur.
-/

namespace GPyOpt

/-- Vectors and matrices. -/
abbrev RVec (D : Nat) := Fin D → ℝ
abbrev RMat (D : Nat) := Matrix (Fin D) (Fin D) ℝ

/-- `eps = np.finfo(np.float32).eps` (`epmgp.py:48`). -/
noncomputable def epEps : ℝ := 1 / 2 ^ 23

/-- `log_relative_gauss` (`epmgp.py:276-287`): ratio `e`, `logPhi` and the exit flag. -/
noncomputable def logRelativeGauss (z : ℝ) : ℝ × ℝ × Int :=
  if z < -6 then (1, -(10 ^ 12), -1)
  else if z > 6 then (0, 0, 1)
  else
    let logphi := -(1 / 2) * (z * z + (Real.log 2 + Real.log Real.pi))
    let logPhi := Real.log (1 / 2 * erfc (-z / √2))
    (Real.exp (logphi - logPhi), logPhi, 0)

/-- Result of one step. -/
structure LtOut (D : Nat) where
  M : RVec D
  V : RMat D
  p : ℝ
  mp : ℝ
  logS : ℝ
  d : ℝ

/-- The projections of the current marginal on the direction of the factor (`epmgp.py:213-215`). -/
noncomputable def ltcVc {D : Nat} (s l : Fin D) (V : RMat D) : ℝ := (V l l - 2 * V s l + V s s) / 2
noncomputable def ltVc {D : Nat} (s l : Fin D) (V : RMat D) : RVec D := fun a => (V a l - V a s) / √2
noncomputable def ltcM {D : Nat} (s l : Fin D) (M : RVec D) : ℝ := (M l - M s) / √2

/-- The projection to the new marginal, with the changes `dp` and `dmp` of the message
(`epmgp.py:240-242`, `:269-270`). -/
noncomputable def ltVnew {D : Nat} (s l : Fin D) (V : RMat D) (dp : ℝ) : RMat D :=
  V - (dp / (1 + dp * ltcVc s l V)) • Matrix.vecMulVec (ltVc s l V) (ltVc s l V)
noncomputable def ltMnew {D : Nat} (s l : Fin D) (M : RVec D) (V : RMat D) (dp dmp : ℝ) : RVec D :=
  M + ((dmp - ltcM s l M * dp) / (1 + dp * ltcVc s l V)) • ltVc s l V

/-- The new message from the ratio `e` and mean and variance of the cavity (`epmgp.py:223-230`): `beta`, `pnew`
and `mpnew`. -/
noncomputable def ltMessage (e cmni cVnic : ℝ) : ℝ × ℝ × ℝ :=
  let alpha := e / √cVnic
  let beta := alpha * (alpha * cVnic + cmni)
  let r := beta / (1 - beta)
  (beta, r / cVnic, r * (alpha + cmni / cVnic) + alpha)

/-- Variance and mean of the cavity (`epmgp.py:216-217`). -/
noncomputable def ltCavity (cVc cM mp p : ℝ) : ℝ × ℝ :=
  let cVnic := max (cVc / (1 - p * cVc)) 0
  (cVnic, cM + cVnic * (p * cM - mp))

/-- `lt_factor` (`epmgp.py:211-272`). -/
noncomputable def ltFactor {D : Nat} (s l : Fin D) (M : RVec D) (V : RMat D) (mp p gamma : ℝ) : Option (LtOut D) :=
  let cVc := ltcVc s l V
  let cM := ltcM s l M
  let cVnic := (ltCavity cVc cM mp p).1
  let cmni := (ltCavity cVc cM mp p).2
  let z := cmni / √(cVnic + 1 / 10 ^ 25)
  let (e, lP, flag) := logRelativeGauss z
  if flag = 0 then
    let alpha := e / √cVnic
    let (beta, pnew, mpnew) := ltMessage e cmni cVnic
    let dp := max (-p + epEps) (gamma * (pnew - p))
    let dmp := max (-mp + epEps) (gamma * (mpnew - mp))
    some
      { M := ltMnew s l M V dp dmp
        V := ltVnew s l V dp
        p := p + dp
        mp := mp + dmp
        logS := lP - 1 / 2 * (Real.log beta - Real.log (p + dp) - Real.log cVnic)
          + alpha * alpha / (2 * beta) * cVnic
        d := max dmp dp }
  else if flag = -1 then none
  else
    let dp := -p
    let dmp := -mp
    some
      { M := ltMnew s l M V dp dmp, V := ltVnew s l V dp, p := 0, mp := 0, logS := 0, d := max dmp dp }

/-- Variables of `min_faktor` for `n + 1` points (`epmgp.py:124-133`). -/
structure EPState (n : Nat) where
  M : RVec (n + 1)
  V : RMat (n + 1)
  P : RVec n
  MP : RVec n
  logS : RVec n

/-- The start (`epmgp.py:124-133`). -/
def epInit {n : Nat} (Mu : RVec (n + 1)) (Sigma : RMat (n + 1)) : EPState n :=
  { M := Mu, V := Sigma, P := fun _ => 0, MP := fun _ => 0, logS := fun _ => 0 }

/-- One pass of the inner loop (`epmgp.py:139-148`); `l = i if i < k else i + 1` is `k.succAbove i`. The second
component is `d`. -/
noncomputable def epStep {n : Nat} (k : Fin (n + 1)) (gamma : ℝ) (st : EPState n) (i : Fin n) :
    Option (EPState n × ℝ) :=
  match ltFactor k (k.succAbove i) st.M st.V (st.MP i) (st.P i) gamma with
  | none => none
  | some o => some
      ({ M := o.M, V := o.V, P := Function.update st.P i o.p, MP := Function.update st.MP i o.mp,
         logS := Function.update st.logS i o.logS }, o.d)

/-- The inner loop over a list of factors, summing `diff` (`epmgp.py:137-148`). -/
noncomputable def epSweep {n : Nat} (k : Fin (n + 1)) (gamma : ℝ) :
    List (Fin n) → EPState n → ℝ → Option (EPState n × ℝ)
  | [], st, diff => some (st, diff)
  | i :: is, st, diff =>
    match epStep k gamma st i with
    | none => none
    | some (st', d) => epSweep k gamma is st' (diff + |d|)

/-- The outer loop (`epmgp.py:136-153`), at most `fuel` sweeps (the code has 50). -/
noncomputable def epLoop {n : Nat} (k : Fin (n + 1)) (gamma : ℝ) : Nat → EPState n → Option (EPState n)
  | 0, st => some st
  | fuel + 1, st =>
    match epSweep k gamma (List.finRange n) st 0 with
    | none => none
    | some (st', diff) => if |diff| < 1 / 1000 then some st' else epLoop k gamma fuel st'

/-- The messages when the loops are left; `none` if `d` is `nan` (also for a single point, `epmgp.py:135`,
`:154-155`). -/
noncomputable def epRun {n : Nat} (Mu : RVec (n + 1)) (Sigma : RMat (n + 1)) (k : Fin (n + 1)) (gamma : ℝ) :
    Option (EPState n) :=
  if n = 0 then none else epLoop k gamma 50 (epInit Mu Sigma)

/-- The matrix `C` (`epmgp.py:168-170`): `eye / sqrt 2`, row `k` set to `-1 / sqrt 2`, column `k` deleted. -/
noncomputable def epC {n : Nat} (k : Fin (n + 1)) : Matrix (Fin (n + 1)) (Fin n) ℝ :=
  fun a i => if a = k then -1 / √2 else if a = k.succAbove i then 1 / √2 else 0

/-- `R` and `r` (`epmgp.py:172-173`). -/
noncomputable def epR {n : Nat} (k : Fin (n + 1)) (P : RVec n) : Matrix (Fin (n + 1)) (Fin n) ℝ :=
  fun a i => √(P i) * epC k a i
noncomputable def epr {n : Nat} (k : Fin (n + 1)) (MP : RVec n) : RVec (n + 1) :=
  fun a => ∑ i, MP i * epC k a i

/-- `IRSR` (`epmgp.py:179`). -/
noncomputable def epIRSR {n : Nat} (R : Matrix (Fin (n + 1)) (Fin n) ℝ) (Sigma : RMat (n + 1)) : RMat n :=
  1 + R.transpose * Sigma * R

/-- `A` before and after the symmetrization (`epmgp.py:181-183`); `np.linalg.solve` is the product with the
inverse. -/
noncomputable def epA {n : Nat} (R : Matrix (Fin (n + 1)) (Fin n) ℝ) (Sigma : RMat (n + 1)) : RMat (n + 1) :=
  let A := R * ((epIRSR R Sigma)⁻¹ * R.transpose)
  (1 / 2 : ℝ) • (A.transpose + A)

/-- `b` (`epmgp.py:184`). -/
noncomputable def epb {n : Nat} (Mu : RVec (n + 1)) (Sigma : RMat (n + 1)) (r : RVec (n + 1)) : RVec (n + 1) :=
  Mu + Sigma.mulVec r

/-- `mpm` (`epmgp.py:174-176`): sum over the nonzero `MP`. -/
noncomputable def epMpm {n : Nat} (P MP : RVec n) : ℝ :=
  ∑ i, if MP i ≠ 0 then MP i * MP i / P i else 0

/-- `logZ` from the messages (`epmgp.py:172-194`). Twice the sum of the logarithms of the diagonal of the Cholesky
factor is the logarithm of the determinant; in exact arithmetic the first factorization succeeds. -/
noncomputable def epLogZ {n : Nat} (k : Fin (n + 1)) (P MP logS : RVec n) (Mu : RVec (n + 1))
    (Sigma : RMat (n + 1)) : ℝ :=
  let R := epR k P
  let r := epr k MP
  let A := epA R Sigma
  let b := epb Mu Sigma r
  1 / 2 * (r ⬝ᵥ Sigma.mulVec r - b ⬝ᵥ A.mulVec b - Real.log (epIRSR R Sigma).det) + Mu ⬝ᵥ r
    + (∑ i, logS i) - 1 / 2 * epMpm P MP

/-- `dlogZdMu` (`epmgp.py:198`). -/
noncomputable def epDMu {n : Nat} (k : Fin (n + 1)) (P MP : RVec n) (Mu : RVec (n + 1)) (Sigma : RMat (n + 1)) :
    RVec (n + 1) :=
  epr k MP - (epA (epR k P) Sigma).mulVec (epb Mu Sigma (epr k MP))

/-- `dlogZdMudMu` (`epmgp.py:200`). -/
noncomputable def epDMuDMu {n : Nat} (k : Fin (n + 1)) (P : RVec n) (Sigma : RMat (n + 1)) : RMat (n + 1) :=
  -(epA (epR k P) Sigma)

/-- `dlogZdSigma` as a matrix, before it is packed (`epmgp.py:202-206`). -/
noncomputable def epDSigma {n : Nat} (k : Fin (n + 1)) (P MP : RVec n) (Mu : RVec (n + 1)) (Sigma : RMat (n + 1)) :
    RMat (n + 1) :=
  let r := epr k MP
  let A := epA (epR k P) Sigma
  let b := epb Mu Sigma r
  let Ab := A.mulVec b
  let btA := Matrix.vecMul b A
  let G := -A - (2 : ℝ) • Matrix.vecMulVec r Ab + Matrix.vecMulVec r r + Matrix.vecMulVec btA Ab
  (1 / 2 : ℝ) • (G + G.transpose - Matrix.diagonal fun a => G a a)

/-- What `min_faktor` yields (`epmgp.py:122-208`); the last component is the packed `dlogZdSigma` seen as a
matrix. `none` stands for `-inf` followed by zeros. -/
noncomputable def minFaktor {n : Nat} (Mu : RVec (n + 1)) (Sigma : RMat (n + 1)) (k : Fin (n + 1)) (gamma : ℝ) :
    Option (ℝ × RVec (n + 1) × RMat (n + 1) × RMat (n + 1)) :=
  (epRun Mu Sigma k gamma).map fun st =>
    (epLogZ k st.P st.MP st.logS Mu Sigma, epDMu k st.P st.MP Mu Sigma, epDMuDMu k st.P Sigma,
      epDSigma k st.P st.MP Mu Sigma)

/-- The log-probabilities before the normalization (`epmgp.py:81-92`): `-inf` becomes -500. -/
noncomputable def rawLogP {n : Nat} (Mu : RVec (n + 1)) (Sigma : RMat (n + 1)) : RVec (n + 1) :=
  fun k => match minFaktor Mu Sigma k 1 with
    | some o => o.1
    | none => -500

/-- The normalization (`epmgp.py:96-100`). -/
noncomputable def normalizeLogP {n : Nat} (logP : RVec (n + 1)) : RVec (n + 1) :=
  let maxLogP := Finset.univ.sup' Finset.univ_nonempty logP
  let s := maxLogP + Real.log (∑ i, Real.exp (logP i - maxLogP))
  fun i => logP i - s

/-- `joint_min` without derivatives (`epmgp.py:54-102`). -/
noncomputable def jointMin {n : Nat} (Mu : RVec (n + 1)) (Sigma : RMat (n + 1)) : RVec (n + 1) :=
  normalizeLogP (rawLogP Mu Sigma)

/-- The normalizing sums of the first derivatives (`epmgp.py:95`, `:108-109`); the rotations multiply row `k` by
`exp(logP[k])`. `ι` indexes the parameters. -/
noncomputable def epZ {n : Nat} (logP : RVec (n + 1)) : ℝ := ∑ k, Real.exp (logP k)
noncomputable def epZm {n : Nat} {ι : Type} (logP : RVec (n + 1)) (d : Fin (n + 1) → ι → ℝ) (j : ι) : ℝ :=
  (∑ k, Real.exp (logP k) * d k j) / epZ logP

/-- `dlogPdMu` and `dlogPdSigma` (`epmgp.py:111-112`). -/
noncomputable def adjustFirst {n : Nat} {ι : Type} (logP : RVec (n + 1)) (d : Fin (n + 1) → ι → ℝ)
    (k : Fin (n + 1)) (j : ι) : ℝ :=
  d k j - epZm logP d j

/-- `dlogPdMudMu` (`epmgp.py:114-118`). `Zm` is a vector, so `Zm.T * Zm` is its elementwise square, which numpy
adds to every row of `-gg`. -/
noncomputable def adjustSecond {n : Nat} (logP : RVec (n + 1)) (d : Fin (n + 1) → Fin (n + 1) → ℝ)
    (d2 : Fin (n + 1) → Fin (n + 1) → Fin (n + 1) → ℝ) (k i j : Fin (n + 1)) : ℝ :=
  let gg := (∑ k', (d2 k' i j + d k' i * d k' j) * Real.exp (logP k')) / epZ logP
  d2 k i j + (-gg + epZm logP d j * epZm logP d j)

/-! ## Packing of the symmetric derivative -/

/-- `np.rot90(G, k=2)` (`epmgp.py:207`). -/
def rot180 {α : Type} {D : Nat} (G : Fin D → Fin D → α) : Fin D → Fin D → α := fun i j => G i.rev j.rev

/-- Indices of `np.triu_indices(D)` in row-major order. -/
def triuIndices (D : Nat) : List (Fin D × Fin D) :=
  (List.finRange D).flatMap fun i => ((List.finRange D).filter fun j => decide (i ≤ j)).map fun j => (i, j)

/-- `np.rot90(G, k=2)[np.triu_indices(D)][::-1]` (`epmgp.py:207`). -/
def packSigma {α : Type} {D : Nat} (G : Fin D → Fin D → α) : List α :=
  ((triuIndices D).map fun ij => rot180 G ij.1 ij.2).reverse

/-- `dVdx[np.triu(np.ones((N, N))).T.astype(bool)]` (`ES.py:148`): the entries of the lower triangle in
row-major order. -/
def lowerTriangle {α : Type} {D : Nat} (G : Fin D → Fin D → α) : List α :=
  (List.finRange D).flatMap fun i => ((List.finRange D).filter fun j => decide (j ≤ i)).map fun j => G i j

end GPyOpt
