import Verif.Model.LocalPenalization

/-!
# Acquisitions on arrays

The other files apply a function that numpy evaluates on arrays to one row at a time. Here arrays have shapes and operations
broadcast, so that what acquisitions return for several locations at once can be stated.
-/

namespace GPyOpt

/-- An array of one dimension (`vec`, one row and `c` columns) or two (`r` rows, `c` columns). Entries outside the shape are
not used. -/
structure BArr where
  vec : Bool
  r : Nat
  c : Nat
  e : Nat → Nat → ℝ

namespace BArr

/-- numpy's broadcasting rule for one axis. -/
def bdim (a b : Nat) : Option Nat :=
  if a = b then some a else if a = 1 then some b else if b = 1 then some a else none

/-- An operation on two arrays; an array of one dimension is a row. Shapes that do not fit raise `ValueError`. -/
def bop (f : ℝ → ℝ → ℝ) (A B : BArr) : Py BArr :=
  match bdim A.r B.r, bdim A.c B.c with
  | some r, some c =>
    .ok { vec := A.vec && B.vec, r := r, c := c
          e := fun i j => f (A.e (if A.r = 1 then 0 else i) (if A.c = 1 then 0 else j))
            (B.e (if B.r = 1 then 0 else i) (if B.c = 1 then 0 else j)) }
  | _, _ => .error .valueError

/-- An operation on every entry, also one with a scalar. -/
def smap (f : ℝ → ℝ) (A : BArr) : BArr := { A with e := fun i j => f (A.e i j) }

/-- `A[:,0]`. -/
def col0 (A : BArr) : BArr := { vec := true, r := 1, c := A.r, e := fun _ j => A.e j 0 }

end BArr

open BArr

/-- `phi`, `Phi`, `u` and the clipped deviation as arrays. -/
structure QuantilesArr where
  phi : BArr
  Phi : BArr
  u : BArr
  s : BArr

/-- `get_quantiles` (`util/general.py:113-128`). -/
noncomputable def quantilesArr (jitter fmin : ℝ) (m s : BArr) : Py QuantilesArr := do
  let s := smap clipStd s
  let u ← bop (· / ·) (smap (fun m => fmin - m - jitter) m) s
  .ok { phi := smap npdf u, Phi := smap ncdf u, u := u, s := s }

/-- `AcquisitionEI._compute_acq` (`EI.py:32-40`). -/
noncomputable def eiArr (jitter fmin : ℝ) (m s : BArr) : Py BArr := do
  let q ← quantilesArr jitter fmin m s
  let t ← bop (· * ·) q.u q.Phi
  let t ← bop (· + ·) t q.phi
  bop (· * ·) q.s t

/-- The derivative in `AcquisitionEI._compute_acq_withGradients` (`EI.py:42-51`). -/
noncomputable def eiGradArr (jitter fmin : ℝ) (m s dm ds : BArr) : Py BArr := do
  let q ← quantilesArr jitter fmin m s
  let a ← bop (· * ·) ds q.phi
  let b ← bop (· * ·) q.Phi dm
  bop (· - ·) a b

/-- `AcquisitionMPI._compute_acq` (`MPI.py:32-40`). -/
noncomputable def mpiArr (jitter fmin : ℝ) (m s : BArr) : Py BArr := do
  let q ← quantilesArr jitter fmin m s
  .ok q.Phi

/-- The derivative in `AcquisitionMPI._compute_acq_withGradients` (`MPI.py:42-51`). -/
noncomputable def mpiGradArr (jitter fmin : ℝ) (m s dm ds : BArr) : Py BArr := do
  let q ← quantilesArr jitter fmin m s
  let a ← bop (· / ·) q.phi q.s
  let b ← bop (· * ·) ds q.u
  let b ← bop (· + ·) dm b
  bop (· * ·) (smap (fun y => -y) a) b

/-- `AcquisitionLCB._compute_acq` and, applied to the derivatives, `_compute_acq_withGradients` (`LCB.py:35-50`). -/
noncomputable def lcbArr (w : ℝ) (m s : BArr) : Py BArr := bop (· + ·) (smap (fun y => -y) m) (smap (w * ·) s)

/-- What the MCMC model predicts for one sample of the hyper-parameters. -/
structure SampleArr where
  m : BArr
  s : BArr
  fmin : ℝ
  dm : BArr
  ds : BArr

/-- The term of one sample in `AcquisitionEI_MCMC` (`EI_mcmc.py:37-38`, `:50-51`). -/
noncomputable def eiTermArr (jitter : ℝ) (x : SampleArr) : Py BArr := do
  let q ← quantilesArr jitter x.fmin x.m x.s
  let a ← bop (· * ·) (smap (fun m => x.fmin - m + jitter) x.m) q.Phi
  let b ← bop (· * ·) q.s q.phi
  bop (· + ·) a b

/-- The sum over the samples, which starts with the first term (`EI_mcmc.py:49-58`) or, what is the same array, with the
scalar 0 (`EI_mcmc.py:35-38`), and its average. -/
noncomputable def averageArr (term : SampleArr → Py BArr) : List SampleArr → Py BArr
  | [] => .error .zeroDivision
  | x :: xs => do
    let t ← term x
    let r ← xs.foldlM (fun acc y => do
      let t ← term y
      bop (· + ·) acc t) (smap (0 + ·) t)
    .ok (smap (· / ((x :: xs).length : ℕ)) r)

/-- `acquisition_function` (`acquisitions/base.py:33-40`). -/
noncomputable def weightedArr (f ind cost : BArr) : Py BArr := do
  let a ← bop (· * ·) f ind
  bop (· / ·) (smap (fun y => -y) a) cost

/-- The derivative in `acquisition_function_withGradients` (`acquisitions/base.py:43-52`). -/
noncomputable def weightedGradArr (f df ind cost dcost : BArr) : Py BArr := do
  let a ← bop (· * ·) df cost
  let b ← bop (· * ·) f dcost
  let d ← bop (· - ·) a b
  let d ← bop (· / ·) d (smap (· ^ 2) cost)
  bop (· * ·) (smap (fun y => -y) d) ind

/-- `_penalized_acquisition` (`LP.py:70-89`) at the `n` locations `X`, `acq` being the array the underlying acquisition
returns; `h_vals.sum(axis=-1)` is an array of one dimension. -/
noncomputable def lpValueArr {d : Nat} (t : LPTransform) (acq : BArr) (batch : Option (List (Hammer d))) (n : Nat)
    (X : Nat → Pt d) : Py BArr :=
  let fval := smap (fun y => -y) (smap (lpTransformed t) (smap (fun y => -y) (col0 acq)))
  match batch with
  | none => .ok fval
  | some hs => bop (· + ·) fval
      (smap (fun y => -y) { vec := true, r := 1, c := n, e := fun _ i => (hs.map fun h => hammerValue h (X i)).sum })

/-- `scale*grad_acq_x` (`LP.py:118-131`): the scale is an array of one dimension, or the number 1. -/
noncomputable def lpScaledArr (t : LPTransform) (acq dacq : BArr) : Py BArr :=
  match t with
  | .other => .ok (smap (1 * ·) dacq)
  | t => bop (· * ·) (smap (lpScale t) (smap (fun y => -y) (col0 acq))) dacq

/-- `d_acquisition_function` (`LP.py:112-132`); `_d_hammer_function` (`LP.py:91-103`) returns one column. -/
noncomputable def lpGradArr {d : Nat} (t : LPTransform) (acq dacq : BArr) (batch : Option (List (Hammer d))) (n : Nat)
    (X : Nat → Pt d) : Py BArr :=
  match batch with
  | none => lpScaledArr t acq dacq
  | some hs => do
    let g ← lpScaledArr t acq dacq
    bop (· - ·) g { vec := false, r := n, c := 1, e := fun i _ => (hs.map fun h => dHammer h (X i)).sum }

end GPyOpt
