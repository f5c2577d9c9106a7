import Mathlib.Algebra.Order.Field.Rat
import Mathlib.Data.Rat.Floor
import Mathlib.Data.List.Forall2

/-!
# Python / numpy primitives

Shared vocabulary of the model.  Python exceptions are values of `Err`; a function
that may raise returns `Py α = Except Err α`.  A one-dimensional numpy array is a
`Vec`, a two-dimensional one a `Mat` (list of rows).  Numbers are exact rationals:
no rounding, no NaN, no infinity (see DESIGN.md, section 2).
-/

namespace GPyOpt

/-- Python exceptions that the modelled code can raise (`GPyOpt/core/errors.py:1-14` and
the builtin exceptions raised by Python / numpy primitives).  `unmodelled` marks inputs that
the model does not cover; `outOfFuel` is the result of a loop that has not terminated within the
given number of rounds (Python keeps running). -/
inductive Err
  | invalidConfig | invalidVariableName | fullyExplored
  | valueError | indexError | keyError | typeError | attributeError
  | zeroDivision | unboundLocal | nameError | notImplemented | linAlg | exception
  | objectiveError | unmodelled | outOfFuel
  deriving DecidableEq, Repr

/-- Result of a Python call: a value or a raised exception. -/
abbrev Py (α : Type) := Except Err α

/-- One-dimensional numpy array. -/
abbrev Vec := List ℚ

/-- Two-dimensional numpy array, as the list of its rows. -/
abbrev Mat := List Vec

/-- `[f(a) for a in l]` where `f` may raise: evaluation stops at the first exception. -/
def mapE {α β : Type} (f : α → Py β) : List α → Py (List β)
  | [] => .ok []
  | a :: l => match f a with
    | .error e => .error e
    | .ok b => match mapE f l with
      | .error e => .error e
      | .ok bs => .ok (b :: bs)

/-- Position designated by a Python index: negative indices count from the end;
`none` is `IndexError`. -/
def pyIndex (len : Nat) (i : Int) : Option Nat :=
  if 0 ≤ i ∧ i < len then some i.toNat
  else if i < 0 ∧ -(len : Int) ≤ i then some (i + len).toNat
  else none

/-- `int(x)` on a float: truncation towards zero. -/
def pyInt (x : ℚ) : Int := if 0 ≤ x then ⌊x⌋ else ⌈x⌉

/-- `x[i : i+n]` on a one-dimensional array (never raises, may be shorter). -/
def slice {α : Type} (x : List α) (i n : Nat) : List α := (x.drop i).take n

/-- `x[i]` with a non-negative index. -/
def npGet {α : Type} (x : List α) (i : Nat) : Py α :=
  match x[i]? with
  | some v => .ok v
  | none => .error .indexError

/-- scanning loop of `np.argmax`: `pos` is the next position, `best` the position of the
best value so far, `val` this value; only a strictly larger value replaces it. -/
def argmaxFrom {α : Type} [LinearOrder α] : List α → (pos best : Nat) → (val : α) → Nat
  | [], _, best, _ => best
  | y :: ys, pos, best, val =>
    if val < y then argmaxFrom ys (pos + 1) pos y else argmaxFrom ys (pos + 1) best val

/-- `np.argmax` (first maximal position; `ValueError` on an empty array). -/
def argmax {α : Type} [LinearOrder α] : List α → Py Nat
  | [] => .error .valueError
  | x :: xs => .ok (argmaxFrom xs 1 0 x)

/-- scanning loop of `np.argmin`. -/
def argminFrom {α : Type} [LinearOrder α] : List α → (pos best : Nat) → (val : α) → Nat
  | [], _, best, _ => best
  | y :: ys, pos, best, val =>
    if y < val then argminFrom ys (pos + 1) pos y else argminFrom ys (pos + 1) best val

/-- `np.argmin` (first minimal position; `ValueError` on an empty array). -/
def argmin {α : Type} [LinearOrder α] : List α → Py Nat
  | [] => .error .valueError
  | x :: xs => .ok (argminFrom xs 1 0 x)

/-- `np.any(a)` for a numeric matrix: some entry is non-zero. -/
def npAny (m : Mat) : Bool := m.any (fun r => r.any (fun v => decide (v ≠ 0)))

end GPyOpt
