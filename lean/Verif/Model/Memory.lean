import Verif.Model.BO

/-!
# The optimization loop with arrays in memory

`Model/BO` treats arrays as values. Here arrays live at addresses, so that it is visible which arrays the optimizer
shares with its caller and with the objective: the objective receives views of rows and may write into them, and the
caller may write into arrays it has passed or received.
-/

namespace GPyOpt

/-- The arrays in memory; addresses from `next` on are unused. -/
structure Mem where
  next : Nat
  get : Nat → Mat

/-- A new array. -/
def Mem.alloc (h : Mem) (A : Mat) : Mem × Nat :=
  ({ next := h.next + 1, get := Function.update h.get h.next A }, h.next)

/-- Write into an array. -/
def Mem.write (h : Mem) (a : Nat) (A : Mat) : Mem := { h with get := Function.update h.get a A }

/-- A column, as `np.vstack` builds it from outputs. -/
def asColumn (y : Vec) : Mat := y.map fun v => [v]

/-- A `BO` object: addresses of `X` and `Y` (`none` is Python's `None`), the view `x_opt` (`bo.py:211`: an address and
a row of that array), and all other attributes; the fields `X` and `Y` of `rest` are not used. -/
structure MemState where
  mem : Mem
  X : Nat
  Y : Option Nat
  opt : Option (Nat × Nat) := none
  rest : BOState

/-- The object as its methods see it, with the present contents of the arrays. -/
def MemState.view (o : MemState) : BOState :=
  { o.rest with X := o.mem.get o.X, Y := o.Y.map fun a => (o.mem.get a).flatten }

/-- An objective that may write: from the number of the call and the contents of the row it computes what it leaves in
the row, and its outcome. -/
abbrev WritingObj := Nat → Vec → Vec × Py ℚ

/-- `_eval_func` (`objective.py:64-77`) on the array at address `a`: `np.atleast_2d(x[i])` (`:73`) is a view of row `i`,
so that whatever the function writes stays in the array. The list contains the rows to evaluate. -/
def memEval (obj : WritingObj) (clock : Nat → ℚ) (a : Nat) : List Nat → Mem → World → Mem × World × Py (Vec × Vec)
  | [], h, w => (h, w, .ok ([], []))
  | i :: is, h, w =>
    let x := (h.get a).getD i []
    let h' := h.write a ((h.get a).set i (obj w.calls.length x).1)
    match (obj w.calls.length x).2 with
    | .error e => (h', { calls := w.calls ++ [(x, .error e)], ticks := w.ticks + 1 }, .error e)
    | .ok y =>
      match memEval obj clock a is h' { calls := w.calls ++ [(x, .ok y)], ticks := w.ticks + 2 } with
      | (h'', w', .error e) => (h'', w', .error e)
      | (h'', w', .ok (ys, ts)) => (h'', w', .ok (y :: ys, (clock (w.ticks + 1) - clock w.ticks) :: ts))

/-- `evaluate_objective` (`bo.py:198-204`) at the array `suggested_sample` with address `a`. The cost model gets that
array after the evaluation (`:203`); `np.vstack` (`:204`) creates a new array. -/
def memEvaluateObjective (env : BOEnv) (obj : WritingObj) (o : MemState) (a : Nat) : MemState × Py Unit :=
  match memEval obj env.clock a (List.range (o.mem.get a).length) o.mem o.rest.world with
  | (h, w, .error e) => ({ o with mem := h, rest := { o.rest with world := w } }, .error e)
  | (h, w, .ok (ys, ts)) =>
    match o.rest.cost.update env.lg (env.costFit o.view) (h.get a) (.list ts) with
    | (c, .error e) => ({ o with mem := h, rest := { o.rest with world := w, cost := c } }, .error e)
    | (c, .ok ()) => match o.Y with
      | none => ({ o with mem := h, rest := { o.rest with world := w, cost := c } }, .error .valueError)
      | some y =>
        ({ o with mem := (h.alloc (asColumn ((h.get y).flatten ++ ys))).1
                  Y := some (h.alloc (asColumn ((h.get y).flatten ++ ys))).2
                  rest := { o.rest with world := w, cost := c } }, .ok ())

/-- Result of one round. -/
inductive MemRound
  | next (o : MemState)
  | stop (o : MemState) (why : Stop)
  | raised (o : MemState) (e : Err)

/-- One round of the loop (`bo.py:139-160`): the suggestion is a new array (`:150`), and so is the new `X` (`:153`). -/
def memRound (env : BOEnv) (obj : WritingObj) (maxIter maxTime : Limit) (eps : ℚ) (o : MemState) : MemRound :=
  if maxTime.exceeds o.rest.cumTime then
    match updateModel env o.view with
    | (s1, .error .linAlg) => .stop { o with rest := s1 } .fit
    | (s1, .error e) => .raised { o with rest := s1 } e
    | (s1, .ok ()) =>
      if ¬ maxIter.exceeds (s1.numAcq : ℚ) ∨ lastTwoClose eps s1.X then .stop { o with rest := s1 } .limit
      else match env.suggest s1 none none with
        | .error e => .raised { o with rest := s1 } e
        | .ok m =>
          let (h1, a) := o.mem.alloc m
          let (h2, x) := h1.alloc (h1.get o.X ++ h1.get a)
          match memEvaluateObjective env obj { o with mem := h2, X := x, rest := s1 } a with
          | (o2, .error e) => .raised o2 e
          | (o2, .ok ()) =>
            .next { o2 with rest := { o2.rest with
              cumTime := env.clock o2.rest.world.ticks - o2.rest.timeZero
              world := { o2.rest.world with ticks := o2.rest.world.ticks + 1 }
              numAcq := o2.rest.numAcq + 1 } }
  else .stop o .time

/-- The loop (`bo.py:139-160`), at most `fuel` rounds. -/
def memLoop (env : BOEnv) (obj : WritingObj) (maxIter maxTime : Limit) (eps : ℚ) :
    (fuel : Nat) → MemState → MemState × RunResult
  | 0, o => (o, .running)
  | fuel + 1, o => match memRound env obj maxIter maxTime eps o with
    | .stop o' why => (o', .done why)
    | .raised o' e => (o', .raised e)
    | .next o' => memLoop env obj maxIter maxTime eps fuel o'

/-- `run_optimization` up to the loop (`bo.py:101-136`): without outputs the objective is called with the array `X`
itself (`:127`). -/
def memStart (env : BOEnv) (obj : WritingObj) (a : RunArgs) (o : MemState) : MemState × Py Unit :=
  let o1 := { o with rest := { o.rest with params := none, context := a.context } }
  let init (o : MemState) : MemState :=
    { o with rest := { o.rest with
      timeZero := env.clock o.rest.world.ticks
      world := { o.rest.world with ticks := o.rest.world.ticks + 1 }, cumTime := 0, numAcq := 0 } }
  match o.Y with
  | some _ => (init o1, .ok ())
  | none => match memEval obj env.clock o1.X (List.range (o1.mem.get o1.X).length) o1.mem o1.rest.world with
    | (h, w, .error e) => ({ o1 with mem := h, rest := { o1.rest with world := w } }, .error e)
    | (h, w, .ok (ys, ts)) =>
      let o2 := { o1 with mem := (h.alloc (asColumn ys)).1, Y := some (h.alloc (asColumn ys)).2
                          rest := { o1.rest with world := w } }
      if o2.rest.cost.kind = .evaluationTime then
        match o2.rest.cost.update env.lg (env.costFit o2.view) (o2.mem.get o2.X) (.list ts) with
        | (c, .error e) => ({ o2 with rest := { o2.rest with cost := c } }, .error e)
        | (c, .ok ()) => (init { o2 with rest := { o2.rest with cost := c } }, .ok ())
      else (init o2, .ok ())

/-- `run_optimization` (`bo.py:78-167`); `x_opt` is a view of the row of `X` (`:211`). -/
def memRun (env : BOEnv) (obj : WritingObj) (a : RunArgs) (fuel : Nat) (o : MemState) : MemState × RunResult :=
  match memStart env obj a o with
  | (o1, .error e) => (o1, .raised e)
  | (o1, .ok ()) =>
    match memLoop env obj a.limits.1 a.limits.2 a.eps fuel o1 with
    | (o2, .done why) => match o2.view.Y with
      | none => (o2, .raised .attributeError)
      | some Y => match computeResults o2.view.X Y with
        | .error e => (o2, .raised e)
        | .ok r => ({ o2 with rest := { o2.rest with results := some r }
                              opt := some (o2.X, match argmin Y with | .ok i => i | .error _ => 0) }, .done why)
    | r => r

/-- What the caller does between calls of methods: run, write into an array it has, write into `x_opt`, ask for copies
of the data (`get_evaluations`, `bo.py:309-310`), or ask for locations (`suggest_next_locations`, `bo.py:60-76`). -/
inductive CallerStep
  | run (a : RunArgs) (fuel : Nat)
  | write (a : Nat) (A : Mat)
  | writeOpt (x : Vec)
  | copies
  | suggest (context : Option Context) (pending ignored : Option Mat)

/-- The object and the addresses of the arrays the caller has. -/
structure MemWorld where
  o : MemState
  known : List Nat

/-- One step; a step that writes into an array the caller does not have is not possible and changes nothing. -/
def callerStep (env : BOEnv) (obj : WritingObj) (w : MemWorld) : CallerStep → MemWorld
  | .run a fuel => { w with o := (memRun env obj a fuel w.o).1 }
  | .write a A => if a ∈ w.known then { w with o := { w.o with mem := w.o.mem.write a A } } else w
  | .writeOpt x => match w.o.opt with
    | none => w
    | some (a, i) => { w with o := { w.o with mem := w.o.mem.write a ((w.o.mem.get a).set i x) } }
  | .copies =>
    let (h1, x) := w.o.mem.alloc (w.o.mem.get w.o.X)
    match w.o.Y with
    | none => w
    | some y =>
      let (h2, y') := h1.alloc (h1.get y)
      { o := { w.o with mem := h2 }, known := w.known ++ [x, y'] }
  | .suggest context pending ignored =>
    match suggestNext env context pending ignored w.o.view with
    | (s, .error _) => { w with o := { w.o with rest := s } }
    | (s, .ok m) =>
      let (h, a) := w.o.mem.alloc m
      { o := { w.o with mem := h, rest := s }, known := w.known ++ [a] }

/-- A sequence of steps. -/
def callerSteps (env : BOEnv) (obj : WritingObj) (w : MemWorld) (steps : List CallerStep) : MemWorld :=
  steps.foldl (callerStep env obj) w

end GPyOpt
