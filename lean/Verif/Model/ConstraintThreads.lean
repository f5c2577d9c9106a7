import Verif.Model.Space

/-!
# Model of `indicator_constraints` in several threads

The compiled constraint is stored under the name `constraint` in the globals of the module (`space.py:305`), which all
threads of a process and all spaces share, and is read from there for the call (`:306`). A thread can be interrupted
between the two lines.
-/

namespace GPyOpt

/-- A thread inside of `indicator_constraints`: its locations, the constraints it has not yet handled, whether the first
of them has been compiled, and its weights. -/
structure CThread where
  x : Mat
  todo : List Constr
  compiled : Bool
  w : Py (List ℚ)

/-- The global name and the threads. -/
structure CState where
  glob : Option Constr
  threads : List CThread

/-- A thread that has just been called (`space.py:300-302`). -/
def CThread.start (x : Mat) (cs : List Constr) : CThread := ⟨x, cs, false, .ok (x.map fun _ => 1)⟩

/-- `ind_x = (constraint(x) <= 0) * 1; I_x *= …` (`space.py:306-307`) with the function `f`. -/
def applyFun (f : Constr) (x : Mat) (w : List ℚ) : Py (List ℚ) :=
  match mapE f x with
  | .error e => .error e
  | .ok vals => .ok (List.zipWith (fun a v => a * (if v ≤ 0 then 1 else 0)) w vals)

/-- One step of a thread: compile (`space.py:305`), or call what the global name is bound to (`:306-307`). -/
def CThread.step (g : Option Constr) (t : CThread) : Option Constr × CThread :=
  match t.w, t.todo with
  | .ok w, c :: cs =>
    if t.compiled then
      match g with
      | none => (g, { t with w := .error .nameError })
      | some f => (g, { t with todo := cs, compiled := false, w := applyFun f t.x w })
    else (some c, { t with compiled := true })
  | _, _ => (g, t)

/-- The thread with this number makes a step. -/
def CState.step (s : CState) (k : Nat) : CState :=
  match s.threads[k]? with
  | none => s
  | some t => let r := t.step s.glob
    { glob := r.1, threads := s.threads.set k r.2 }

/-- A schedule: the numbers of the threads in the order of their steps. -/
def CState.run (s : CState) (sched : List Nat) : CState := sched.foldl CState.step s

/-- The thread has returned. -/
def CThread.done (t : CThread) : Prop := t.todo = [] ∨ ∃ e, t.w = .error e

end GPyOpt
