import Verif.Model.Cost

/-!
# Model of the parallel evaluation in `GPyOpt/core/task/objective.py`

Worker processes and the parent are an interleaving transition system: a schedule is a sequence of
steps. Every worker evaluates its rows in its own process; the objective is a function of the
location (a worker does not see the effects of another one).
-/

namespace GPyOpt

/-- `x[i::n]` for `n ≥ 1`. -/
def strided {α : Type} (x : List α) (i n : Nat) : List α :=
  (List.range x.length).filterMap fun k => x[i + k * n]?

/-- `acc[i::n] = v` (`objective.py:99`) for `n ≥ 1`; numpy raises unless the lengths agree (the
broadcast of a single value does not occur, as a worker returns one output per row). -/
def assignStrided (acc : Vec) (i n : Nat) (v : Vec) : Py Vec :=
  if v.length = (strided acc i n).length then
    .ok ((List.range acc.length).map fun j =>
      if j % n = i then v.getD (j / n) 0 else acc.getD j 0)
  else .error .valueError

/-- State of a worker process: not started, running with the outputs of its first rows
(`objective.py:72-76`), finished (message sent, `general.py:149-150`), or ended by an exception of the
objective. -/
inductive Worker
  | idle
  | running (out : Vec)
  | exited
  | died

/-- Program counter of the parent (`objective.py:91`, `:92`, `:98-100`, `:101`); `failed` is the
`except` branch of `evaluate` (`:54`). -/
inductive Parent
  | starting (i : Nat)
  | joining (i : Nat)
  | receiving (i : Nat) (acc : Vec)
  | done (acc : Vec)
  | failed

/-- Parameters of a parallel evaluation: number of processes, objective, rows, size of a message and
capacity of a pipe, and whether processes can be started (the target is a closure, which some start
methods cannot transfer: then `start` raises). -/
structure ParCfg where
  n : Nat
  f : Vec → Py ℚ
  x : Mat
  size : Vec → Nat
  cap : Nat
  canStart : Bool

/-- Global state: parent, workers, contents of the pipes. -/
structure ParState where
  parent : Parent
  worker : Nat → Worker
  pipe : Nat → Option Vec

/-- `divided_samples[i]` (`objective.py:88`). -/
def ParCfg.rows (c : ParCfg) (i : Nat) : Mat := strided c.x i c.n

def ParCfg.init : ParState := { parent := .starting 0, worker := fun _ => .idle, pipe := fun _ => none }

/-- `h` with the value at `i` replaced. -/
def setAt {α : Type} (h : Nat → α) (i : Nat) (a : α) : Nat → α := fun j => if j = i then a else h j

/-- One step of the parent or of a worker. A message larger than the pipe's capacity is only accepted
while the parent is reading. The parent keeps its copies of the workers' pipe ends (`objective.py:89`
never closes them), so that reading from the pipe of a dead worker blocks: there is no step for it. -/
inductive ParStep (c : ParCfg) : ParState → ParState → Prop
  | start (s : ParState) (i : Nat) : s.parent = .starting i → i < c.n → c.canStart = true →
      ParStep c s { s with parent := .starting (i + 1), worker := setAt s.worker i (.running []) }
  | startFails (s : ParState) (i : Nat) : s.parent = .starting i → i < c.n → c.canStart = false →
      ParStep c s { s with parent := .failed }
  | started (s : ParState) : s.parent = .starting c.n → ParStep c s { s with parent := .joining 0 }
  | eval (s : ParState) (i : Nat) (out : Vec) (row : Vec) (y : ℚ) : i < c.n →
      s.worker i = .running out → (c.rows i)[out.length]? = some row → c.f row = .ok y →
      ParStep c s { s with worker := setAt s.worker i (.running (out ++ [y])) }
  | crash (s : ParState) (i : Nat) (out : Vec) (row : Vec) (e : Err) : i < c.n →
      s.worker i = .running out → (c.rows i)[out.length]? = some row → c.f row = .error e →
      ParStep c s { s with worker := setAt s.worker i .died }
  | send (s : ParState) (i : Nat) (out : Vec) : i < c.n → s.worker i = .running out →
      out.length = (c.rows i).length → c.size out ≤ c.cap →
      ParStep c s { s with worker := setAt s.worker i .exited, pipe := setAt s.pipe i (some out) }
  | join (s : ParState) (i : Nat) : s.parent = .joining i → i < c.n →
      s.worker i = .exited ∨ s.worker i = .died →
      ParStep c s { s with parent := .joining (i + 1) }
  | joined (s : ParState) : s.parent = .joining c.n →
      ParStep c s { s with parent := .receiving 0 (List.replicate c.x.length 0) }
  | recv (s : ParState) (i : Nat) (acc acc' v : Vec) : s.parent = .receiving i acc → i < c.n →
      s.pipe i = some v → assignStrided acc i c.n v = .ok acc' →
      ParStep c s { s with parent := .receiving (i + 1) acc', pipe := setAt s.pipe i none }
  | recvFails (s : ParState) (i : Nat) (acc v : Vec) (e : Err) : s.parent = .receiving i acc →
      i < c.n → s.pipe i = some v → assignStrided acc i c.n v = .error e →
      ParStep c s { s with parent := .failed }
  | recvLarge (s : ParState) (i : Nat) (acc acc' out : Vec) : s.parent = .receiving i acc → i < c.n →
      s.worker i = .running out → out.length = (c.rows i).length → c.cap < c.size out →
      assignStrided acc i c.n out = .ok acc' →
      ParStep c s { s with parent := .receiving (i + 1) acc', worker := setAt s.worker i .exited }
  | finish (s : ParState) (acc : Vec) : s.parent = .receiving c.n acc →
      ParStep c s { s with parent := .done acc }

/-- Executions of `k` steps. -/
inductive ParRun (c : ParCfg) : Nat → ParState → Prop
  | zero : ParRun c 0 ParCfg.init
  | succ {k : Nat} {s t : ParState} : ParRun c k s → ParStep c s t → ParRun c (k + 1) t

/-- Possible results of `SingleObjective.evaluate` with `n ≠ 1` processes (`objective.py:44-61`): the
outputs with unit costs, or the sequential evaluation after an exception. -/
inductive ParEvaluates (c : ParCfg) (clock : Nat → ℚ) (w : World) : Py (Vec × CostEvals) → Prop
  | parallel {k : Nat} {s : ParState} {acc : Vec} : ParRun c k s → s.parent = .done acc →
      ParEvaluates c clock w (.ok (acc, .column (List.replicate c.x.length 1)))
  | fallback {k : Nat} {s : ParState} : ParRun c k s → s.parent = .failed →
      ParEvaluates c clock w
        ((evalFunc (fun _ => c.f) clock c.x w).2.map fun r => (r.1, .list r.2))

end GPyOpt
