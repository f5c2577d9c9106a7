import Verif.Props.Crash
import Verif.Props.Clock

/-!
# C144: the calls of the objective before a crash
-/

namespace GPyOpt.Props

open GPyOpt Spec

theorem evalFunc_calls_prefix {obj : Nat → Vec → Py ℚ} {clock : Nat → ℚ} {m : Mat} {w w' : World} {q : Py (Vec × Vec)}
    (he : evalFunc obj clock m w = (w', q)) : w.calls <+: w'.calls := by
  cases q with
  | ok p => rw [(evalFunc_ok (ys := p.1) (ts := p.2) he).2.2]; exact List.prefix_append _ _
  | error e =>
    obtain ⟨i, x, ys, -, -, h3⟩ := evalFunc_error he
    rw [h3, List.append_assoc]
    exact List.prefix_append _ _

/-- The calls of the objective of a run extend those before it. -/
theorem runOptimization_calls_prefix (env : BOEnv) (a : RunArgs) (fuel : Nat) (s : BOState) :
    s.world.calls <+: (runOptimization env a fuel s).1.world.calls := by
  unfold runOptimization
  cases env.obj with
  | none => exact List.prefix_rfl
  | some obj =>
    simp only
    have hstart : s.world.calls <+: (runStart env obj a s).1.world.calls := by
      unfold runStart
      dsimp only
      cases s.Y with
      | some Y => exact List.prefix_rfl
      | none =>
        rcases he : evalFunc obj env.clock s.X s.world with ⟨w, q⟩
        have hp := evalFunc_calls_prefix he
        cases q with
        | error e => exact hp
        | ok p =>
          simp only
          repeat' split
          all_goals exact hp
    rcases hs : runStart env obj a s with ⟨s1, q⟩
    rw [hs] at hstart
    cases q with
    | error e => exact hstart
    | ok u =>
      simp only
      have hl := boLoop_calls_prefix env obj a.limits.1 a.limits.2 a.eps fuel s1
      rcases hb : boLoop env obj a.limits.1 a.limits.2 a.eps fuel s1 with ⟨s2, r⟩
      rw [hb] at hl
      have h2 : s.world.calls <+: s2.world.calls := hstart.trans hl
      cases r with
      | done why =>
        simp only
        repeat' split
        all_goals exact h2
      | _ => exact h2

/-- The location of a call of the objective. -/
def RunAct.called : RunAct → Option Vec
  | .call x => some x
  | _ => none

theorem fileActs_called (paths : FilePaths) (pieces : FilePieces) (fs : Files) :
    ∀ a ∈ fileActs paths pieces fs, RunAct.called a = none := by
  have hsave : ∀ (p : List Char) (ps : List (List Char)), ∀ a ∈ saveActs p ps, RunAct.called a = none := by
    intro p ps a ha
    simp only [saveActs, List.mem_cons, List.mem_append, List.mem_map, List.not_mem_nil, or_false] at ha
    rcases ha with rfl | ⟨t, -, rfl⟩ | rfl <;> rfl
  intro a ha
  unfold fileActs at ha
  simp only [List.mem_append] at ha
  rcases ha with ha | ha | ha
  all_goals
    split at ha
    · exact hsave _ _ a ha
    · simp at ha

/-- **C144.** The objective is called for exactly the evaluations that this run adds to those of earlier runs, in their order, and
every call comes before the first operation on a file: a crash after a file was opened loses no call, a crash before it
happens at a time when no file was touched. -/
theorem C144_calls_before_files (env : BOEnv) (attrs : Option BayesAttrs) (names : List String) (fa : FileArgs)
    (a : RunArgs) (fuel : Nat) (s : BOState) (paths : FilePaths) (pieces : FilePieces) :
    ∃ new files, (runOptimization env a fuel s).1.world.calls = s.world.calls ++ new ∧
      runActs paths pieces s (runWithFiles env attrs names fa a fuel s) = new.map (fun c => .call c.1) ++ files ∧
      ∀ x ∈ files, RunAct.called x = none := by
  obtain ⟨new, hnew⟩ := runOptimization_calls_prefix env a fuel s
  have hst : (runWithFiles env attrs names fa a fuel s).1 = (runOptimization env a fuel s).1 := by
    unfold runWithFiles
    rcases runOptimization env a fuel s with ⟨s', r⟩
    cases r with
    | done why =>
      simp only
      rcases writeFiles env attrs names fa (a.limits.1, a.eps) s' with ⟨fs, e | u⟩ <;> rfl
    | _ => rfl
  refine ⟨new, fileActs paths pieces (runWithFiles env attrs names fa a fuel s).2.2, hnew.symm, ?_, fileActs_called paths pieces _⟩
  unfold runActs callActs
  rw [hst, ← hnew, List.drop_left]

/-- Two runs: the second one calls the objective once, at its own location. -/
example : ((designSpace exLine none).map fun sp =>
      let s := (runOptimization (exBO sp) { maxIter := some (.fin 1) } 10 (boInit [[0], [1]] none .none)).1
      let r := runWithFiles (exBO sp) (some {}) ["variance"] { evaluations := true } { maxIter := some (.fin 1) } 10 s
      (s.world.calls.map Prod.fst,
        (runActs ⟨['r'], ['e'], ['m']⟩ ⟨fun _ => [], fun _ => [['z']]⟩ s r).filterMap RunAct.called)) =
    .ok ([[0], [1], [1/3]], [[1/4]]) := by
  decide +kernel

end GPyOpt.Props
