import Verif.Props.Batch
import Verif.Model.BatchModels

/-! # C121: local penalization with every model class -/

namespace GPyOpt.Props

open GPyOpt

theorem lpLoopWith_eq {predict : Mat → Py Prediction} (hp : ∀ X, lpPrecompute predict X = .ok ())
    (optimize : Nat → LPState → Py Vec) (c : ℚ × ℚ) : ∀ (todo k : Nat) (batch : Mat) (s : LPState) (tr : List LPState),
    lpLoopWith predict optimize c todo k batch s tr = lpLoop optimize c todo k batch s tr := by
  intro todo
  induction todo with
  | zero => intros; rfl
  | succ todo ih =>
    intro k batch s tr
    simp only [lpLoopWith, lpLoop, hp, ih]
    cases optimize k (s.update (some batch) (some c)) <;> rfl

/-- C121 (partial: not `GPModel_MCMC`). With a model class that predicts columns, and predictions that do not raise, the
batch is the one of the theorems on local penalization (C32). -/
theorem C121_local_penalization_partial (m : ModelKind) (hm : m ≠ .gpMCMC) (predict : Mat → Py Prediction)
    (hp : m.Predicts predict) (ht : ∀ X, ∃ p, predict X = .ok p) (optimize : Nat → LPState → Py Vec)
    (consts : Py (ℚ × ℚ)) (n : Nat) (s : LPState) :
    lpBatchWith predict optimize consts n s = lpBatch optimize consts n s := by
  have hpre : ∀ X, lpPrecompute predict X = .ok () := by
    intro X
    obtain ⟨p, h⟩ := ht X
    have hl : m.ReturnsLists = false := by cases m <;> first | rfl | exact absurd rfl hm
    cases p with
    | single a b => simp only [lpPrecompute, h]
    | sampled a b =>
      have := (hp X _ h).2 ⟨a, b, rfl⟩
      rw [hl] at this
      cases this
  unfold lpBatchWith lpBatch
  simp only [lpLoopWith_eq hpre]
  rfl

/-- C121 is false for `GPModel_MCMC`: no batch of two or more locations is ever computed. If everything else works, the
second location raises `TypeError`. -/
theorem C121_mcmc_counterexample (predict : Mat → Py Prediction) (hp : ModelKind.gpMCMC.Predicts predict)
    (optimize : Nat → LPState → Py Vec) (consts : Py (ℚ × ℚ)) (n : Nat) (hn : 2 ≤ n) (s : LPState) :
    (∃ e, lpBatchWith predict optimize consts n s = .error e) ∧
    ((∀ X, ∃ p, predict X = .ok p) → (∀ k st, ∃ x, optimize k st = .ok x) → (∃ c, consts = .ok c) →
      lpBatchWith predict optimize consts n s = .error .typeError) := by
  obtain ⟨n, rfl⟩ : ∃ k, n = k + 2 := ⟨n - 2, by omega⟩
  have hpre : ∀ X, (∃ e, lpPrecompute predict X = .error e) ∧
      (∀ p, predict X = .ok p → lpPrecompute predict X = .error .typeError) := by
    intro X
    cases h : predict X with
    | error e => exact ⟨⟨e, by simp only [lpPrecompute, h]⟩, by intro p hp; cases hp⟩
    | ok p =>
      obtain ⟨a, b, rfl⟩ := (hp X p h).1 rfl
      exact ⟨⟨.typeError, by simp only [lpPrecompute, h]⟩, fun _ _ => by simp only [lpPrecompute, h]⟩
  unfold lpBatchWith
  simp only [show 1 < n + 2 by omega, if_true, show n + 2 - 1 = n + 1 by omega, lpLoopWith]
  constructor
  · cases optimize 0 (s.update none none) with
    | error e => exact ⟨e, rfl⟩
    | ok x =>
      simp only
      cases consts with
      | error e => exact ⟨e, rfl⟩
      | ok c =>
        obtain ⟨e, he⟩ := (hpre [x]).1
        simp only [he]
        exact ⟨e, rfl⟩
  · intro hpr ho hc
    obtain ⟨x, hx⟩ := ho 0 (s.update none none)
    obtain ⟨c, rfl⟩ := hc
    obtain ⟨p, hp'⟩ := hpr [x]
    simp only [hx, (hpre [x]).2 p hp']

/-- C121. A single location does not need the predictions, and is computed with every model class. -/
theorem C121_single_location (predict : Mat → Py Prediction) (optimize : Nat → LPState → Py Vec) (consts : Py (ℚ × ℚ))
    (s : LPState) : lpBatchWith predict optimize consts 1 s = lpBatch optimize consts 1 s := by
  unfold lpBatchWith lpBatch
  simp
  rfl

/-- The same request with both kinds of predictions. -/
example :
    lpBatchWith (fun X => .ok (.single (X.map List.sum) (X.map fun _ => 1))) (fun k _ => .ok [(k : ℚ)]) (.ok (2, 3)) 2
      ⟨none, none⟩ = .ok ([[0], [1]], ⟨none, some (2, 3)⟩, [⟨none, none⟩, ⟨some [[0]], some (2, 3)⟩]) ∧
    lpBatchWith (fun X => .ok (.sampled [X.map List.sum] [X.map fun _ => 1])) (fun k _ => .ok [(k : ℚ)]) (.ok (2, 3)) 2
      ⟨none, none⟩ = .error .typeError := by decide +kernel

example : ModelKind.gpMCMC.Predicts (fun X => .ok (.sampled [X.map List.sum] [X.map fun _ => 1])) := by
  intro X p h
  cases h
  simp [ModelKind.ReturnsLists]

end GPyOpt.Props
