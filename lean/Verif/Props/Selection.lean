import Verif.Model.Selection
import Verif.Lemmas.Layout
import Verif.Props.Space

/-!
# C68, C69, C70: selection of evaluators, models and acquisitions; input warping
-/

namespace GPyOpt

open Spec

namespace Props

/-! ## C68: evaluators -/

/-- The evaluator documented for a name (`bayesian_optimization.py:60-64`). -/
def documentedEvaluator (name : String) (e : EvalKind) : Prop :=
  (name, e) ∈ [("sequential", EvalKind.sequential), ("random", .randomBatch),
    ("local_penalization", .localPenalization), ("thompson_sampling", .thompsonBatch)]

/-- **C68, partial.** For batch size one the sequential evaluator is created, whatever the type. For larger
batches every documented name creates the documented evaluator and no name (`None`) the random batch, if
the acquisition is not a local penalization already and, for local penalization, the model type is one
of the four Gaussian processes; other model types are rejected. Missing: see the counterexamples. -/
theorem C68_evaluators_partial (type : Option String) (batchSize : Int) (modelType : String) :
    (∀ isLP, evaluatorCreator type isLP 1 modelType = .ok (some .sequential)) ∧
    (1 < batchSize → evaluatorCreator none false batchSize modelType = .ok (some .randomBatch)) ∧
    (∀ name e, 1 < batchSize → documentedEvaluator name e → type = some name →
      (modelType ∈ ["GP", "sparseGP", "GP_MCMC", "warpedGP"] →
        evaluatorCreator type false batchSize modelType = .ok (some e)) ∧
      (modelType ∉ ["GP", "sparseGP", "GP_MCMC", "warpedGP"] →
        evaluatorCreator type false batchSize modelType =
          if name = "local_penalization" then .error .invalidConfig else .ok (some e))) := by
  refine ⟨fun isLP => by simp [evaluatorCreator], ?_, ?_⟩
  · intro h
    have h1 : batchSize ≠ 1 := by omega
    simp [evaluatorCreator, h, h1]
  · rintro name e h hd rfl
    have h1 : batchSize ≠ 1 := by omega
    simp only [documentedEvaluator, List.mem_cons, Prod.mk.injEq, List.not_mem_nil, or_false] at hd
    rcases hd with ⟨rfl, rfl⟩ | ⟨rfl, rfl⟩ | ⟨rfl, rfl⟩ | ⟨rfl, rfl⟩
    · simp [evaluatorCreator]
    · simp [evaluatorCreator, h, h1]
    · constructor
      · intro hm
        simp only [evaluatorCreator]
        simp_all
      · intro hm
        simp only [evaluatorCreator]
        simp_all
    · simp [evaluatorCreator, h, h1]

/-- **C68, negation.** Every name that is not documented silently creates no evaluator (`None`) for batches
of more than one point, instead of an error; so do the documented batch evaluators for batch size 0; and
local penalization with a local penalization acquisition raises `UnboundLocalError`. -/
theorem C68_evaluators_counterexample :
    (∀ (name : String) (isLP : Bool) (batchSize : Int) (modelType : String), 1 < batchSize →
      (∀ e, ¬ documentedEvaluator name e) → evaluatorCreator (some name) isLP batchSize modelType = .ok none) ∧
    (∀ isLP modelType, evaluatorCreator (some "random") isLP 0 modelType = .ok none) ∧
    (∀ batchSize, 1 < batchSize →
      evaluatorCreator (some "local_penalization") true batchSize "GP" = .error .unboundLocal) := by
  refine ⟨?_, ?_, ?_⟩
  · intro name isLP batchSize modelType h hno
    have h1 : batchSize ≠ 1 := by omega
    have n1 : name ≠ "sequential" := fun hc => hno .sequential (by simp [documentedEvaluator, hc])
    have n2 : name ≠ "random" := fun hc => hno .randomBatch (by simp [documentedEvaluator, hc])
    have n3 : name ≠ "local_penalization" := fun hc => hno .localPenalization (by simp [documentedEvaluator, hc])
    have n4 : name ≠ "thompson_sampling" := fun hc => hno .thompsonBatch (by simp [documentedEvaluator, hc])
    simp [evaluatorCreator, h1, n1, n2, n3, n4]
  · intro isLP modelType
    simp [evaluatorCreator]
  · intro batchSize h
    have h1 : batchSize ≠ 1 := by omega
    simp [evaluatorCreator, h1]

example : documentedEvaluator "thompson_sampling" .thompsonBatch := by simp [documentedEvaluator]
example : ∀ e, ¬ documentedEvaluator "thompson" e := by simp [documentedEvaluator]

/-! ## C69: models and acquisitions -/

/-- Documented model names (`bayesian_optimization.py:32-38`). -/
def documentedModel (name : String) (m : ModelKind) : Prop :=
  (name, m) ∈ [("GP", ModelKind.gp false), ("GP_MCMC", .gpMCMC), ("sparseGP", .gp true),
    ("warperdGP", .warpedGP), ("InputWarpedGP", .inputWarpedGP), ("RF", .rf)]

/-- Documented acquisition names (`bayesian_optimization.py:45-51`). -/
def documentedAcq (name : String) (a : AcqKind) : Prop :=
  (name, a) ∈ [("EI", AcqKind.ei), ("EI_MCMC", .eiMCMC), ("MPI", .mpi), ("MPI_MCMC", .mpiMCMC),
    ("LCB", .lcb), ("LCB_MCMC", .lcbMCMC)]

/-- An acquisition that requires the MCMC model. -/
def needsMCMC (a : AcqKind) : Prop := a = .eiMCMC ∨ a = .mpiMCMC ∨ a = .lcbMCMC

instance (a : AcqKind) : Decidable (needsMCMC a) := by unfold needsMCMC; infer_instance

/-- **C69, partial.** Acquisitions: the creation succeeds exactly for the documented names and `None`, with
the documented class and the given parameter (or its default 0.01 resp. 2); everything else is rejected.
Models: the four names `GP`, `GP_MCMC`, `sparseGP`, `RF` create the documented model. Then an integrated
acquisition is accepted exactly with the MCMC model, other acquisitions with every model. An unknown model
name is always rejected (though only when the acquisition is created). Missing: see the counterexample. -/
theorem C69_selection_partial (jitter weight : Option ℚ) :
    (∀ name a, acquisitionCreator (some name) jitter weight = .ok a → documentedAcq name a.kind) ∧
    (∀ name k, documentedAcq name k → ∃ a, acquisitionCreator (some name) jitter weight = .ok a ∧ a.kind = k ∧
      a.param = if k = .lcb ∨ k = .lcbMCMC then weight.getD 2 else jitter.getD (1 / 100)) ∧
    acquisitionCreator none jitter weight = acquisitionCreator (some "EI") jitter weight ∧
    (∀ name m k acq, documentedModel name m → name ≠ "warperdGP" → name ≠ "InputWarpedGP" →
      documentedAcq acq k →
      (needsMCMC k → m ≠ .gpMCMC → chooseModelAcq name (some acq) jitter weight = .error .exception) ∧
      (¬ (needsMCMC k ∧ m ≠ .gpMCMC) → ∃ a, chooseModelAcq name (some acq) jitter weight = .ok (m, a) ∧ a.kind = k)) ∧
    (∀ name acq m a, chooseModelAcq name acq jitter weight = .ok (m, a) →
      documentedModel name m ∨ (name, m) = ("warpedGP", .warpedGP) ∨ (name, m) = ("input_warped_GP", .inputWarpedGP)) := by
  have hsucc : ∀ name k, documentedAcq name k → ∃ a, acquisitionCreator (some name) jitter weight = .ok a ∧ a.kind = k ∧
      a.param = if k = .lcb ∨ k = .lcbMCMC then weight.getD 2 else jitter.getD (1 / 100) := by
    intro name k h
    simp only [documentedAcq, List.mem_cons, Prod.mk.injEq, List.not_mem_nil, or_false] at h
    rcases h with ⟨rfl, rfl⟩ | ⟨rfl, rfl⟩ | ⟨rfl, rfl⟩ | ⟨rfl, rfl⟩ | ⟨rfl, rfl⟩ | ⟨rfl, rfl⟩ <;>
      exact ⟨_, by simp only [acquisitionCreator]; simp; rfl, by simp⟩
  refine ⟨?_, hsucc, ?_, ?_, ?_⟩
  · intro name a h
    unfold acquisitionCreator at h
    simp only [Option.some.injEq, reduceCtorEq, false_or] at h
    split_ifs at h with h1 h2 h3 h4 h5 h6 <;> injection h with h <;> subst h <;> simp_all [documentedAcq]
  · simp [acquisitionCreator]
  · intro name m k acq hm h1 h2 ha
    obtain ⟨a, ha1, ha2, -⟩ := hsucc acq k ha
    have hc : modelCreator name = some m := by
      simp only [documentedModel, List.mem_cons, Prod.mk.injEq, List.not_mem_nil, or_false] at hm
      rcases hm with ⟨rfl, rfl⟩ | ⟨rfl, rfl⟩ | ⟨rfl, rfl⟩ | ⟨rfl, rfl⟩ | ⟨rfl, rfl⟩ | ⟨rfl, rfl⟩ <;>
        simp_all [modelCreator]
    have hmc : m.mcmc = true ↔ m = .gpMCMC := by cases m <;> simp [ModelKind.mcmc]
    constructor
    · intro hn hne
      simp only [chooseModelAcq, ha1, hc, acqInit]
      rw [if_pos]
      refine ⟨by rw [ha2]; exact hn, ?_⟩
      rw [← Bool.not_eq_true, hmc]
      exact hne
    · intro hn
      refine ⟨a, ?_, ha2⟩
      simp only [chooseModelAcq, ha1, hc, acqInit]
      rw [if_neg]
      rintro ⟨h3, h4⟩
      refine hn ⟨by rw [ha2] at h3; exact h3, ?_⟩
      rw [← Bool.not_eq_true, hmc] at h4
      exact h4
  · intro name acq m a h
    unfold chooseModelAcq at h
    cases hacq : acquisitionCreator acq jitter weight with
    | error e => rw [hacq] at h; simp at h
    | ok a' =>
      rw [hacq] at h
      dsimp only at h
      cases hmc : modelCreator name with
      | none => rw [hmc] at h; simp [acqInit] at h
      | some m' =>
        rw [hmc] at h
        have hm' : m' = m := by
          simp only [acqInit] at h
          split_ifs at h
          injection h with h
          exact congrArg Prod.fst h
        subst hm'
        unfold modelCreator at hmc
        split_ifs at hmc with h1 h2 h3 h4 h5 <;> injection hmc with hmc <;> subst hmc
        · rcases h1 with rfl | rfl <;> simp [documentedModel]
        all_goals simp_all [documentedModel]

/-- **C69, negation.** The documented model names `warperdGP` and `InputWarpedGP` are not accepted: with
every acquisition and all parameters the optimizer cannot be created. -/
theorem C69_selection_counterexample (acq : Option String) (jitter weight : Option ℚ) :
    ∀ name ∈ ["warperdGP", "InputWarpedGP"], (∃ m, documentedModel name m) ∧
      ∀ r, chooseModelAcq name acq jitter weight ≠ .ok r := by
  intro name hn
  simp only [List.mem_cons, List.not_mem_nil, or_false] at hn
  rcases hn with rfl | rfl
  · refine ⟨⟨.warpedGP, by simp [documentedModel]⟩, ?_⟩
    intro r
    unfold chooseModelAcq
    split <;> simp [modelCreator, acqInit]
  · refine ⟨⟨.inputWarpedGP, by simp [documentedModel]⟩, ?_⟩
    intro r
    unfold chooseModelAcq
    split <;> simp [modelCreator, acqInit]

/-- Hypotheses of `C69_selection_partial` are satisfiable. -/
example : chooseModelAcq "GP_MCMC" (some "EI_MCMC") none none = .ok (.gpMCMC, ⟨.eiMCMC, true, 1 / 100⟩) := by
  decide +kernel
example : chooseModelAcq "GP" (some "EI_MCMC") none none = .error .exception := by decide +kernel

/-- **C69.** The selectors by name used by the driver accept exactly their own lists of names. -/
theorem C69_selectors (name : String) :
    ((∃ m, selectModel name = .ok m) ↔ name ∈ ["GP", "GP_MCMC", "RF", "warpGP"]) ∧
    (∀ m, selectModel name = .ok m → modelCreator name = some m ∨ name = "warpGP") ∧
    ((∃ a, selectAcquisition name = .ok a) ↔
      name ∈ ["EI", "EI_MCMC", "MPI", "MPI_MCMC", "LCB", "LCB_MCMC", "LP", "ES"]) ∧
    (∀ k, documentedAcq name k → selectAcquisition name = .ok k) ∧
    (∀ e, selectEvaluator name = .ok e ↔ documentedEvaluator name e) := by
  refine ⟨?_, ?_, ?_, ?_, ?_⟩
  · unfold selectModel
    split_ifs <;> simp_all
  · intro m h
    unfold selectModel at h
    split_ifs at h with h1 h2 h3 h4 <;> injection h with h <;> subst h <;> simp_all [modelCreator]
  · unfold selectAcquisition
    split_ifs <;> simp_all
  · intro k h
    simp only [documentedAcq, List.mem_cons, Prod.mk.injEq, List.not_mem_nil, or_false] at h
    rcases h with ⟨rfl, rfl⟩ | ⟨rfl, rfl⟩ | ⟨rfl, rfl⟩ | ⟨rfl, rfl⟩ | ⟨rfl, rfl⟩ | ⟨rfl, rfl⟩ <;>
      simp [selectAcquisition]
  · intro e
    unfold selectEvaluator documentedEvaluator
    split_ifs <;> simp_all [eq_comm]

end Props

/-! ## C70: input warping -/

theorem mem_warpingIndices (vs : List Var) : ∀ (i c : Nat), c ∈ warpingIndices i vs ↔
    ∃ (j : Nat) (k : Kind), (vs.flatMap fun v => List.replicate v.dimensionality v.kind)[j]? = some k ∧
      (k.isContinuous || k.isDiscrete) = true ∧ c = i + j := by
  induction vs with
  | nil => intro i c; simp [warpingIndices]
  | cons v vs ih =>
    intro i c
    simp only [warpingIndices, List.mem_append, ih, List.flatMap_cons]
    constructor
    · rintro (h | ⟨j, k, h1, h2, h3⟩)
      · split_ifs at h with hv
        · simp only [List.mem_map, List.mem_range] at h
          obtain ⟨j, hj, rfl⟩ := h
          refine ⟨j, v.kind, ?_, hv, rfl⟩
          rw [List.getElem?_append_left (by simpa using hj)]
          simp [hj]
        · simp at h
      · refine ⟨v.dimensionality + j, k, ?_, h2, by omega⟩
        rw [List.getElem?_append_right (by simp)]
        simpa using h1
    · rintro ⟨j, k, h1, h2, h3⟩
      by_cases hj : j < v.dimensionality
      · left
        rw [List.getElem?_append_left (by simpa using hj)] at h1
        simp only [List.getElem?_replicate, hj, if_true, Option.some.injEq] at h1
        subst h1
        rw [if_pos h2]
        exact List.mem_map.2 ⟨j, List.mem_range.2 hj, h3.symm⟩
      · right
        rw [List.getElem?_append_right (by simpa using hj)] at h1
        exact ⟨j - v.dimensionality, k, by simpa using h1, h2, by omega⟩

namespace Spec

/-- The model columns of the continuous and discrete variables. -/
def OrderedColumn (ks : List Kind) (c : Nat) : Prop :=
  ∃ (j : Nat) (k : Kind), ks[j]? = some k ∧ (k.isContinuous || k.isDiscrete) = true ∧
    c = ((ks.take j).map width).sum

end Spec

theorem width_pos {k : Kind} (hne : NonEmptyDom k) (hnb : ∀ arms, k ≠ .bandit arms) : 1 ≤ width k := by
  cases k with
  | continuous => simp [width]
  | discrete => simp [width]
  | categorical l => simp only [NonEmptyDom] at hne; simp only [width]; exact List.length_pos_iff.2 hne
  | bandit a => exact absurd rfl (hnb a)

theorem sum_take_ge {w : List Nat} (h : ∀ x ∈ w, 1 ≤ x) : ∀ {j j' : Nat}, j ≤ j' → j' ≤ w.length →
    (w.take j).sum + (j' - j) ≤ (w.take j').sum := by
  induction w with
  | nil => intro j j' h1 h2; simp at h2; subst h2; simp
  | cons x w ih =>
    intro j j' h1 h2
    cases j' with
    | zero => simp at h1; subst h1; simp
    | succ j' =>
      have hx := h x (by simp)
      have h2' : j' ≤ w.length := by simpa using h2
      cases j with
      | zero =>
        have := ih (fun y hy => h y (by simp [hy])) (Nat.zero_le j') h2'
        simp only [List.take_zero, List.sum_nil, List.take_succ_cons, List.sum_cons] at this ⊢
        omega
      | succ j =>
        have := ih (fun y hy => h y (by simp [hy])) (by omega : j ≤ j') h2'
        simp only [List.take_succ_cons, List.sum_cons]
        omega

theorem sum_take_eq {w : List Nat} : ∀ {j : Nat}, j ≤ w.length → (∀ i x, i < j → w[i]? = some x → x = 1) →
    (w.take j).sum = j := by
  induction w with
  | nil => intro j h _; simp at h; subst h; simp
  | cons x w ih =>
    intro j h h1
    cases j with
    | zero => simp
    | succ j =>
      have := h1 0 x (by omega) (by simp)
      subst this
      simp only [List.take_succ_cons, List.sum_cons]
      rw [ih (by simpa using h) (fun i y hi hy => h1 (i + 1) y (by omega) (by simpa using hy))]
      omega

theorem sum_take_gt {w : List Nat} (h : ∀ x ∈ w, 1 ≤ x) : ∀ {i j : Nat} {x : Nat}, i < j → j ≤ w.length →
    w[i]? = some x → 2 ≤ x → j + 1 ≤ (w.take j).sum := by
  intro i j x hij hj hx h2
  have a := sum_take_ge h (Nat.zero_le i) (by omega)
  have b := sum_take_ge h (show i + 1 ≤ j by omega) hj
  have c : (w.take (i + 1)).sum = (w.take i).sum + x := by
    rw [List.take_add_one, hx]
    simp
  simp only [List.take_zero, List.sum_nil] at a
  omega

namespace Props

/-- **C70, partial.** For a space without bandit variables and with non-empty domains, the columns warped
by the input-warped model are the model columns of the continuous and discrete variables exactly if no
categorical variable with two or more categories precedes a continuous or discrete variable. Missing:
the property is false for all other layouts, since the model counts objective columns. -/
theorem C70_warped_columns_partial {config : List Desc} {cs : Option (List ConstrDict)} {sp : Space}
    (h : designSpace config cs = .ok sp) (hb : sp.hasBandit = false)
    (hne : ∀ k ∈ kindsOf config, NonEmptyDom k) :
    (∀ c, c ∈ warpingIndices 0 sp.vars ↔ OrderedColumn (kindsOf config) c) ↔
      ∀ (i j : Nat) (ki kj : Kind), i < j → (kindsOf config)[i]? = some ki →
        (kindsOf config)[j]? = some kj → (kj.isContinuous || kj.isDiscrete) = true → width ki = 1 := by
  have hk := space_vars_kinds h hb
  rw [← space_kinds_eq h] at hne ⊢
  have hnb : NoBandit sp.kinds := by
    intro k hk' arms hc
    rw [hk] at hk'
    simp only [List.mem_flatMap] at hk'
    obtain ⟨v, hv, hk'⟩ := hk'
    have := List.eq_of_mem_replicate hk'
    unfold Space.hasBandit at hb
    rw [List.any_eq_false] at hb
    apply hb v hv
    rw [← this, hc]
    rfl
  have hw : ∀ x ∈ sp.kinds.map width, 1 ≤ x := by
    intro x hx
    obtain ⟨k, hk1, rfl⟩ := List.mem_map.1 hx
    exact width_pos (hne k hk1) (hnb k hk1)
  have hmem : ∀ c, c ∈ warpingIndices 0 sp.vars ↔ ∃ k, sp.kinds[c]? = some k ∧
      (k.isContinuous || k.isDiscrete) = true := by
    intro c
    rw [mem_warpingIndices, ← hk]
    constructor
    · rintro ⟨j, k, h1, h2, rfl⟩
      exact ⟨k, by simpa using h1, h2⟩
    · rintro ⟨k, h1, h2⟩
      exact ⟨c, k, h1, h2, by simp⟩
  simp only [hmem, OrderedColumn, List.map_take]
  constructor
  · intro heq i j ki kj hij hi hj ho
    by_contra hne1
    have hw1 : 2 ≤ width ki := by
      have := hw (width ki) (List.mem_map.2 ⟨ki, List.mem_of_getElem? hi, rfl⟩)
      omega
    -- a column beyond its objective index leads to a larger one, without end
    have key : ∀ (m j : Nat) (k : Kind), sp.kinds.length - j = m → sp.kinds[j]? = some k →
        (k.isContinuous || k.isDiscrete) = true → ¬ (j + 1 ≤ ((sp.kinds.map width).take j).sum) := by
      intro m
      induction m using Nat.strong_induction_on with
      | _ m ih =>
        intro j k hm hj ho hgt
        obtain ⟨k', hk1, hk2⟩ := (heq _).2 ⟨j, k, hj, ho, rfl⟩
        have hl := (List.getElem?_eq_some_iff.1 hk1).1
        have hge := sum_take_ge hw (show j ≤ ((sp.kinds.map width).take j).sum by omega)
          (by simpa using hl.le)
        exact ih _ (by omega) _ k' rfl hk1 hk2 (by omega)
    have hl := (List.getElem?_eq_some_iff.1 hj).1
    exact key _ j kj rfl hj ho
      (sum_take_gt hw hij (by simpa using hl.le) (by simp [hi]) hw1)
  · intro h1 c
    have heq : ∀ (j : Nat) (k : Kind), sp.kinds[j]? = some k → (k.isContinuous || k.isDiscrete) = true →
        ((sp.kinds.map width).take j).sum = j := by
      intro j k hj ho
      have hl := (List.getElem?_eq_some_iff.1 hj).1
      refine sum_take_eq (by simpa using hl.le) ?_
      intro i x hi hx
      simp only [List.getElem?_map, Option.map_eq_some_iff] at hx
      obtain ⟨ki, hki, rfl⟩ := hx
      exact h1 i j ki k hi hki hj ho
    constructor
    · rintro ⟨k, h2, h3⟩
      exact ⟨c, k, h2, h3, (heq c k h2 h3).symm⟩
    · rintro ⟨j, k, h2, h3, rfl⟩
      rw [heq j k h2 h3]
      exact ⟨k, h2, h3⟩

/-- **C70, negation.** A categorical variable with three categories before a continuous one: the model
columns are 0, 1, 2 (categories) and 3 (continuous), but column 1, an indicator of a category, is
warped, and column 3 is not. -/
theorem C70_warped_columns_counterexample :
    ∃ (config : List Desc) (sp : Space), designSpace config none = .ok sp ∧ sp.hasBandit = false ∧
      warpingIndices 0 sp.vars = [1] ∧ OrderedColumn (kindsOf config) 3 ∧
      ¬ OrderedColumn (kindsOf config) 1 := by
  refine ⟨[{ name := some "c", type := some "categorical", domain := some (.flat [0, 1, 2]) },
    { name := some "x", type := some "continuous", domain := some (.flat [0, 1]) }], _, rfl, rfl, ?_, ?_, ?_⟩
  · decide +kernel
  · exact ⟨1, .continuous 0 1, by decide +kernel, rfl, by decide +kernel⟩
  · rintro ⟨j, k, h1, h2, h3⟩
    have hkinds : kindsOf [({ name := some "c", type := some "categorical", domain := some (.flat [0, 1, 2]) } : Desc),
        { name := some "x", type := some "continuous", domain := some (.flat [0, 1]) }]
        = [.categorical [0, 1, 2], .continuous 0 1] := by decide +kernel
    rw [hkinds] at h1 h3
    match j with
    | 0 => simp at h1; subst h1; simp [Kind.isContinuous, Kind.isDiscrete] at h2
    | 1 => simp [width] at h3
    | j + 2 => simp at h1

/-- A layout that meets the hypotheses and the condition of `C70_warped_columns_partial`. -/
example : ((designSpace exConfig none).map fun sp => (sp.hasBandit, warpingIndices 0 sp.vars))
    = .ok (false, [0, 1, 2]) := by decide +kernel

example : ∀ k ∈ kindsOf exConfig, NonEmptyDom k := by
  rw [exConfig_kinds]
  simp only [List.mem_cons, List.not_mem_nil, or_false, forall_eq_or_imp, forall_eq, NonEmptyDom]
  refine ⟨by norm_num, by norm_num, by simp, by simp⟩

end Props

end GPyOpt
