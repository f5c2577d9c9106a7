import Verif.Props.Malformed
import Verif.Props.GPModel
import Verif.Props.Cost
import Verif.Props.Driver
import Verif.Props.Config
import Verif.Lemmas.Bandit

/-!
# Which exception

For the calls that the theorems on C12, C51, C66, C78, C111 and C142 exclude by their hypotheses: the exception they raise.
-/

namespace GPyOpt.Props

open GPyOpt Spec

/-- C78: a model object that has not seen data yet cannot be copied; this is an `AttributeError`, and the only way copying a
`GPModel` fails. -/
theorem C78_copy_without_data (g : GPObj) :
    (g.model = none → g.copy = .error .attributeError) ∧ (∀ e, g.copy = .error e → g.model = none) := by
  unfold GPObj.copy
  cases hm : g.model <;> simp

example : (GPObj.copy { cfg := {}, model := none }) = .error .attributeError ∧
    ∃ g, (GPObj.create { cfg := {}, model := none } [[0]] [1]).copy = .ok g := ⟨rfl, _, rfl⟩

/-- C12: a discrete variable without values has no bounds; this is a `ValueError`. -/
theorem C12_empty_discrete : Kind.getBounds (.discrete []) = .error .valueError := rfl

/-- C12: the bounds of a space fail only for a discrete variable without values, and then with a `ValueError`. -/
theorem C12_bounds_error (sp : Space) (e : Err) (h : sp.getBounds = .error e) :
    e = .valueError ∧ Kind.discrete [] ∈ sp.kinds := by
  unfold Space.getBounds at h
  cases hm : mapE (fun v : EVar => v.kind.getBounds) sp.expanded with
  | ok r => rw [hm] at h; simp [Except.map] at h
  | error e' =>
    rw [hm] at h
    simp only [Except_map_error, Except.error.injEq] at h
    subst h
    have hmem : ∀ (l : List EVar) (e : Err), mapE (fun v : EVar => v.kind.getBounds) l = .error e →
        ∃ v ∈ l, v.kind.getBounds = .error e := by
      intro l
      induction l with
      | nil => intro e h; simp [mapE] at h
      | cons v vs ih =>
        intro e h
        simp only [mapE] at h
        cases hv : v.kind.getBounds with
        | error e1 => rw [hv] at h; simp at h; subst h; exact ⟨v, by simp, hv⟩
        | ok b =>
          rw [hv] at h
          cases hr : mapE (fun v : EVar => v.kind.getBounds) vs with
          | error e1 =>
            rw [hr] at h; simp at h; subst h
            obtain ⟨u, hu, he⟩ := ih _ hr
            exact ⟨u, by simp [hu], he⟩
          | ok bs => rw [hr] at h; simp at h
    obtain ⟨v, hv, he⟩ := hmem _ _ hm
    have hmm : ∀ l : List ℚ, l ≠ [] → (∃ a, pyMin l = .ok a) ∧ ∃ b, pyMax l = .ok b := by
      intro l hl
      cases l with
      | nil => exact absurd rfl hl
      | cons a l => exact ⟨⟨_, rfl⟩, ⟨_, rfl⟩⟩
    refine (fun hx : e' = .valueError ∧ v.kind = .discrete [] =>
      ⟨hx.1, List.mem_map.2 ⟨v, hv, hx.2⟩⟩) ?_
    cases hk : v.kind with
    | continuous lo hi => rw [hk] at he; simp [Kind.getBounds] at he
    | categorical labels => rw [hk] at he; simp [Kind.getBounds] at he
    | discrete vals =>
      rw [hk] at he
      by_cases hne : vals = []
      · subst hne
        simp only [Kind.getBounds, pyMin, Except.error.injEq] at he
        exact ⟨he.symm, rfl⟩
      · obtain ⟨⟨a, ha⟩, b, hb⟩ := hmm vals hne
        simp [Kind.getBounds, ha, hb] at he
    | bandit arms =>
      exfalso
      rw [hk] at he
      have htot : ∃ r, Kind.getBounds (.bandit arms) = .ok r := by
        unfold Kind.getBounds
        apply mapE_total
        intro d hd
        have : column arms d ≠ [] := by
          intro hc
          have : arms = [] := by simpa [column] using hc
          subst this
          simp [armDim] at hd
        obtain ⟨⟨a, ha⟩, b, hb⟩ := hmm _ this
        exact ⟨(a, b), by simp only [ha, hb]⟩
      obtain ⟨r, hr⟩ := htot
      rw [hr] at he
      simp at he

/-- C142: on a bandit space the conversions of single rows do not work: decoding any row is a `TypeError`. -/
theorem C142_bandit_conversion {sp : Space} {arms : Mat} (B : OneBandit sp arms) (r : Vec) :
    sp.modelToObjective r = .error .typeError := by
  obtain ⟨v, h1, h2⟩ := B.expanded
  simp [Space.modelToObjective, h1, modelToObjectiveFrom, h2, Kind.modelToObjective]

/-- C142, negation: encoding a row on a bandit space is not an error; the row, whatever it contains, is dropped and the answer
is empty. Only an empty row is refused. -/
theorem C142_bandit_encode_counterexample {sp : Space} {arms : Mat} (B : OneBandit sp arms) :
    (∀ (x : ℚ) (row : Vec), sp.objectiveToModel (x :: row) = .ok []) ∧ sp.objectiveToModel [] = .error .indexError := by
  obtain ⟨v, h1, h2⟩ := B.expanded
  constructor
  · intro x row
    simp [Space.objectiveToModel, B.hb, Space.objectiveDim, h1]
  · simp [Space.objectiveToModel, B.hb, Space.objectiveDim, h1]

/-- C142: rounding a vector with too few entries for the arms (but more than one, which numpy stretches) is a `ValueError`. -/
theorem C142_round_bandit {sp : Space} {arms : Mat} (B : OneBandit sp arms) (x : Vec)
    (_h2 : 2 ≤ x.length) (hx : x.length < armDim arms) : sp.roundOptimum x = .error .valueError := by
  obtain ⟨v, hv1, hv2⟩ := B.expanded
  have hs : slice x 0 (armDim arms) = x := by
    simp [slice, List.take_of_length_le hx.le]
  simp only [Space.roundOptimum, hv1, roundPieces, hv2, Kind.dimInModel, hs, Kind.round, roundBandit]
  rw [if_neg (by omega)]
  rfl

example : (designSpace [{ name := some "b", type := some "bandit", domain := some (.rows [[0, 0, 0], [1, 2, 3]]) }] none).map
    (fun sp => ((sp.roundOptimum [1, 1]).isOk, (sp.roundOptimum [1, 1, 1]).toOption, (sp.modelToObjective [1, 1, 1]).isOk))
    = .ok (false, some [[0, 0, 0]], false) := by decide +kernel

example : (designSpace [{ name := some "d", type := some "discrete", domain := some (.flat []) }] none).map
    (fun sp => sp.getBounds.isOk) = .ok false := by decide +kernel

/-- C51: the only exceptions of updating the costs that are not those of the fit: a `ValueError` if the times do not fit the
locations, and an `AttributeError` if an earlier update failed before there were any data. -/
theorem C51_update_error (lg : ℚ → ℚ) (fit : Py Unit) (c : CostModel) (x : Mat) (t : CostEvals) (e : Err)
    (h : (c.update lg fit x t).2 = .error e) :
    fit = .error e ∨ e = .valueError ∨ (e = .attributeError ∧ c.data = none ∧ c.numUpdates ≠ 0) := by
  unfold CostModel.update at h
  cases hk : c.kind with
  | evaluationTime =>
    simp only [hk] at h
    cases hc : columnValues (costColumn lg t) with
    | none =>
      simp only [hc] at h
      by_cases h0 : c.numUpdates = 0
      · rw [if_pos h0] at h; simp at h; exact .inr (.inl h.symm)
      · rw [if_neg h0] at h
        cases hd : c.data with
        | none => simp only [hd] at h; simp at h; exact .inr (.inr ⟨h.symm, rfl, h0⟩)
        | some p => simp only [hd] at h; simp at h; exact .inr (.inl h.symm)
    | some new =>
      simp only [hc] at h
      by_cases h0 : c.numUpdates = 0
      · rw [if_pos h0] at h
        by_cases hl : x.length = new.length
        · rw [if_pos hl] at h; exact .inl h
        · rw [if_neg hl] at h; simp at h; exact .inr (.inl h.symm)
      · rw [if_neg h0] at h
        cases hd : c.data with
        | none => simp only [hd] at h; simp at h; exact .inr (.inr ⟨h.symm, rfl, h0⟩)
        | some p =>
          obtain ⟨X, Y⟩ := p
          simp only [hd] at h
          split at h
          · exact .inl h
          · simp at h; exact .inr (.inl h.symm)
  | _ => simp [hk] at h

/-- C111: a model section without a type is a `KeyError`. -/
theorem C111_model_without_type {α : Type} (name : α → Option String) (opts : Opts α)
    (h : ∀ o ∈ opts, o.1 ≠ "type") : driverModel name opts = .error .keyError := by
  have : opts.lookup "type" = none := by
    rw [List.lookup_eq_none_iff]
    intro p hp
    have := h p hp
    simpa using fun hc => this hc.symm
  simp [driverModel, this]

/-- C66: a section where the defaults have a plain value is an error: a `TypeError` if it has a subsection, and an
`AttributeError` otherwise. -/
theorem C66_section_over_value (k : String) (v : Items) (rest d : Items) (a : String)
    (h : d.get k = some (.atom a)) :
    updateConfig (.cons k (.dict v) rest) d = .error (if v.anyDict then .typeError else .attributeError) := by
  rw [updateConfig.eq_def]
  simp only [Items.anyDict, if_true]
  rw [updateLoop.eq_def]
  simp only [h]

end GPyOpt.Props
