import Verif.Spec.Config

/-!
# C66: merging a configuration with the defaults
-/

namespace GPyOpt

open Spec

theorem Items.get_set_self (d : Items) (k : String) (v : Cfg) : (d.set k v).get k = some v := by
  match d with
  | .nil => simp [Items.set, Items.get]
  | .cons k' w rest =>
    by_cases h : k' = k
    · simp [Items.set, Items.get, h]
    · simp [Items.set, Items.get, h, Items.get_set_self rest k v]

theorem Items.get_set_ne (d : Items) {k k' : String} (v : Cfg) (hne : k' ≠ k) :
    (d.set k v).get k' = d.get k' := by
  match d with
  | .nil => simp [Items.set, Items.get, Ne.symm hne]
  | .cons k2 w rest =>
    by_cases h : k2 = k
    · subst h; simp [Items.set, Items.get, Ne.symm hne]
    · by_cases h2 : k2 = k'
      · subst h2; simp [Items.set, Items.get, h]
      · simp [Items.set, Items.get, h, h2, Items.get_set_ne rest v hne]

/-- One key of the result of `update_config`. -/
def KeyOk (new d r : Items) (k : String) : Prop :=
  match new.get k with
  | none => r.get k = d.get k
  | some (.atom a) => r.get k = some (.atom a)
  | some (.dict v) => match d.get k with
    | none => r.get k = some (.dict v)
    | some (.atom _) => False
    | some (.dict dk) => ∃ r', updateConfig v dk = .ok r' ∧ r.get k = some (.dict r')

theorem keyOk_skip {k k' : String} {v : Cfg} {rest d r : Items} (w : Cfg) (h : KeyOk rest (d.set k w) r k')
    (hne : k' ≠ k) : KeyOk (.cons k v rest) d r k' := by
  unfold KeyOk at h ⊢
  rw [Items.get_set_ne d w hne] at h
  simpa [Items.get, Ne.symm hne] using h

theorem keyOk_head {k : String} {rest d r : Items} {w : Cfg} (h : KeyOk rest (d.set k w) r k)
    (hk : rest.get k = none) : r.get k = some w := by
  unfold KeyOk at h
  rw [hk] at h
  simpa [Items.get_set_self] using h

theorem updateLoop_keyOk (new : Items) (hwf : ItemsWF new) (d r : Items) (h : updateLoop new d = .ok r)
    (k' : String) : KeyOk new d r k' := by
  match new with
  | .nil =>
    rw [updateLoop] at h
    injection h with h
    simp [KeyOk, Items.get, h]
  | .cons k (.atom a) rest =>
    rw [updateLoop] at h
    simp only [ItemsWF] at hwf
    have ih := fun k' => updateLoop_keyOk rest hwf.2.2 _ r h k'
    by_cases hk : k' = k
    · subst hk
      have := keyOk_head (ih k') hwf.1
      simp [KeyOk, Items.get, this]
    · exact keyOk_skip _ (ih k') hk
  | .cons k (.dict v) rest =>
    simp only [ItemsWF] at hwf
    rw [updateLoop] at h
    cases hd : d.get k with
    | none =>
      rw [hd] at h
      dsimp only at h
      have ih := fun k' => updateLoop_keyOk rest hwf.2.2 _ r h k'
      by_cases hk : k' = k
      · subst hk
        have := keyOk_head (ih k') hwf.1
        simp [KeyOk, Items.get, this, hd]
      · exact keyOk_skip _ (ih k') hk
    | some c =>
      cases c with
      | atom a => rw [hd] at h; simp at h
      | dict dk =>
        rw [hd] at h
        dsimp only at h
        cases hu : updateConfig v dk with
        | error e => rw [hu] at h; simp at h
        | ok r' =>
          rw [hu] at h
          dsimp only at h
          have ih := fun k' => updateLoop_keyOk rest hwf.2.2 _ r h k'
          by_cases hk : k' = k
          · subst hk
            have := keyOk_head (ih k') hwf.1
            simp [KeyOk, Items.get, hd, hu, this]
          · exact keyOk_skip _ (ih k') hk

theorem update_keyOk (new : Items) (hwf : ItemsWF new) (hany : new.anyDict = false) (d : Items)
    (k' : String) : KeyOk new d (d.update new) k' := by
  match new with
  | .nil => simp [KeyOk, Items.get, Items.update]
  | .cons k (.dict v) rest => simp [Items.anyDict] at hany
  | .cons k (.atom a) rest =>
    simp only [ItemsWF] at hwf
    have ih := fun k' => update_keyOk rest hwf.2.2 (by simpa [Items.anyDict] using hany) (d.set k (.atom a)) k'
    by_cases hk : k' = k
    · subst hk
      have := keyOk_head (ih k') hwf.1
      simp [KeyOk, Items.get, this, Items.update]
    · exact keyOk_skip _ (ih k') hk

theorem updateConfig_keyOk (new : Items) (hwf : ItemsWF new) (d r : Items)
    (h : updateConfig new d = .ok r) (k : String) : KeyOk new d r k := by
  rw [updateConfig] at h
  split at h
  · exact updateLoop_keyOk new hwf d r h k
  · injection h with h
    subst h
    rename_i hany
    exact update_keyOk new hwf (by simpa using hany) d k

theorem itemsWF_get {d : Items} {k : String} {v : Cfg} (hwf : ItemsWF d) (h : d.get k = some v) :
    CfgWF v := by
  match d with
  | .nil => simp [Items.get] at h
  | .cons k' w rest =>
    simp only [ItemsWF] at hwf
    by_cases hk : k' = k
    · simp [Items.get, hk] at h
      exact h ▸ hwf.2.1
    · simp [Items.get, hk] at h
      exact itemsWF_get hwf.2.2 h

theorem userLeaf_cons {d : Items} {k : String} {c : Cfg} {p : List String} (h : d.get k = some c) :
    UserLeaf (.dict d) (k :: p) ↔ UserLeaf c p := by
  constructor
  · rintro ⟨q, a, hq, hv⟩
    cases q with
    | nil => simp [view] at hv
    | cons k' q =>
      rw [List.cons_prefix_cons] at hq
      obtain ⟨rfl, hq⟩ := hq
      exact ⟨q, a, hq, by simpa [view, h] using hv⟩
  · rintro ⟨q, a, hq, hv⟩
    exact ⟨k :: q, a, by simpa using hq, by simpa [view, h] using hv⟩

theorem updateConfig_isMerge (p : List String) : ∀ (new d r : Items), ItemsWF new →
    updateConfig new d = .ok r →
    (∀ v, view (.dict new) p = some v → view (.dict r) p = some v) ∧
    (view (.dict new) p = none → UserLeaf (.dict new) p → view (.dict r) p = none) ∧
    (view (.dict new) p = none → ¬ UserLeaf (.dict new) p →
      view (.dict r) p = view (.dict d) p) := by
  induction p with
  | nil => intro new d r _ _; simp [view]
  | cons k p ih =>
    intro new d r hwf h
    have hk := updateConfig_keyOk new hwf d r h k
    unfold KeyOk at hk
    cases hn : new.get k with
    | none =>
      rw [hn] at hk
      dsimp only at hk
      refine ⟨by simp [view, hn], ?_, by simp [view, hk]⟩
      rintro - ⟨q, a, hq, hv⟩
      cases q with
      | nil => simp [view] at hv
      | cons k' q =>
        rw [List.cons_prefix_cons] at hq
        obtain ⟨rfl, hq⟩ := hq
        simp [view, hn] at hv
    | some c =>
      rw [hn] at hk
      cases c with
      | atom a =>
        dsimp only at hk
        refine ⟨by simp [view, hn, hk], fun h1 _ => by simpa [view, hn, hk] using h1, ?_⟩
        intro _ hno
        exact absurd ⟨[k], a, by simp, by simp [view, hn]⟩ hno
      | dict v =>
        have hvwf : ItemsWF v := by simpa [CfgWF] using itemsWF_get hwf hn
        cases hd : d.get k with
        | none =>
          rw [hd] at hk
          dsimp only at hk
          refine ⟨by simp [view, hn, hk], fun h1 _ => by simpa [view, hn, hk] using h1, ?_⟩
          intro h1 _
          simp only [view, hn, hk, hd, Option.bind_some, Option.bind_none] at h1 ⊢
          exact h1
        | some c2 =>
          rw [hd] at hk
          cases c2 with
          | atom _ => exact hk.elim
          | dict dk =>
            obtain ⟨r', hr', hk⟩ := hk
            have := ih v dk r' hvwf hr'
            rw [userLeaf_cons hn]
            simpa [view, hn, hk, hd] using this

theorem updateConfig_noConflict (p : List String) : ∀ (new d r : Items), ItemsWF new →
    updateConfig new d = .ok r → ¬ Conflict (.dict new) (.dict d) p := by
  induction p with
  | nil => rintro new d r _ _ ⟨_, a, h⟩; simp [view] at h
  | cons k p ih =>
    rintro new d r hwf h ⟨h1, a, h2⟩
    have hk := updateConfig_keyOk new hwf d r h k
    unfold KeyOk at hk
    cases hn : new.get k with
    | none => simp [view, hn] at h1
    | some c =>
      cases hd : d.get k with
      | none => simp [view, hd] at h2
      | some c2 =>
        rw [hn, hd] at hk
        cases c with
        | atom _ => cases p <;> simp [view, hn] at h1
        | dict v =>
          cases c2 with
          | atom _ => exact hk
          | dict dk =>
            obtain ⟨r', hr', -⟩ := hk
            exact ih v dk r' (by simpa [CfgWF] using itemsWF_get hwf hn) hr'
              ⟨by simpa [view, hn] using h1, a, by simpa [view, hd] using h2⟩

mutual
theorem updateConfig_total (new : Items) (hwf : ItemsWF new) (d : Items)
    (h : ∀ p, ¬ Conflict (.dict new) (.dict d) p) : ∃ r, updateConfig new d = .ok r := by
  rw [updateConfig]
  split
  · exact updateLoop_total new hwf d h
  · exact ⟨_, rfl⟩
termination_by (sizeOf new, 1)

theorem updateLoop_total (new : Items) (hwf : ItemsWF new) (d : Items)
    (h : ∀ p, ¬ Conflict (.dict new) (.dict d) p) : ∃ r, updateLoop new d = .ok r := by
  match new with
  | .nil => exact ⟨d, by rw [updateLoop]⟩
  | .cons k v rest =>
    simp only [ItemsWF] at hwf
    have hrest : ∀ w p, ¬ Conflict (.dict rest) (.dict (d.set k w)) p := by
      rintro w p ⟨h1, a, h2⟩
      cases p with
      | nil => simp [view] at h2
      | cons k' p =>
        by_cases hk : k' = k
        · subst hk; simp [view, hwf.1] at h1
        · exact h (k' :: p) ⟨by simpa [view, Items.get, Ne.symm hk] using h1, a,
            by simpa [view, Items.get_set_ne d w hk] using h2⟩
    match v with
    | .atom a =>
      rw [updateLoop]
      exact updateLoop_total rest hwf.2.2 _ (hrest _)
    | .dict v =>
      rw [updateLoop]
      cases hd : d.get k with
      | none => exact updateLoop_total rest hwf.2.2 _ (hrest _)
      | some c =>
        cases c with
        | atom a => exact absurd ⟨by simp [view, Items.get], a, by simp [view, hd]⟩ (h [k])
        | dict dk =>
          have hv : ItemsWF v := by simpa [CfgWF] using hwf.2.1
          obtain ⟨r', hr'⟩ := updateConfig_total v hv dk (by
            rintro p ⟨h1, a, h2⟩
            exact h (k :: p) ⟨by simpa [view, Items.get] using h1, a, by simpa [view, hd] using h2⟩)
          dsimp only
          rw [hr']
          exact updateLoop_total rest hwf.2.2 _ (hrest _)
termination_by (sizeOf new, 0)
end

namespace Props

/-- **C66.** Merging a user configuration (without repeated keys, at any depth) into a default one
succeeds exactly if the user nowhere gives a section in place of a plain default value. The result has
at every path what the user gave there; below a plain value of the user it has nothing; and at every
other path it has what the default has. -/
theorem C66_merge (new default : Items) (hwf : ItemsWF new) :
    ((∃ r, updateConfig new default = .ok r) ↔ ∀ p, ¬ Conflict (.dict new) (.dict default) p) ∧
    ∀ r, updateConfig new default = .ok r → IsMerge (.dict new) (.dict default) (.dict r) :=
  ⟨⟨fun ⟨r, h⟩ p => updateConfig_noConflict p new default r hwf h, updateConfig_total new hwf default⟩,
    fun r h p => updateConfig_isMerge p new default r hwf h⟩

/-- A part of the default configuration (`config_parser.py:10-59`). -/
def exDefault : Items :=
  .cons "experiment-name" (.atom "no-named-experiment") <|
  .cons "resources" (.dict <| .cons "maximum-iterations" (.atom "20") <|
    .cons "max-run-time" (.atom "NA") .nil) <|
  .cons "acquisition" (.dict <| .cons "type" (.atom "EI") <|
    .cons "optimizer" (.dict (.cons "name" (.atom "lbfgs") .nil)) .nil) .nil

/-- A user configuration with a section two levels deep. -/
def exUser : Items :=
  .cons "experiment-name" (.atom "mine") <|
  .cons "acquisition" (.dict <| .cons "optimizer" (.dict (.cons "name" (.atom "CMA") .nil)) .nil) .nil

/-- `exUser` satisfies the hypothesis of `C66_merge` and is merged. -/
example : ItemsWF exUser := by simp [exUser, ItemsWF, CfgWF, Items.get]

/-- The merge of `exUser` and `exDefault`. -/
def exMerged : Items :=
  .cons "experiment-name" (.atom "mine") <|
  .cons "resources" (.dict <| .cons "maximum-iterations" (.atom "20") <|
    .cons "max-run-time" (.atom "NA") .nil) <|
  .cons "acquisition" (.dict <| .cons "type" (.atom "EI") <|
    .cons "optimizer" (.dict (.cons "name" (.atom "CMA") .nil)) .nil) .nil

example : updateConfig exUser exDefault = .ok exMerged := by
  simp [exUser, exDefault, exMerged, updateConfig, updateLoop, Items.anyDict, Items.get, Items.set, Items.update]

/-- A section in place of a plain value is refused. -/
example : updateConfig (.cons "experiment-name" (.dict .nil) .nil) exDefault = .error .attributeError := by
  simp [exDefault, updateConfig, updateLoop, Items.anyDict, Items.get]

end Props

end GPyOpt
