import Verif.Spec.Listing
import Verif.Lemmas.Feasible
import Verif.Lemmas.Layout

/-! # Lemmas about variables with the same values -/

namespace GPyOpt

open Spec Props

/-- Two results with the same outcome: related values, or the same exception. -/
inductive RelPy {α β : Type} (R : α → β → Prop) : Py α → Py β → Prop
  | ok {a : α} {b : β} (h : R a b) : RelPy R (.ok a) (.ok b)
  | error (e : Err) : RelPy R (.error e) (.error e)

theorem Spec.SameKind.symm {k k' : Kind} (h : SameKind k k') : SameKind k' k := by
  cases h with
  | refl => exact .refl _
  | discrete h => exact .discrete fun x => (h x).symm
  | categorical h => exact .categorical h.symm

/-! ## One variable -/

theorem Spec.SameKind.dimInModel {k k' : Kind} (h : SameKind k k') : k'.dimInModel = k.dimInModel := by
  cases h with
  | refl => rfl
  | discrete => rfl
  | categorical h => exact h.length_eq

theorem Spec.SameKind.width {k k' : Kind} (h : SameKind k k') : width k' = width k := by
  rw [← dimInModel_eq_width, ← dimInModel_eq_width, h.dimInModel]

theorem Spec.SameKind.indexWidth {k k' : Kind} (h : SameKind k k') : k'.indexWidth = k.indexWidth := by
  cases h with
  | refl => rfl
  | discrete => rfl
  | categorical h => exact h.length_eq

theorem Spec.SameKind.objectiveToModel {k k' : Kind} (h : SameKind k k') (x : ℚ) :
    k'.objectiveToModel x = k.objectiveToModel x := by
  cases h with
  | refl => rfl
  | discrete => rfl
  | categorical h => simp only [Kind.objectiveToModel, h.length_eq]

theorem Spec.SameKind.modelToObjective {k k' : Kind} (h : SameKind k k') (x : Vec) (i : Nat) :
    k'.modelToObjective x i = k.modelToObjective x i := by
  cases h with
  | refl => rfl
  | discrete => rfl
  | categorical h => simp only [Kind.modelToObjective, h.length_eq]

theorem Spec.SameKind.isContinuous {k k' : Kind} (h : SameKind k k') : k'.isContinuous = k.isContinuous := by
  cases h <;> rfl

theorem Spec.SameKind.isBandit {k k' : Kind} (h : SameKind k k') : k'.isBandit = k.isBandit := by
  cases h <;> rfl

theorem Spec.SameKind.isDiscrete {k k' : Kind} (h : SameKind k k') : k'.isDiscrete = k.isDiscrete := by
  cases h <;> rfl

theorem pyMin_set {l l' : List ℚ} (h : ∀ x, x ∈ l' ↔ x ∈ l) : pyMin l' = pyMin l := by
  by_cases hl : l = []
  · subst hl
    have : l' = [] := by
      apply List.eq_nil_iff_forall_not_mem.2
      intro x hx
      simpa using (h x).1 hx
    rw [this]
  · have hl' : l' ≠ [] := by
      rintro rfl
      obtain ⟨x, hx⟩ := List.exists_mem_of_ne_nil l hl
      simpa using (h x).2 hx
    obtain ⟨m, h1, h2, h3⟩ := pyMin_spec hl
    obtain ⟨m', h1', h2', h3'⟩ := pyMin_spec hl'
    rw [h1, h1', le_antisymm (h3' m ((h m).2 h2)) (h3 m' ((h m').1 h2'))]

theorem pyMax_set {l l' : List ℚ} (h : ∀ x, x ∈ l' ↔ x ∈ l) : pyMax l' = pyMax l := by
  by_cases hl : l = []
  · subst hl
    have : l' = [] := by
      apply List.eq_nil_iff_forall_not_mem.2
      intro x hx
      simpa using (h x).1 hx
    rw [this]
  · have hl' : l' ≠ [] := by
      rintro rfl
      obtain ⟨x, hx⟩ := List.exists_mem_of_ne_nil l hl
      simpa using (h x).2 hx
    obtain ⟨m, h1, h2, h3⟩ := pyMax_spec hl
    obtain ⟨m', h1', h2', h3'⟩ := pyMax_spec hl'
    rw [h1, h1', le_antisymm (h3 m' ((h m').1 h2')) (h3' m ((h m).2 h2))]

theorem Spec.SameKind.getBounds {k k' : Kind} (h : SameKind k k') : k'.getBounds = k.getBounds := by
  cases h with
  | refl => rfl
  | discrete h => simp only [Kind.getBounds, pyMin_set h, pyMax_set h]
  | categorical h => simp only [Kind.getBounds, h.length_eq]

theorem Spec.SameKind.nonEmpty {k k' : Kind} (h : SameKind k k') (hk : NonEmptyDom k) : NonEmptyDom k' := by
  cases h with
  | refl => exact hk
  | @discrete l l' h =>
    obtain ⟨x, hx⟩ := List.exists_mem_of_ne_nil l hk
    rintro rfl
    simpa using (h x).2 hx
  | @categorical l l' h =>
    rintro rfl
    have := h.length_eq
    simp only [List.length_nil] at this
    exact hk (List.eq_nil_of_length_eq_zero this.symm)

theorem Spec.SameKind.validObj {k k' : Kind} (h : SameKind k k') (x : ℚ) : ValidObj k' x ↔ ValidObj k x := by
  cases h with
  | refl => rfl
  | discrete h => exact h x
  | categorical h => simp only [ValidObj, h.length_eq]

theorem Spec.SameKind.validBlock {k k' : Kind} (h : SameKind k k') (x : Vec) : ValidBlock k' x ↔ ValidBlock k x := by
  cases h with
  | refl => rfl
  | discrete h => simp only [ValidBlock, h]
  | categorical h => simp only [ValidBlock, h.length_eq]

/-- Rounding a number without a tie. -/
theorem roundDiscrete_set {l l' : List ℚ} (h : ∀ x, x ∈ l' ↔ x ∈ l) {x : ℚ}
    (ht : ∀ a ∈ l, ∀ b ∈ l, (∀ c ∈ l, |a - x| ≤ |c - x|) → |b - x| = |a - x| → b = a) :
    roundDiscrete l' [x] = roundDiscrete l [x] := by
  by_cases hl : l = []
  · subst hl
    have : l' = [] := by
      apply List.eq_nil_iff_forall_not_mem.2
      intro y hy
      simpa using (h y).1 hy
    rw [this]
  · have hl' : l' ≠ [] := by
      rintro rfl
      obtain ⟨y, hy⟩ := List.exists_mem_of_ne_nil l hl
      simpa using (h y).2 hy
    obtain ⟨r, h1, y, s, i, e1, e2, h2, h3⟩ := roundDiscrete_spec (x := x) hl
    obtain ⟨r', h1', y', s', i', e1', e2', h2', h3'⟩ := roundDiscrete_spec (x := x) hl'
    cases e1; cases e2; cases e1'; cases e2'
    have hm : r ∈ l := List.mem_of_getElem? h2
    have hm' : r' ∈ l := (h r').1 (List.mem_of_getElem? h2')
    have hmin : ∀ c ∈ l, |r - x| ≤ |c - x| := by
      intro c hc
      obtain ⟨j, hj⟩ := List.mem_iff_getElem?.1 hc
      exact (h3 j c hj).1
    have hmin' : |r' - x| ≤ |r - x| := by
      obtain ⟨j, hj⟩ := List.mem_iff_getElem?.1 ((h r).2 hm)
      exact (h3' j r hj).1
    rw [h1, h1', ht r hm r' hm' hmin (le_antisymm hmin' (hmin r' hm'))]

/-! ## Building the space -/

/-- Variables with the same name, dimensionality and values. -/
structure ListedVar (v v' : Var) : Prop where
  name : v'.name = v.name
  kind : SameKind v.kind v'.kind
  dim : v'.dimensionality = v.dimensionality

/-- Expanded variables with the same name, columns and values. -/
structure ListedE (v v' : EVar) : Prop where
  name : v'.name = v.name
  kind : SameKind v.kind v'.kind
  idxObj : v'.idxObj = v.idxObj
  idxModel : v'.idxModel = v.idxModel

theorem createVariable_listed (n t : String) (dim : Option Nat) {dom dom' : Dom}
    (h : SameDom t (some dom) (some dom')) :
    RelPy ListedVar (createVariable n t dom dim) (createVariable n t dom' dim) := by
  cases h with
  | refl =>
    cases createVariable n t dom dim with
    | error e => exact .error e
    | ok v => exact .ok ⟨rfl, .refl _, rfl⟩
  | discrete h => exact .ok ⟨rfl, .discrete h, rfl⟩
  | categorical h => exact .ok ⟨rfl, .categorical h, rfl⟩

theorem translateFrom_listed {config config' : List Desc} (h : List.Forall₂ SameDesc config config') : ∀ i,
    RelPy (List.Forall₂ ListedVar) (translateFrom i config) (translateFrom i config') := by
  induction h with
  | nil => intro i; exact .ok .nil
  | @cons d d' ds ds' hd _ ih =>
    intro i
    obtain ⟨h1, h2, h3, h4⟩ := hd
    simp only [translateFrom, h1, h2, h3]
    have key : (d.domain = none ∧ d'.domain = none) ∨ ∃ a b, d.domain = some a ∧ d'.domain = some b ∧
        SameDom (d.type.getD "continuous") (some a) (some b) := by
      revert h4
      generalize d.type.getD "continuous" = t
      generalize d.domain = x
      generalize d'.domain = y
      intro h4
      cases h4 with
      | refl =>
        cases x with
        | none => exact .inl ⟨rfl, rfl⟩
        | some a => exact .inr ⟨a, a, rfl, rfl, .refl _ _⟩
      | discrete h => exact .inr ⟨_, _, rfl, rfl, .discrete h⟩
      | categorical h => exact .inr ⟨_, _, rfl, rfl, .categorical h⟩
    rcases key with ⟨e1, e2⟩ | ⟨a, b, e1, e2, hab⟩
    · rw [e1, e2]
      exact .error _
    · rw [e1, e2]
      simp only
      have := createVariable_listed (d.name.getD ("var_" ++ toString i)) (d.type.getD "continuous") d.dimensionality hab
      generalize createVariable (d.name.getD ("var_" ++ toString i)) (d.type.getD "continuous") a d.dimensionality = x at *
      generalize createVariable (d.name.getD ("var_" ++ toString i)) (d.type.getD "continuous") b d.dimensionality = y at *
      cases this with
      | error e => exact .error e
      | ok hv =>
        have := ih (i + 1)
        generalize translateFrom (i + 1) ds = x at *
        generalize translateFrom (i + 1) ds' = y at *
        cases this with
        | error e => exact .error e
        | ok hs => exact .ok (.cons hv hs)

theorem any_listed {vs vs' : List Var} (h : List.Forall₂ ListedVar vs vs') {p : Kind → Bool}
    (hp : ∀ k k', SameKind k k' → p k' = p k) : vs'.any (fun v => p v.kind) = vs.any (fun v => p v.kind) := by
  induction h with
  | nil => rfl
  | cons h1 _ ih => simp only [List.any_cons, ih, hp _ _ h1.kind]

theorem expandDesc_listed {d d' : Desc} (h : SameDesc d d') :
    RelPy (List.Forall₂ SameDesc) (expandDesc d) (expandDesc d') := by
  obtain ⟨h1, h2, h3, h4⟩ := h
  simp only [expandDesc, h1, h3]
  split
  · exact .ok (.cons ⟨h1, h2, by simp_all, h4⟩ .nil)
  · exact .ok .nil
  · split
    · exact .error _
    · refine .ok ?_
      rw [List.forall₂_map_left_iff, List.forall₂_map_right_iff]
      rw [List.forall₂_same]
      intro k _
      exact ⟨rfl, h2, rfl, h4⟩

theorem expandConfig_listed {config config' : List Desc} (h : List.Forall₂ SameDesc config config') :
    RelPy (List.Forall₂ SameDesc) (expandConfig config) (expandConfig config') := by
  unfold expandConfig
  induction h with
  | nil => exact .ok .nil
  | @cons d d' ds ds' hd _ ih =>
    simp only [mapE]
    have := expandDesc_listed hd
    generalize expandDesc d = x at *
    generalize expandDesc d' = y at *
    cases this with
    | error e => exact .error e
    | ok hx =>
      generalize mapE expandDesc ds = u at *
      generalize mapE expandDesc ds' = w at *
      cases u with
      | error e =>
        cases w with
        | error e' => simp only [Except_map_error] at ih; cases ih; exact .error _
        | ok w => simp only [Except_map_error, Except_map_ok] at ih; cases ih
      | ok u =>
        cases w with
        | error e' => simp only [Except_map_error, Except_map_ok] at ih; cases ih
        | ok w =>
          simp only [Except_map_ok] at ih ⊢
          cases ih with
          | ok ih => exact .ok (by simp only [List.flatten_cons]; exact List.rel_append hx ih)

theorem expand_listed {v v' : Var} (h : ListedVar v v') : List.Forall₂ ListedE v.expand v'.expand := by
  obtain ⟨n, k, d⟩ := v
  obtain ⟨n', k', d'⟩ := v'
  obtain ⟨h1, h2, h3⟩ := h
  simp only at h1 h2 h3
  subst h1 h3
  cases h2 with
  | refl =>
    rw [List.forall₂_same]
    exact fun x _ => ⟨rfl, .refl _, rfl, rfl⟩
  | discrete h =>
    simp only [Var.expand]
    rw [List.forall₂_map_left_iff, List.forall₂_map_right_iff, List.forall₂_same]
    exact fun x _ => ⟨rfl, .discrete h, rfl, rfl⟩
  | categorical h =>
    simp only [Var.expand]
    rw [List.forall₂_map_left_iff, List.forall₂_map_right_iff, List.forall₂_same]
    exact fun x _ => ⟨rfl, .categorical h, rfl, rfl⟩

theorem computeIndices_listed {ex ex' : List EVar} (h : List.Forall₂ ListedE ex ex') : ∀ o m,
    List.Forall₂ ListedE (computeIndices o m ex) (computeIndices o m ex') := by
  induction h with
  | nil => intro o m; exact .nil
  | cons h1 _ ih =>
    intro o m
    simp only [computeIndices, h1.kind.indexWidth]
    exact .cons ⟨h1.name, h1.kind, rfl, rfl⟩ (ih _ _)

theorem flatMap_listed {vs vs' : List Var} (h : List.Forall₂ ListedVar vs vs') :
    List.Forall₂ ListedE (vs.flatMap Var.expand) (vs'.flatMap Var.expand) := by
  induction h with
  | nil => exact .nil
  | cons h1 _ ih => simp only [List.flatMap_cons]; exact List.rel_append (expand_listed h1) ih

/-- Spaces whose variables have the same values. -/
structure Listed (sp sp' : Space) : Prop where
  vars : List.Forall₂ ListedVar sp.vars sp'.vars
  ex : List.Forall₂ ListedE sp.expanded sp'.expanded
  cfg : List.Forall₂ SameDesc sp.configExpanded sp'.configExpanded
  constr : sp'.constraints = sp.constraints

theorem designSpace_listed {config config' : List Desc} (h : List.Forall₂ SameDesc config config')
    (cs : Option (List ConstrDict)) : RelPy Listed (designSpace config cs) (designSpace config' cs) := by
  unfold designSpace translateSpace
  have h1 := translateFrom_listed h 0
  have h2 := expandConfig_listed h
  generalize translateFrom 0 config = x at *
  generalize translateFrom 0 config' = x' at *
  generalize expandConfig config = y at *
  generalize expandConfig config' = y' at *
  cases h1 with
  | error e => exact .error e
  | @ok vs vs' hv =>
    simp only
    rw [any_listed hv (p := Kind.isBandit) (fun k k' hk => hk.isBandit),
      any_listed hv (p := fun k => !k.isBandit) (fun k k' hk => by rw [hk.isBandit])]
    split_ifs
    · exact .error _
    · cases h2 with
      | error e => exact .error e
      | ok hy =>
        refine .ok ⟨hv, ?_, hy, rfl⟩
        exact computeIndices_listed (flatMap_listed hv) _ _

/-! ## Functions of the space -/

namespace Listed

variable {sp sp' : Space}

theorem kinds (h : Listed sp sp') : List.Forall₂ SameKind sp.kinds sp'.kinds := by
  unfold Space.kinds
  rw [List.forall₂_map_left_iff, List.forall₂_map_right_iff]
  exact h.ex.imp fun _ _ h => h.kind

theorem hasBandit (h : Listed sp sp') : sp'.hasBandit = sp.hasBandit :=
  any_listed h.vars fun _ _ hk => hk.isBandit

theorem hasContinuous (h : Listed sp sp') : sp'.hasContinuous = sp.hasContinuous :=
  any_listed h.vars fun _ _ hk => hk.isContinuous

theorem hasConstraints (h : Listed sp sp') : sp'.hasConstraints = sp.hasConstraints := by
  simp only [Space.hasConstraints, h.constr]

theorem dimensionality (h : Listed sp sp') : sp'.dimensionality = sp.dimensionality := by
  unfold Space.dimensionality
  have := h.vars
  generalize sp.vars = vs at *
  generalize sp'.vars = vs' at *
  induction this with
  | nil => rfl
  | cons h1 _ ih => simp only [List.map_cons, List.sum_cons, h1.dim, ih]

theorem objectiveDim (h : Listed sp sp') : sp'.objectiveDim = sp.objectiveDim := h.ex.length_eq.symm

theorem modelDim (h : Listed sp sp') : sp'.modelDim = sp.modelDim := by
  unfold Space.modelDim
  have := h.ex
  generalize sp.expanded = vs at *
  generalize sp'.expanded = vs' at *
  induction this with
  | nil => rfl
  | cons h1 _ ih => simp only [List.map_cons, List.sum_cons, h1.kind.dimInModel, ih]

theorem objectiveToModel (h : Listed sp sp') : sp'.objectiveToModel = sp.objectiveToModel := by
  funext x
  have key : ∀ k, objectiveToModelFrom x k sp'.expanded = objectiveToModelFrom x k sp.expanded := by
    have := h.ex
    generalize sp.expanded = vs at *
    generalize sp'.expanded = vs' at *
    induction this with
    | nil => intro k; rfl
    | cons h1 _ ih => intro k; simp only [objectiveToModelFrom, h1.kind.objectiveToModel, ih]
  simp only [Space.objectiveToModel, h.hasBandit, h.objectiveDim, key]

theorem modelToObjective (h : Listed sp sp') : sp'.modelToObjective = sp.modelToObjective := by
  funext x
  have key : ∀ k, modelToObjectiveFrom x k sp'.expanded = modelToObjectiveFrom x k sp.expanded := by
    have := h.ex
    generalize sp.expanded = vs at *
    generalize sp'.expanded = vs' at *
    induction this with
    | nil => intro k; rfl
    | cons h1 _ ih => intro k; simp only [modelToObjectiveFrom, h1.kind.modelToObjective, h1.kind.dimInModel, ih]
  exact key 0

theorem unzip (h : Listed sp sp') : sp'.unzipInputs = sp.unzipInputs := by
  funext X
  simp only [Space.unzipInputs, h.hasBandit, h.objectiveToModel]

theorem zip (h : Listed sp sp') : sp'.zipInputs = sp.zipInputs := by
  funext X
  simp only [Space.zipInputs, h.hasBandit, h.modelToObjective]

theorem getBounds (h : Listed sp sp') : sp'.getBounds = sp.getBounds := by
  unfold Space.getBounds
  congr 1
  have := h.ex
  generalize sp.expanded = vs at *
  generalize sp'.expanded = vs' at *
  induction this with
  | nil => rfl
  | cons h1 _ ih => simp only [mapE, h1.kind.getBounds, ih]

theorem indicator (h : Listed sp sp') : sp'.indicatorConstraints = sp.indicatorConstraints := by
  funext X
  simp only [Space.indicatorConstraints, h.constr]

theorem find (h : Listed sp sp') (n : String) : RelPy ListedE (sp.findVariable n) (sp'.findVariable n) := by
  unfold Space.findVariable
  have := List.rel_reverse h.ex
  generalize sp.expanded.reverse = vs at *
  generalize sp'.expanded.reverse = vs' at *
  induction this with
  | nil => exact .error _
  | @cons v v' vs vs' h1 _ ih =>
    simp only [List.find?_cons, h1.name]
    cases v.name == n with
    | true => exact .ok h1
    | false => exact ih

theorem contextLoop (h : Listed sp sp') (c : Context) : contextLoop sp' c = contextLoop sp c := by
  induction c with
  | nil => rfl
  | cons p c ih =>
    obtain ⟨n, x⟩ := p
    simp only [GPyOpt.contextLoop, ih]
    have := h.find n
    generalize sp.findVariable n = u at *
    generalize sp'.findVariable n = w at *
    cases this with
    | error e => rfl
    | ok hv => simp only [hv.kind.objectiveToModel, hv.idxModel, hv.idxObj]

theorem contextManager (h : Listed sp sp') (c : Option Context) : contextManager sp' c = contextManager sp c := by
  simp only [GPyOpt.contextManager, h.modelDim, ← h.cfg.length_eq, h.getBounds, h.contextLoop]

theorem expandVector (h : Listed sp sp') (c : Ctx) : c.expandVector sp' = c.expandVector sp := by
  funext x
  simp only [Ctx.expandVector, h.modelDim]

/-- Rounding, where there is no tie. -/
theorem round (h : Listed sp sp') {x : Vec} (hx : x.length = sp.modelDim) (ht : NoTie sp.kinds x) :
    sp'.roundOptimum x = sp.roundOptimum x := by
  have key : ∀ k, k + (sp.expanded.map (fun v => v.kind.dimInModel)).sum ≤ x.length → NoTie sp.kinds (x.drop k) →
      roundPieces x k sp'.expanded = roundPieces x k sp.expanded := by
    have := h.ex
    unfold Space.kinds
    clear ht hx
    generalize sp.expanded = vs at *
    generalize sp'.expanded = vs' at *
    induction this with
    | nil => intro k _ _; rfl
    | @cons v v' vs vs' h1 _ ih =>
      intro k hk ht
      simp only [List.map_cons, List.sum_cons] at hk ht
      simp only [roundPieces, h1.kind.dimInModel]
      have hr : v'.kind.round (slice x k v.kind.dimInModel) = v.kind.round (slice x k v.kind.dimInModel) ∧
          NoTie (vs.map EVar.kind) (x.drop (k + v.kind.dimInModel)) := by
        have h2 := h1.kind
        revert h2 ht hk
        generalize v.kind = a
        generalize v'.kind = b
        intro hk ht h2
        cases h2 with
        | refl =>
          refine ⟨rfl, ?_⟩
          cases a <;> simp only [NoTie, width, Kind.dimInModel, List.drop_drop, armDim] at ht ⊢
          · exact ht
          · exact ht.2
          · exact ht
          · exact ht
        | @discrete l l' hl =>
          simp only [NoTie, Kind.dimInModel, List.drop_drop] at ht hk ⊢
          refine ⟨?_, ht.2⟩
          have e : slice x k 1 = [(x.drop k).headD 0] := by
            unfold slice
            have : k < List.length x := by omega
            rw [List.drop_eq_getElem_cons this]
            rfl
          rw [e]
          simp only [Kind.round, roundDiscrete_set hl ht.1]
        | @categorical l l' hl =>
          simp only [NoTie, width, Kind.dimInModel, List.drop_drop] at ht ⊢
          exact ⟨rfl, ht⟩
      rw [hr.1, ih _ (by omega) hr.2]
  unfold Space.roundOptimum
  rw [key 0 (by rw [hx]; unfold Space.modelDim; omega) (by simpa using ht)]

theorem contDims (h : Listed sp sp') : sp'.getContinuousDims = sp.getContinuousDims := by
  simp only [Space.getContinuousDims, h.dimensionality]
  have key : ∀ i, (npGet sp'.expanded i).map (fun v => v.kind.isContinuous)
      = (npGet sp.expanded i).map (fun v => v.kind.isContinuous) := by
    have := h.ex
    generalize sp.expanded = vs at *
    generalize sp'.expanded = vs' at *
    induction this with
    | nil => intro i; rfl
    | cons h1 _ ih =>
      intro i
      cases i with
      | zero => simp [npGet, h1.kind.isContinuous]
      | succ i => simpa [npGet] using ih i
  generalize List.range sp.dimensionality = is
  induction is with
  | nil => rfl
  | cons i is ih =>
    have hi := key i
    simp only [Space.dimsWhere, ih]
    cases h1 : npGet sp.expanded i <;> cases h2 : npGet sp'.expanded i <;> simp_all

theorem contBounds (h : Listed sp sp') : sp'.getContinuousBounds = sp.getContinuousBounds := by
  unfold Space.getContinuousBounds
  have := h.vars
  generalize sp.vars = vs at *
  generalize sp'.vars = vs' at *
  induction this with
  | nil => rfl
  | @cons v v' _ _ h1 _ ih =>
    simp only [List.flatMap_cons, ih]
    congr 1
    have h2 := h1.kind
    rw [h1.dim]
    revert h2
    generalize v.kind = a
    generalize v'.kind = b
    intro h2
    cases h2 <;> rfl

theorem chooseFrom_drawn {l l' : List ℚ} {i i' : Nat} (h : l'[i' % l'.length]? = l[i % l.length]?) :
    chooseFrom l' i' = chooseFrom l i := by
  unfold chooseFrom
  rw [h]

theorem fillRow_listed {d d' : Draw} {r : Nat} {ex ex' : List EVar} (h : List.Forall₂ ListedE ex ex') :
    ∀ (idx : Nat) (row : Vec), (∀ v ∈ ex, v.kind.isBandit = false) →
    (∀ (i : Nat) (k k' : Kind), (ex.map EVar.kind)[i]? = some k → (ex'.map EVar.kind)[i]? = some k' →
      drawn k' (d'.choice (idx + i) r) = drawn k (d.choice (idx + i) r)) →
    fillRow d' r idx ex' row = fillRow d r idx ex row := by
  induction h with
  | nil => intro idx row _ _; rfl
  | @cons v v' vs vs' h1 _ ih =>
    intro idx row hb hd
    have ih' := fun row => ih (idx + 1) row (fun w hw => hb w (List.mem_cons_of_mem _ hw)) (fun i k k' hk hk' => by
      have := hd (i + 1) k k' (by simpa using hk) (by simpa using hk')
      rwa [show idx + (i + 1) = idx + 1 + i by omega] at this)
    have h0 := hd 0 v.kind v'.kind rfl rfl
    have hb0 := hb v (by simp)
    have h2 := h1.kind
    simp only [fillRow, ih']
    revert h0 h2 hb0
    generalize v.kind = a
    generalize v'.kind = b
    intro h2 hb0 h0
    simp only [Nat.add_zero] at h2
    cases h0 with
    | refl =>
      cases a with
      | continuous => rfl
      | discrete l => simp only [drawn] at h2; simp only [chooseFrom_drawn h2]
      | categorical l => simp only [drawn] at h2; simp only [chooseFrom_drawn h2]
      | bandit => simp [Kind.isBandit] at hb0
    | discrete hl => simp only [drawn] at h2; simp only [chooseFrom_drawn h2]
    | categorical hl => simp only [drawn] at h2; simp only [chooseFrom_drawn h2]

variable {o o' : DesignOracle}

theorem noBanditE {config : List Desc} {cs : Option (List ConstrDict)} (hd : designSpace config cs = .ok sp)
    (hb : sp.hasBandit = false) : ∀ v ∈ sp.expanded, v.kind.isBandit = false := by
  intro v hv
  have := space_noBandit hd hb v.kind (List.mem_map.2 ⟨v, hv, rfl⟩)
  cases hk : v.kind with
  | bandit arms => exact absurd hk (this arms)
  | _ => rfl

theorem designRow (h : Listed sp sp') (hb : ∀ v ∈ sp.expanded, v.kind.isBandit = false)
    (hs : SameValues sp.kinds sp'.kinds o o') (t : Nat) (design : Nat → Vec) :
    designRow sp' (o'.draws t) design = designRow sp (o.draws t) design := by
  funext r
  have he : emptyRow sp' (o'.draws t) r = emptyRow sp (o.draws t) r := by
    simp only [emptyRow, h.dimensionality, hs.junk]
  simp only [GPyOpt.designRow, putContinuous, h.hasContinuous, h.contDims, he]
  rw [fillRow_listed h.ex 0 _ hb fun i k k' hk hk' => by
    rw [Nat.zero_add]; exact hs.choice t r i k k' hk hk']

theorem randomNoConstr (h : Listed sp sp') (hb : ∀ v ∈ sp.expanded, v.kind.isBandit = false)
    (hs : SameValues sp.kinds sp'.kinds o o') (t n : Nat) :
    randomNoConstr sp' (o'.draws t) n = randomNoConstr sp (o.draws t) n := by
  simp only [GPyOpt.randomNoConstr, h.contBounds, hs.unif, h.designRow hb hs]

theorem constrLoop (h : Listed sp sp') (hb : ∀ v ∈ sp.expanded, v.kind.isBandit = false)
    (hs : SameValues sp.kinds sp'.kinds o o') (n : Nat) : ∀ (fuel round : Nat) (m : Mat),
    constrLoop sp' n o'.draws fuel round m = constrLoop sp n o.draws fuel round m := by
  intro fuel
  induction fuel with
  | zero => intro round m; rw [GPyOpt.constrLoop, GPyOpt.constrLoop]
  | succ fuel ih =>
    intro round m
    rw [GPyOpt.constrLoop, GPyOpt.constrLoop]
    simp only [h.randomNoConstr hb hs, h.indicator, ih]

theorem initialDesign (h : Listed sp sp') (hb : ∀ v ∈ sp.expanded, v.kind.isBandit = false)
    (hs : SameValues sp.kinds sp'.kinds o o') (t : String) (n : Nat) :
    initialDesign t sp' o' n = initialDesign t sp o n := by
  simp only [GPyOpt.initialDesign, randomDesign, sobolDesign, gridDesign, latinDesign, h.hasConstraints,
    h.constrLoop hb hs, h.randomNoConstr hb hs, h.designRow hb hs, h.contBounds, h.contDims, hs.fuel, hs.sobol, hs.lhs]

end Listed

/-! ## Sampled locations -/

theorem npGet_forall₂ {α β : Type} {R : α → β → Prop} {l : List α} {m : List β} (h : List.Forall₂ R l m) (i : Nat) :
    RelPy R (npGet l i) (npGet m i) := by
  induction h generalizing i with
  | nil => exact .error _
  | cons h1 _ ih =>
    cases i with
    | zero => exact .ok h1
    | succ i => exact ih i

theorem mapE_rel {α β γ : Type} {R : β → γ → Prop} {f : α → Py β} {g : α → Py γ} (h : ∀ a, RelPy R (f a) (g a))
    (l : List α) : RelPy (List.Forall₂ R) (mapE f l) (mapE g l) := by
  induction l with
  | nil => exact .ok .nil
  | cons a l ih =>
    simp only [mapE]
    have ha := h a
    generalize f a = x at *
    generalize g a = y at *
    cases ha with
    | error e => exact .error e
    | ok hx =>
      generalize mapE f l = u at *
      generalize mapE g l = w at *
      cases ih with
      | error e => exact .error e
      | ok hu => exact .ok (.cons hx hu)

namespace Listed

variable {sp sp' : Space}

theorem anchorSamples (h : Listed sp sp') {config : List Desc} {cs : Option (List ConstrDict)}
    {config' : List Desc} (hd : designSpace config cs = .ok sp) (hd' : designSpace config' cs = .ok sp')
    (hb : sp.hasBandit = false) {context : Option Context} {c : Ctx}
    (hc : GPyOpt.contextManager sp context = .ok c) {o o' : DesignOracle}
    (hs : SameValues (freeKinds sp c) (freeKinds sp' c) o o') (unique : Bool) (t : String) (n : Nat) :
    GPyOpt.anchorSamples sp' (some c) unique t n o' = GPyOpt.anchorSamples sp (some c) unique t n o := by
  have hc' := h.contextManager context ▸ hc
  have hb' : sp'.hasBandit = false := by rw [h.hasBandit]; exact hb
  obtain ⟨ds, s, h0, h1, h2, h3, h4⟩ := anchorSpace_descs hd hb hc
  obtain ⟨ds', s', e0, e1, e2, e3, e4⟩ := anchorSpace_descs hd' hb' hc'
  have hf : freeKinds sp c = s.kinds := by
    rw [h4]; exact keep_free hc (expandConfig_good hd hb).length_eq.symm
  have hf' : freeKinds sp' c = s'.kinds := by
    rw [e4]; exact keep_free hc' (expandConfig_good hd' hb').length_eq.symm
  have hds : List.Forall₂ SameDesc ds ds' := by
    have := mapE_rel (npGet_forall₂ h.cfg) c.nocontextIndexObj
    rw [h0, e0] at this
    cases this with
    | ok hu => exact hu
  have hl : Listed s s' := by
    have := designSpace_listed hds sp.constraints
    rw [h.constr] at e2
    rw [h2, e2] at this
    cases this with
    | ok hu => exact hu
  have hadd : addContext (some c) sp' = addContext (some c) sp := by
    funext x; simp only [addContext, h.expandVector]
  rw [hf, hf'] at hs
  simp only [GPyOpt.anchorSamples, h1, e1, hl.initialDesign (noBanditE h2 h3) hs, hl.unzip, hadd]

end Listed

/-! ## Problems whose variables have the same values -/

theorem noTie_of_modelDomain {ks : List Kind} (hnb : NoBandit ks) {x : Vec} (h : ModelDomain ks x) : NoTie ks x := by
  obtain ⟨bs, h1, rfl⟩ := h
  induction h1 with
  | nil => trivial
  | @cons k b ks bs hb _ ih =>
    have ih := ih fun k hk => hnb k (List.mem_cons_of_mem _ hk)
    have hl := validBlock_length (hnb k (by simp)) hb
    have hdrop : (b ++ bs.flatten).drop (width k) = bs.flatten := by rw [← hl, List.drop_left]
    simp only [List.flatten_cons]
    cases k with
    | continuous lo hi => simp only [NoTie, hdrop]; exact ih
    | discrete l =>
      obtain ⟨y, hy, rfl⟩ := hb
      simp only [NoTie, List.cons_append, List.nil_append, List.headD_cons, List.drop_succ_cons, List.drop_zero]
      refine ⟨fun a ha b' hb' hmin he => ?_, ih⟩
      have h0 : |a - y| = 0 := le_antisymm (by simpa using hmin y hy) (abs_nonneg _)
      rw [h0] at he
      rw [abs_eq_zero, sub_eq_zero] at h0 he
      rw [h0, he]
    | categorical l => simp only [NoTie, hdrop]; exact ih
    | bandit arms => exact absurd rfl (hnb (.bandit arms) (by simp) arms)

/-- Problems whose variables have the same values correspond, where rounding has no tie. -/
theorem corr_listed {config config' : List Desc} {cs : Option (List ConstrDict)} {sp sp' : Space}
    (hd : designSpace config cs = .ok sp) (hd' : designSpace config' cs = .ok sp') (h : Listed sp sp')
    (hb : sp.hasBandit = false) (hne : ∀ k ∈ sp.kinds, NonEmptyDom k)
    {context : Option Context} {c : Ctx} (hc : contextManager sp context = .ok c) :
    Corr sp c sp' c id id id (SameValues (freeKinds sp c) (freeKinds sp' c)) (fun _ _ => True) (NoTie sp.kinds)
      fun x => x.length = sp.modelDim := by
  refine ⟨hb, ?_, fun _ _ _ _ _ _ _ _ hX => Corr.samples_length hb hX, fun _ hx => hx, ?_, ?_, ?_, ?_, ?_, ?_, ?_⟩
  · intro unique t n o o' _ hs
    rw [h.anchorSamples hd hd' hb hc hs unique t n]
    cases anchorSamples sp (some c) unique t n o <;> simp
  · intro x hx
    simp only [id]
    cases x0NoContext (some c) x <;> simp
  · intro x hx
    rw [h.expandVector]
    change c.expandVector sp x = _
    cases c.expandVector sp x <;> simp
  · intro x hx ht
    simp only [Space.roundOptimum2d, id, h.round hx ht]
    cases sp.roundOptimum x <;> simp
  · intro x m hx _ hm
    exact roundOptimum2d_length hd hb hne hx hm
  · intro x m hx _ hm r hr
    have hk := space_kinds_eq hd
    by_cases hvar : kindsOf config = []
    · rw [← hk] at hvar
      rw [hvar]
      trivial
    · obtain ⟨r', h1, h2⟩ := C03_round_in_domain hd hb (by rw [← hk]; exact hne) hvar x (by
        rw [hx, ← hk, modelDim_eq])
      simp only [Space.roundOptimum2d] at hm
      rw [h1] at hm
      cases hm
      rw [List.mem_singleton] at hr
      subst hr
      rw [← hk] at h2
      exact noTie_of_modelDomain (space_noBandit hd hb) h2
  · intro m hm hl
    rw [h.zip, List.map_id]
    cases sp.zipInputs m <;> simp
  · intro x y _ _ hxy
    exact hxy

end GPyOpt
