import Verif.Model.BO
import Verif.Lemmas.Py

/-!
# C147: names are labels, and a `d`-dimensional variable is `d` variables

The specification: what a domain description says is the list of its one-dimensional variables,
each with its type and domain (`Desc.meaning`).  Names, omitted defaults, and how variables are
grouped by `dimensionality` are left out.  The theorems say that nothing else matters: to the
encodings, the rounding, the bounds, the designs, the suggestions and the runs.
-/

namespace GPyOpt.Props

open GPyOpt

/-- What a descriptor says: `dimensionality` times a variable of this type and domain. The arms of a
bandit variable are vectors, so its `dimensionality` is not a number of copies. -/
def meaning (d : Desc) : List (String × Option Dom × Option Nat) :=
  if d.type.getD "continuous" = "bandit" then [("bandit", d.domain, d.dimensionality)]
  else List.replicate (d.dimensionality.getD 1) (d.type.getD "continuous", d.domain, none)

/-- The dimensionality is not zero. -/
def Positive (d : Desc) : Prop := d.dimensionality ≠ some 0

/-- The descriptor has a name, or no dimensionality. -/
def Named (d : Desc) : Prop := d.name.isSome ∨ d.dimensionality = none

/-- A variable without its name. -/
def nameless (v : EVar) : EVar := { v with name := "" }

/-! ## Functions of the expanded variables -/

section Expanded

variable {ex ex' : List EVar}

theorem names_cons {v : EVar} {vs ex' : List EVar}
    (h : (v :: vs).map nameless = ex'.map nameless) :
    ∃ v' vs', ex' = v' :: vs' ∧ nameless v = nameless v' ∧ v.kind = v'.kind ∧
      vs.map nameless = vs'.map nameless := by
  cases ex' with
  | nil => simp at h
  | cons v' vs' =>
    simp only [List.map_cons, List.cons.injEq] at h
    refine ⟨v', vs', rfl, h.1, ?_, h.2⟩
    have := h.1
    simp only [nameless, EVar.mk.injEq] at this
    exact this.2.1

theorem names_nil (h : ([] : List EVar).map nameless = ex'.map nameless) : ex' = [] := by
  cases ex' with
  | nil => rfl
  | cons => simp at h

theorem names_kinds (h : ex.map nameless = ex'.map nameless) :
    ex.map EVar.kind = ex'.map EVar.kind := by
  have := congrArg (List.map EVar.kind) h
  simpa [List.map_map, Function.comp_def, nameless] using this

theorem names_objectiveToModel (x : Vec) : ∀ (ex ex' : List EVar) (k : Nat),
    ex.map nameless = ex'.map nameless →
    objectiveToModelFrom x k ex = objectiveToModelFrom x k ex' := by
  intro ex
  induction ex with
  | nil => intro ex' k h; rw [names_nil h]
  | cons v vs ih =>
    intro ex' k h
    obtain ⟨v', vs', rfl, -, hk, ht⟩ := names_cons h
    simp only [objectiveToModelFrom, hk, ih vs' (k + 1) ht]

theorem names_modelToObjective (x : Vec) : ∀ (ex ex' : List EVar) (k : Nat),
    ex.map nameless = ex'.map nameless →
    modelToObjectiveFrom x k ex = modelToObjectiveFrom x k ex' := by
  intro ex
  induction ex with
  | nil => intro ex' k h; rw [names_nil h]
  | cons v vs ih =>
    intro ex' k h
    obtain ⟨v', vs', rfl, -, hk, ht⟩ := names_cons h
    simp only [modelToObjectiveFrom, hk, ih vs' _ ht]

theorem names_roundPieces (x : Vec) : ∀ (ex ex' : List EVar) (k : Nat),
    ex.map nameless = ex'.map nameless →
    roundPieces x k ex = roundPieces x k ex' := by
  intro ex
  induction ex with
  | nil => intro ex' k h; rw [names_nil h]
  | cons v vs ih =>
    intro ex' k h
    obtain ⟨v', vs', rfl, -, hk, ht⟩ := names_cons h
    simp only [roundPieces, hk, ih vs' _ ht]

theorem names_fillRow (d : Draw) (r : Nat) : ∀ (ex ex' : List EVar) (k : Nat) (row : Vec),
    ex.map nameless = ex'.map nameless →
    fillRow d r k ex row = fillRow d r k ex' row := by
  intro ex
  induction ex with
  | nil => intro ex' k row h; rw [names_nil h]
  | cons v vs ih =>
    intro ex' k row h
    obtain ⟨v', vs', rfl, -, hk, ht⟩ := names_cons h
    have ih' : ∀ row, fillRow d r (k + 1) vs row = fillRow d r (k + 1) vs' row :=
      fun row => ih vs' (k + 1) row ht
    simp only [fillRow, hk, ih']

theorem names_bounds : ∀ (ex ex' : List EVar), ex.map nameless = ex'.map nameless →
    mapE (fun v : EVar => v.kind.getBounds) ex = mapE (fun v : EVar => v.kind.getBounds) ex' := by
  intro ex
  induction ex with
  | nil => intro ex' h; rw [names_nil h]
  | cons v vs ih =>
    intro ex' h
    obtain ⟨v', vs', rfl, -, hk, ht⟩ := names_cons h
    simp only [mapE, hk, ih vs' ht]

theorem names_subspace (dims : List Nat) : ∀ (ex ex' : List EVar) (k : Nat),
    ex.map nameless = ex'.map nameless →
    (getSubspaceFrom dims k ex).map nameless = (getSubspaceFrom dims k ex').map nameless := by
  intro ex
  induction ex with
  | nil => intro ex' k h; rw [names_nil h]
  | cons v vs ih =>
    intro ex' k h
    obtain ⟨v', vs', rfl, hv, hk, ht⟩ := names_cons h
    have := ih vs' (k + v'.kind.dimInModel) ht
    simp only [getSubspaceFrom, hk]
    by_cases hm : k ∈ dims
    · simp [hm, hv, this]
    · simp [hm, this]

theorem names_npGet {ex ex' : List EVar} (h : ex.map nameless = ex'.map nameless) (i : Nat) :
    (npGet ex i).map EVar.kind = (npGet ex' i).map EVar.kind := by
  have hk := congrArg (fun l : List Kind => l[i]?) (names_kinds h)
  simp only [List.getElem?_map] at hk
  simp only [npGet]
  cases h1 : ex[i]? <;> cases h2 : ex'[i]? <;> simp_all

theorem names_dimsWhere (p : Kind → Bool) {ex ex' : List EVar}
    (h : ex.map nameless = ex'.map nameless) : ∀ is : List Nat,
    Space.dimsWhere p ex is = Space.dimsWhere p ex' is := by
  intro is
  induction is with
  | nil => rfl
  | cons i is ih =>
    have hi := names_npGet h i
    simp only [Space.dimsWhere, ih]
    cases h1 : npGet ex i <;> cases h2 : npGet ex' i <;> simp_all

end Expanded

/-! ## Spaces that are alike -/

/-- Two spaces that cannot be told apart except by names. -/
structure Alike (sp sp' : Space) : Prop where
  ex : sp.expanded.map nameless = sp'.expanded.map nameless
  dim : sp.dimensionality = sp'.dimensionality
  bandit : sp.hasBandit = sp'.hasBandit
  cont : sp.hasContinuous = sp'.hasContinuous
  bounds : sp.getContinuousBounds = sp'.getContinuousBounds
  arms : sp.getBandit = sp'.getBandit
  grid : sp.getDiscreteGrid = sp'.getDiscreteGrid
  constr : sp.constraints = sp'.constraints
  len : sp.configExpanded.length = sp'.configExpanded.length
  cfg : sp.hasBandit = false → sp.configExpanded.map meaning = sp'.configExpanded.map meaning
  pos : ∀ d ∈ sp.configExpanded, Positive d ∧ Named d
  pos' : ∀ d ∈ sp'.configExpanded, Positive d ∧ Named d

namespace Alike

variable {sp sp' : Space}

theorem objectiveToModel (h : Alike sp sp') : sp.objectiveToModel = sp'.objectiveToModel := by
  funext x
  have hl : sp.objectiveDim = sp'.objectiveDim := by
    simpa [Space.objectiveDim] using congrArg List.length h.ex
  simp only [Space.objectiveToModel, h.bandit, hl, names_objectiveToModel x _ _ 0 h.ex]

theorem modelToObjective (h : Alike sp sp') : sp.modelToObjective = sp'.modelToObjective :=
  funext fun x => names_modelToObjective x _ _ 0 h.ex

theorem unzip (h : Alike sp sp') : sp.unzipInputs = sp'.unzipInputs := by
  funext X
  simp only [Space.unzipInputs, h.bandit, h.objectiveToModel]

theorem zip (h : Alike sp sp') : sp.zipInputs = sp'.zipInputs := by
  funext X
  simp only [Space.zipInputs, h.bandit, h.modelToObjective]

theorem getBounds (h : Alike sp sp') : sp.getBounds = sp'.getBounds := by
  simp only [Space.getBounds, names_bounds _ _ h.ex]

theorem indicator (h : Alike sp sp') : sp.indicatorConstraints = sp'.indicatorConstraints := by
  funext X
  simp only [Space.indicatorConstraints, h.constr]

theorem round (h : Alike sp sp') : sp.roundOptimum = sp'.roundOptimum := by
  funext x
  simp only [Space.roundOptimum, names_roundPieces x _ _ 0 h.ex]

theorem round2d (h : Alike sp sp') : sp.roundOptimum2d = sp'.roundOptimum2d := by
  funext x
  simp only [Space.roundOptimum2d, h.round]

theorem contDims (h : Alike sp sp') : sp.getContinuousDims = sp'.getContinuousDims := by
  simp only [Space.getContinuousDims, h.dim, names_dimsWhere _ h.ex]

theorem discDims (h : Alike sp sp') : sp.getDiscreteDims = sp'.getDiscreteDims := by
  simp only [Space.getDiscreteDims, h.dim, names_dimsWhere _ h.ex]

theorem modelDim (h : Alike sp sp') : sp.modelDim = sp'.modelDim := by
  have := congrArg (fun l : List Kind => (l.map Kind.dimInModel).sum) (names_kinds h.ex)
  simpa [Space.modelDim, List.map_map, Function.comp_def] using this

theorem objectiveDim (h : Alike sp sp') : sp.objectiveDim = sp'.objectiveDim := by
  simpa [Space.objectiveDim] using congrArg List.length h.ex

theorem hasConstraints (h : Alike sp sp') : sp.hasConstraints = sp'.hasConstraints := by
  simp only [Space.hasConstraints, h.constr]

theorem designRow (h : Alike sp sp') (d : Draw) (design : Nat → Vec) :
    designRow sp d design = designRow sp' d design := by
  funext r
  simp only [GPyOpt.designRow, emptyRow, putContinuous, h.dim, h.cont, h.contDims,
    names_fillRow d r _ _ 0 _ h.ex]

theorem randomNoConstr (h : Alike sp sp') (d : Draw) (n : Nat) :
    randomNoConstr sp d n = randomNoConstr sp' d n := by
  simp only [GPyOpt.randomNoConstr, h.designRow, h.bounds]

theorem constrLoop (h : Alike sp sp') (n : Nat) (ds : Nat → Draw) : ∀ (fuel round : Nat) (m : Mat),
    constrLoop sp n ds fuel round m = constrLoop sp' n ds fuel round m := by
  intro fuel
  induction fuel with
  | zero => intro round m; rw [GPyOpt.constrLoop, GPyOpt.constrLoop]
  | succ fuel ih =>
    intro round m
    rw [GPyOpt.constrLoop, GPyOpt.constrLoop]
    simp only [h.randomNoConstr, h.indicator, ih]

theorem initialDesign (h : Alike sp sp') (name : String) (o : DesignOracle) (n : Nat) :
    initialDesign name sp o n = initialDesign name sp' o n := by
  simp only [GPyOpt.initialDesign, randomDesign, sobolDesign, gridDesign, latinDesign,
    h.hasConstraints, h.constrLoop, h.randomNoConstr, h.designRow, h.bounds, h.contDims]

theorem isDup (h : Alike sp sp') (dm : Option DupMgr) : isDup dm sp = isDup dm sp' := by
  funext x
  simp only [GPyOpt.isDup, DupMgr.isUnzippedDup, h.zip]

theorem addContext (h : Alike sp sp') (c : Option Ctx) : addContext c sp = addContext c sp' := by
  funext x
  simp only [GPyOpt.addContext, Ctx.expandVector, h.modelDim]

theorem fNoContext (h : Alike sp sp') (c : Option Ctx) (f : Vec → Py ℚ) :
    fNoContext c sp f = fNoContext c sp' f := by
  funext x
  simp only [GPyOpt.fNoContext, Ctx.expandVector, h.modelDim]

theorem applyOptimizer (h : Alike sp sp') (c : Option Ctx) (dup : Option DupMgr)
    (opt : (Vec → Py ℚ) → Vec → Py Vec) (f : Vec → Py ℚ) (x0 : Vec) :
    applyOptimizer sp c dup opt f x0 = applyOptimizer sp' c dup opt f x0 := by
  simp only [GPyOpt.applyOptimizer, h.isDup, h.fNoContext, h.addContext, h.round2d]

theorem zipTuple (h : Alike sp sp') : zipTuple sp = zipTuple sp' := by
  funext x
  simp only [GPyOpt.zipTuple, h.zip]

end Alike

/-! ## Building a space -/

/-- One-dimensional pieces of a variable. -/
def pieces (v : Var) : List (Kind × Nat) :=
  if v.kind.isBandit then [(v.kind, v.dimensionality)] else List.replicate v.dimensionality (v.kind, 1)

/-- The piece an entry of the meaning stands for. -/
def pieceOf (u : String × Option Dom × Option Nat) : Py (Kind × Nat) :=
  match u.2.1 with
  | none => .error .invalidConfig
  | some dom => (createVariable "" u.1 dom u.2.2).map fun v => (v.kind, v.dimensionality)

theorem mapE_replicate_error {α β : Type} {f : α → Py β} {a : α} {e : Err} (h : f a = .error e)
    (n : Nat) : mapE f (List.replicate (n + 1) a) = .error e := by
  simp [List.replicate_succ, mapE, h]

theorem mapE_replicate_ok {α β : Type} {f : α → Py β} {a : α} {b : β} (h : f a = .ok b)
    (n : Nat) : mapE f (List.replicate n a) = .ok (List.replicate n b) := by
  induction n with
  | zero => rfl
  | succ n ih => simp [List.replicate_succ, mapE, h, ih]

theorem mapE_append_error {α β : Type} {f : α → Py β} {a b : List α} {e : Err}
    (h : mapE f a = .error e) : mapE f (a ++ b) = .error e := by
  induction a generalizing e with
  | nil => simp at h
  | cons x a ih =>
    simp only [mapE, List.cons_append] at h ⊢
    cases hx : f x with
    | error e' => rw [hx] at h; exact h
    | ok y =>
      rw [hx] at h
      cases ha : mapE f a with
      | error e' => rw [ha] at h; simp only [ih ha]; exact h
      | ok ys => rw [ha] at h; simp at h

theorem mapE_append_ok {α β : Type} {f : α → Py β} {a b : List α} {ys : List β}
    (h : mapE f a = .ok ys) : mapE f (a ++ b) = (mapE f b).map (ys ++ ·) := by
  induction a generalizing ys with
  | nil =>
    have : ys = [] := by simpa using h.symm
    subst this
    cases hb : mapE f b <;> simp [hb]
  | cons x a ih =>
    simp only [mapE, List.cons_append] at h ⊢
    cases hx : f x with
    | error e' => rw [hx] at h; simp at h
    | ok y =>
      rw [hx] at h
      cases ha : mapE f a with
      | error e' => rw [ha] at h; simp at h
      | ok ys' =>
        rw [ha] at h
        simp only [Except.ok.injEq] at h
        subst h
        simp only [ih ha]
        cases hb : mapE f b <;> simp

/-- The name has no influence on the variable that is created. -/
theorem createVariable_name (name type : String) (dom : Dom) (dim : Option Nat) :
    createVariable name type dom dim
      = (createVariable "" type dom dim).map fun v => { v with name := name } := by
  unfold createVariable
  repeat' split
  all_goals simp

/-- Only bandit variables have arms. -/
theorem createVariable_bandit {name type : String} {dom : Dom} {dim : Option Nat} {v : Var}
    (h : createVariable name type dom dim = .ok v) : v.kind.isBandit = decide (type = "bandit") := by
  unfold createVariable at h
  repeat' split at h
  all_goals first
    | cases h; done
    | (simp only [Except.ok.injEq] at h; subst h; simp_all [Kind.isBandit])

/-- Apart from bandit variables the class does not depend on the dimensionality. -/
theorem createVariable_dim {name type : String} {dom : Dom} (dim : Option Nat)
    (ht : type ≠ "bandit") : createVariable name type dom dim
      = (createVariable name type dom none).map fun v => { v with dimensionality := dim.getD 1 } := by
  unfold createVariable
  repeat' split
  all_goals simp_all

theorem createVariable_dim_ok {name type : String} {dom : Dom} {v : Var}
    (ht : type ≠ "bandit") (h : createVariable name type dom none = .ok v) : v.dimensionality = 1 := by
  unfold createVariable at h
  repeat' split at h
  all_goals first
    | cases h; done
    | contradiction
    | (simp only [Except.ok.injEq] at h; subst h; rfl)

/-- One descriptor. -/
theorem meaning_error {d : Desc} (hp : Positive d) {name : String} {e : Err}
    (h : (match d.domain with
      | none => .error .invalidConfig
      | some dom => createVariable name (d.type.getD "continuous") dom d.dimensionality : Py Var)
      = .error e) : mapE pieceOf (meaning d) = .error e := by
  by_cases hb : d.type.getD "continuous" = "bandit"
  · simp only [meaning, hb, if_true, mapE, pieceOf]
    cases hd : d.domain with
    | none => rw [hd] at h; simp_all
    | some dom =>
      rw [hd] at h
      simp only [hb] at h
      rw [createVariable_name] at h
      cases hc : createVariable "" "bandit" dom d.dimensionality with
      | error e' => rw [hc] at h; simp only [hc]; simpa using h
      | ok v => rw [hc] at h; simp at h
  · have hn : ∃ n, d.dimensionality.getD 1 = n + 1 := by
      cases hd : d.dimensionality with
      | none => exact ⟨0, rfl⟩
      | some n =>
        cases n with
        | zero => exact absurd hd hp
        | succ n => exact ⟨n, rfl⟩
    obtain ⟨n, hn⟩ := hn
    simp only [meaning, hb, if_false, hn]
    apply mapE_replicate_error
    simp only [pieceOf]
    cases hd : d.domain with
    | none => rw [hd] at h; simpa using h
    | some dom =>
      rw [hd] at h
      simp only at h ⊢
      rw [createVariable_name, createVariable_dim _ hb] at h
      cases hc : createVariable "" (d.type.getD "continuous") dom none with
      | error e' => rw [hc] at h; simpa using h
      | ok v => rw [hc] at h; simp at h

theorem meaning_ok {d : Desc} {name : String} {v : Var}
    (h : (match d.domain with
      | none => .error .invalidConfig
      | some dom => createVariable name (d.type.getD "continuous") dom d.dimensionality : Py Var)
      = .ok v) : mapE pieceOf (meaning d) = .ok (pieces v) ∧
        v.kind.isBandit = decide (d.type.getD "continuous" = "bandit") := by
  cases hd : d.domain with
  | none => rw [hd] at h; simp at h
  | some dom =>
    rw [hd] at h
    simp only at h
    have hk := createVariable_bandit h
    refine ⟨?_, hk⟩
    by_cases hb : d.type.getD "continuous" = "bandit"
    · simp only [hb, decide_true] at hk
      simp only [meaning, hb, if_true, mapE, pieceOf, pieces, hk, hd]
      rw [createVariable_name, hb] at h
      cases hc : createVariable "" "bandit" dom d.dimensionality with
      | error e' => rw [hc] at h; simp at h
      | ok w => rw [hc] at h; simp at h; subst h; simp
    · simp only [hb, decide_false] at hk
      simp only [meaning, hb, if_false, pieces, hk, hd]
      rw [createVariable_name, createVariable_dim _ hb] at h
      cases hc : createVariable "" (d.type.getD "continuous") dom none with
      | error e' => rw [hc] at h; simp at h
      | ok w =>
        rw [hc] at h
        simp only [Except_map_ok, Except.ok.injEq] at h
        subst h
        simp only [Bool.false_eq_true, if_false]
        apply mapE_replicate_ok
        simp [pieceOf, hc, createVariable_dim_ok hb hc]

theorem translateFrom_cons (i : Nat) (d : Desc) (ds : List Desc) :
    translateFrom i (d :: ds) = match (match d.domain with
      | none => .error .invalidConfig
      | some dom => createVariable (d.name.getD ("var_" ++ toString i)) (d.type.getD "continuous") dom
          d.dimensionality : Py Var) with
      | .error e => .error e
      | .ok v => (translateFrom (i + 1) ds).map (v :: ·) := by
  simp only [translateFrom]
  cases d.domain with
  | none => rfl
  | some dom =>
    simp only
    cases createVariable (d.name.getD ("var_" ++ toString i)) (d.type.getD "continuous") dom
      d.dimensionality with
    | error e => rfl
    | ok v => simp only; cases translateFrom (i + 1) ds <;> rfl

/-- What the translation of a description gives depends on its meaning only. -/
theorem translate_meaning : ∀ (ds : List Desc) (i : Nat), (∀ d ∈ ds, Positive d) →
    mapE pieceOf (ds.flatMap meaning) = (translateFrom i ds).map (fun vs => vs.flatMap pieces) := by
  intro ds
  induction ds with
  | nil => intro i _; rfl
  | cons d ds ih =>
    intro i hp
    have ih' := ih (i + 1) fun d hd => hp d (List.mem_cons_of_mem _ hd)
    rw [translateFrom_cons, List.flatMap_cons]
    generalize hX : (match d.domain with
      | none => .error .invalidConfig
      | some dom => createVariable (d.name.getD ("var_" ++ toString i)) (d.type.getD "continuous") dom
          d.dimensionality : Py Var) = X
    cases X with
    | error e =>
      rw [mapE_append_error (meaning_error (hp d (List.mem_cons_self ..)) hX)]
      rfl
    | ok v =>
      rw [mapE_append_ok (meaning_ok hX).1, ih']
      simp only
      cases translateFrom (i + 1) ds <;> simp

theorem translate_bandit : ∀ (ds : List Desc) (i : Nat) (vs : List Var), translateFrom i ds = .ok vs →
    vs.map (fun v => v.kind.isBandit) = ds.map (fun d => decide (d.type.getD "continuous" = "bandit")) := by
  intro ds
  induction ds with
  | nil => intro i vs h; simp only [translateFrom, Except.ok.injEq] at h; subst h; rfl
  | cons d ds ih =>
    intro i vs h
    rw [translateFrom_cons] at h
    generalize hX : (match d.domain with
      | none => .error .invalidConfig
      | some dom => createVariable (d.name.getD ("var_" ++ toString i)) (d.type.getD "continuous") dom
          d.dimensionality : Py Var) = X at h
    cases X with
    | error e => simp at h
    | ok v =>
      simp only at h
      cases ht : translateFrom (i + 1) ds with
      | error e => rw [ht] at h; simp at h
      | ok vs' =>
        rw [ht] at h
        simp only [Except_map_ok, Except.ok.injEq] at h
        subst h
        simp only [List.map_cons, ih (i + 1) vs' ht, (meaning_ok hX).2]

theorem translate_positive : ∀ (ds : List Desc) (i : Nat) (vs : List Var), (∀ d ∈ ds, Positive d) →
    translateFrom i ds = .ok vs → ∀ v ∈ vs, v.kind.isBandit = false → v.dimensionality ≠ 0 := by
  intro ds
  induction ds with
  | nil => intro i vs _ h; simp only [translateFrom, Except.ok.injEq] at h; subst h; simp
  | cons d ds ih =>
    intro i vs hp h
    rw [translateFrom_cons] at h
    generalize hX : (match d.domain with
      | none => .error .invalidConfig
      | some dom => createVariable (d.name.getD ("var_" ++ toString i)) (d.type.getD "continuous") dom
          d.dimensionality : Py Var) = X at h
    cases X with
    | error e => simp at h
    | ok v =>
      simp only at h
      cases ht : translateFrom (i + 1) ds with
      | error e => rw [ht] at h; simp at h
      | ok vs' =>
        rw [ht] at h
        simp only [Except_map_ok, Except.ok.injEq] at h
        subst h
        intro w hw
        rcases List.mem_cons.1 hw with rfl | hw
        · intro hb
          have hk := (meaning_ok hX).2
          rw [hb] at hk
          have hnb : d.type.getD "continuous" ≠ "bandit" := by simpa using hk.symm
          cases hd : d.domain with
          | none => rw [hd] at hX; simp at hX
          | some dom =>
            rw [hd] at hX
            simp only at hX
            rw [createVariable_dim _ hnb] at hX
            cases hc : createVariable (d.name.getD ("var_" ++ toString i))
              (d.type.getD "continuous") dom none with
            | error e' => rw [hc] at hX; simp at hX
            | ok w' =>
              rw [hc] at hX
              simp only [Except_map_ok, Except.ok.injEq] at hX
              subst hX
              simp only
              have := hp d (List.mem_cons_self ..)
              cases hdd : d.dimensionality with
              | none => simp
              | some n =>
                simp only [Option.getD_some]
                rintro rfl
                exact this hdd
        · exact ih (i + 1) vs' (fun d hd => hp d (List.mem_cons_of_mem _ hd)) ht w hw

/-! What the attributes of a space that are computed from its variables depend on. -/

/-- An expanded variable without its name and indices. -/
def bare (k : Kind) : EVar := ⟨"", k, 0, []⟩

theorem computeIndices_nameless : ∀ (ex : List EVar) (o m : Nat),
    (computeIndices o m ex).map nameless = computeIndices o m ((ex.map EVar.kind).map bare) := by
  intro ex
  induction ex with
  | nil => intro o m; rfl
  | cons v vs ih =>
    intro o m
    simp only [computeIndices, List.map_cons, ih]
    rfl

theorem expand_kinds (v : Var) : v.expand.map EVar.kind = (pieces v).map Prod.fst := by
  unfold Var.expand pieces
  cases hk : v.kind <;> simp [Kind.isBandit, Function.comp_def]

theorem pieces_sum (v : Var) : ((pieces v).map Prod.snd).sum = v.dimensionality := by
  unfold pieces
  cases hk : v.kind <;> simp [Kind.isBandit]

theorem pieces_bandit (v : Var) : (pieces v).any (fun p => p.1.isBandit) = v.kind.isBandit := by
  unfold pieces
  cases hk : v.kind <;> simp [Kind.isBandit]

theorem pieces_cont (v : Var) (h : v.kind.isBandit = false → v.dimensionality ≠ 0) :
    (pieces v).any (fun p => p.1.isContinuous) = v.kind.isContinuous := by
  unfold pieces
  cases hk : v.kind <;> simp_all [Kind.isBandit, Kind.isContinuous]

theorem flatMap_replicate_one {α β : Type} (n : Nat) (f : α → β) (a : α) :
    (List.replicate n a).flatMap (fun x => [f x]) = List.replicate n (f a) := by
  induction n with
  | zero => rfl
  | succ n ih => simp [List.replicate_succ, ih]

/-- The bounds of a piece, as `get_continuous_bounds` collects them. -/
def pieceBounds (p : Kind × Nat) : List (ℚ × ℚ) :=
  match p.1 with
  | .continuous lo hi => List.replicate p.2 (lo, hi)
  | _ => []

def pieceArms (p : Kind × Nat) : Mat :=
  match p.1 with
  | .bandit arms => arms
  | _ => []

def pieceVals (p : Kind × Nat) : List (List ℚ) :=
  match p.1 with
  | .discrete vals => List.replicate p.2 vals
  | _ => []

theorem flatMap_replicate_nil {α β : Type} (n : Nat) (f : α → List β) (a : α) (h : f a = []) :
    (List.replicate n a).flatMap f = [] := by
  induction n with
  | zero => rfl
  | succ n ih => simp [List.replicate_succ, h, ih]

theorem flatMap_replicate_single {α β : Type} (n : Nat) (f : α → List β) (a : α) (b : β)
    (h : f a = [b]) : (List.replicate n a).flatMap f = List.replicate n b := by
  induction n with
  | zero => rfl
  | succ n ih => simp [List.replicate_succ, h, ih]

theorem flatMap_flatMap_eq {α β γ : Type} (l : List α) (f : α → List β) (g : β → List γ)
    (k : α → List γ) (h : ∀ a, (f a).flatMap g = k a) : (l.flatMap f).flatMap g = l.flatMap k := by
  rw [List.flatMap_assoc]
  exact congrArg (List.flatMap · l) (funext h)

theorem vars_bounds (sp : Space) : sp.getContinuousBounds = (sp.vars.flatMap pieces).flatMap pieceBounds := by
  unfold Space.getContinuousBounds
  refine (flatMap_flatMap_eq _ _ _ _ fun v => ?_).symm
  unfold pieces
  cases hk : v.kind with
  | continuous lo hi => exact flatMap_replicate_single _ _ _ _ (by simp [pieceBounds])
  | discrete vals => exact flatMap_replicate_nil _ _ _ (by simp [pieceBounds])
  | categorical vals => exact flatMap_replicate_nil _ _ _ (by simp [pieceBounds])
  | bandit arms => simp [Kind.isBandit, pieceBounds]

theorem vars_arms (sp : Space) : sp.getBandit = (sp.vars.flatMap pieces).flatMap pieceArms := by
  unfold Space.getBandit
  refine (flatMap_flatMap_eq _ _ _ _ fun v => ?_).symm
  unfold pieces
  cases hk : v.kind with
  | continuous lo hi => exact flatMap_replicate_nil _ _ _ (by simp [pieceArms])
  | discrete vals => exact flatMap_replicate_nil _ _ _ (by simp [pieceArms])
  | categorical vals => exact flatMap_replicate_nil _ _ _ (by simp [pieceArms])
  | bandit arms => simp [Kind.isBandit, pieceArms]

theorem vars_vals (sp : Space) : sp.getDiscreteGrid
    = cartesian ((sp.vars.flatMap pieces).flatMap pieceVals) := by
  unfold Space.getDiscreteGrid
  refine congrArg cartesian (flatMap_flatMap_eq _ _ _ _ fun v => ?_).symm
  unfold pieces
  cases hk : v.kind with
  | continuous lo hi => exact flatMap_replicate_nil _ _ _ (by simp [pieceVals])
  | discrete vals => exact flatMap_replicate_single _ _ _ _ (by simp [pieceVals])
  | categorical vals => exact flatMap_replicate_nil _ _ _ (by simp [pieceVals])
  | bandit arms => simp [Kind.isBandit, pieceVals]

theorem any_flatMap_eq {α β : Type} (l : List α) (f : α → List β) (p : β → Bool) (q : α → Bool)
    (h : ∀ a ∈ l, (f a).any p = q a) : (l.flatMap f).any p = l.any q := by
  induction l with
  | nil => rfl
  | cons a l ih =>
    simp only [List.flatMap_cons, List.any_append, List.any_cons, h a (List.mem_cons_self ..),
      ih fun b hb => h b (List.mem_cons_of_mem _ hb)]

/-- Entries of `config_space_expanded` an entry of the meaning gives. -/
def unitLen (u : String × Option Dom × Option Nat) : Nat :=
  if u.1 = "bandit" then u.2.2.getD 1 else 1

theorem expandDesc_len {d : Desc} {l : List Desc} (h : expandDesc d = .ok l) :
    l.length = ((meaning d).map unitLen).sum := by
  unfold expandDesc at h
  unfold meaning
  cases hd : d.dimensionality with
  | none =>
    rw [hd] at h
    simp only [Except.ok.injEq] at h
    subst h
    by_cases hb : d.type.getD "continuous" = "bandit" <;> simp [hb, unitLen]
  | some n =>
    rw [hd] at h
    cases n with
    | zero =>
      simp only [Except.ok.injEq] at h
      subst h
      by_cases hb : d.type.getD "continuous" = "bandit" <;> simp [hb, unitLen]
    | succ n =>
      cases hn : d.name with
      | none => rw [hn] at h; simp at h
      | some s =>
        rw [hn] at h
        simp only [Except.ok.injEq] at h
        subst h
        by_cases hb : d.type.getD "continuous" = "bandit" <;> simp [hb, unitLen]

theorem expandDesc_meaning {d : Desc} {l : List Desc} (h : expandDesc d = .ok l) :
    (∀ e ∈ l, Positive e ∧ Named e) ∧
    (d.type.getD "continuous" ≠ "bandit" → l.map meaning = (meaning d).map fun u => [u]) := by
  unfold expandDesc at h
  unfold meaning
  cases hd : d.dimensionality with
  | none =>
    rw [hd] at h
    simp only [Except.ok.injEq] at h
    subst h
    refine ⟨by simp [Positive, Named, hd], fun hb => ?_⟩
    simp [hb, hd]
  | some n =>
    rw [hd] at h
    cases n with
    | zero =>
      simp only [Except.ok.injEq] at h
      subst h
      exact ⟨by simp, fun hb => by simp [hb]⟩
    | succ n =>
      cases hn : d.name with
      | none => rw [hn] at h; simp at h
      | some s =>
        rw [hn] at h
        simp only [Except.ok.injEq] at h
        subst h
        refine ⟨?_, fun hb => ?_⟩
        · intro e he
          obtain ⟨k, -, rfl⟩ := List.mem_map.1 he
          simp [Positive, Named]
        · simp only [hb, if_false, List.map_map, Option.getD_some, List.map_replicate]
          apply List.eq_replicate_iff.2
          refine ⟨by simp, ?_⟩
          intro b hb'
          obtain ⟨k, -, rfl⟩ := List.mem_map.1 hb'
          simp [hb]

theorem expandConfig_spec {ds l : List Desc} (h : expandConfig ds = .ok l) :
    l.length = ((ds.flatMap meaning).map unitLen).sum ∧
    (∀ e ∈ l, Positive e ∧ Named e) ∧
    ((∀ d ∈ ds, d.type.getD "continuous" ≠ "bandit") →
      l.map meaning = (ds.flatMap meaning).map fun u => [u]) := by
  unfold expandConfig at h
  obtain ⟨ls, hls, rfl⟩ := Except_map_eq_ok.1 h
  clear h
  induction ds generalizing ls with
  | nil =>
    simp only [mapE_nil, Except.ok.injEq] at hls
    subst hls
    simp
  | cons d ds ih =>
    obtain ⟨l, ls', hl, hls', rfl⟩ := mapE_cons_ok.1 hls
    obtain ⟨h1, h2, h3⟩ := ih ls' hls'
    obtain ⟨g2, g3⟩ := expandDesc_meaning hl
    refine ⟨?_, ?_, ?_⟩
    · simp only [List.flatten_cons, List.length_append, List.flatMap_cons, List.map_append,
        List.sum_append, h1, expandDesc_len hl]
    · intro e he
      rw [List.flatten_cons, List.mem_append] at he
      rcases he with he | he
      · exact g2 e he
      · exact h2 e he
    · intro hb
      simp only [List.flatten_cons, List.flatMap_cons, List.map_append,
        g3 (hb d (List.mem_cons_self ..)), h3 fun d hd => hb d (List.mem_cons_of_mem _ hd)]

theorem expandConfig_named {ds : List Desc} (h : ∀ d ∈ ds, Named d) : ∃ l, expandConfig ds = .ok l := by
  have : ∀ d ∈ ds, ∃ l, expandDesc d = .ok l := by
    intro d hd
    rcases h d hd with hn | hn
    · unfold expandDesc
      obtain ⟨s, hs⟩ := Option.isSome_iff_exists.1 hn
      cases hdd : d.dimensionality with
      | none => exact ⟨_, rfl⟩
      | some n => cases n <;> simp [hs]
    · unfold expandDesc
      rw [hn]
      exact ⟨_, rfl⟩
  obtain ⟨ls, hls⟩ := mapE_total this
  exact ⟨ls.flatten, by simp [expandConfig, hls]⟩

/-- **C147, descriptions**: two descriptions with the same meaning, in which every variable that
is given a dimensionality has a name, are both refused, with the same exception, or both accepted, and
then the spaces cannot be told apart. -/
theorem designSpace_meaning {ds ds' : List Desc} {cs : Option (List ConstrDict)}
    (hp : ∀ d ∈ ds, Positive d) (hp' : ∀ d ∈ ds', Positive d)
    (hm : ds.flatMap meaning = ds'.flatMap meaning) {sp sp' : Space}
    (h : designSpace ds cs = .ok sp) (h' : designSpace ds' cs = .ok sp') : Alike sp sp' := by
  unfold designSpace translateSpace at h h'
  cases ht : translateFrom 0 ds with
  | error e => rw [ht] at h; simp at h
  | ok vs =>
  cases ht' : translateFrom 0 ds' with
  | error e => rw [ht'] at h'; simp at h'
  | ok vs' =>
  rw [ht] at h; rw [ht'] at h'
  simp only at h h'
  by_cases hc : (vs.any (fun v => v.kind.isBandit) && vs.any (fun v => !v.kind.isBandit)) = true
  · rw [if_pos hc] at h; simp at h
  by_cases hc' : (vs'.any (fun v => v.kind.isBandit) && vs'.any (fun v => !v.kind.isBandit)) = true
  · rw [if_pos hc'] at h'; simp at h'
  rw [if_neg hc] at h
  rw [if_neg hc'] at h'
  simp only at h h'
  cases hx : expandConfig ds with
  | error e => rw [hx] at h; simp at h
  | ok l =>
  cases hx' : expandConfig ds' with
  | error e => rw [hx'] at h'; simp at h'
  | ok l' =>
  rw [hx] at h; rw [hx'] at h'
  simp only [Except.ok.injEq] at h h'
  have hpc : vs.flatMap pieces = vs'.flatMap pieces := by
    have e1 := translate_meaning ds 0 hp
    have e2 := translate_meaning ds' 0 hp'
    rw [ht] at e1; rw [ht', ← hm, e1] at e2
    simpa using e2
  obtain ⟨x1, x2, x3⟩ := expandConfig_spec hx
  obtain ⟨y1, y2, y3⟩ := expandConfig_spec hx'
  have hbd : vs.any (fun v => v.kind.isBandit) = vs'.any (fun v => v.kind.isBandit) := by
    rw [← any_flatMap_eq vs pieces (fun p => p.1.isBandit) _ fun v _ => pieces_bandit v,
      ← any_flatMap_eq vs' pieces (fun p => p.1.isBandit) _ fun v _ => pieces_bandit v, hpc]
  have nobandit : ∀ {ds : List Desc} {vs : List Var}, translateFrom 0 ds = .ok vs →
      vs.any (fun v => v.kind.isBandit) = false → ∀ d ∈ ds, d.type.getD "continuous" ≠ "bandit" := by
    intro ds vs ht hv d hd hdb
    have hm := translate_bandit ds 0 vs ht
    have : true ∈ ds.map (fun d => decide (d.type.getD "continuous" = "bandit")) :=
      List.mem_map.2 ⟨d, hd, by simp [hdb]⟩
    rw [← hm] at this
    obtain ⟨v, hv1, hv2⟩ := List.mem_map.1 this
    have := List.any_eq_false.1 hv v hv1
    exact this hv2
  subst h
  subst h'
  constructor
  · have hk : ∀ vs : List Var, (vs.flatMap Var.expand).map EVar.kind = (vs.flatMap pieces).map Prod.fst := by
      intro vs
      rw [List.map_flatMap, List.map_flatMap]
      exact congrArg (List.flatMap · vs) (funext expand_kinds)
    simp only [computeIndices_nameless, hk, hpc]
  · simp only [Space.dimensionality]
    have := congrArg (fun l => (List.map Prod.snd l).sum) hpc
    simpa [List.map_flatMap, pieces_sum, List.flatMap_def, List.sum_flatten,
      Function.comp_def] using this
  · exact hbd
  · simp only [Space.hasContinuous]
    rw [← any_flatMap_eq vs pieces (fun p => p.1.isContinuous) _
        fun v hv => pieces_cont v (translate_positive ds 0 vs hp ht v hv),
      ← any_flatMap_eq vs' pieces (fun p => p.1.isContinuous) _
        fun v hv => pieces_cont v (translate_positive ds' 0 vs' hp' ht' v hv), hpc]
  · simp only [vars_bounds, hpc]
  · simp only [vars_arms, hpc]
  · simp only [vars_vals, hpc]
  · rfl
  · simp only [x1, y1, hm]
  · intro hb
    simp only [Space.hasBandit] at hb
    rw [x3 (nobandit ht hb), y3 (nobandit ht' (hbd ▸ hb)), hm]
  · exact x2
  · exact y2

theorem designSpace_refused {ds ds' : List Desc} {cs : Option (List ConstrDict)}
    (hp : ∀ d ∈ ds, Positive d) (hp' : ∀ d ∈ ds', Positive d)
    (hn : ∀ d ∈ ds, Named d) (hn' : ∀ d ∈ ds', Named d)
    (hm : ds.flatMap meaning = ds'.flatMap meaning) {e : Err}
    (h : designSpace ds cs = .error e) : designSpace ds' cs = .error e := by
  obtain ⟨l, hl⟩ := expandConfig_named hn
  obtain ⟨l', hl'⟩ := expandConfig_named hn'
  have e1 := translate_meaning ds 0 hp
  have e2 := translate_meaning ds' 0 hp'
  rw [← hm, e1] at e2
  unfold designSpace translateSpace at h ⊢
  rw [hl] at h
  rw [hl']
  cases ht : translateFrom 0 ds with
  | error e' =>
    cases ht' : translateFrom 0 ds' with
    | error e'' =>
      rw [ht] at h
      rw [ht, ht'] at e2
      simp only [Except.error.injEq] at h
      simp only [Except_map_error, Except.error.injEq] at e2
      simp [← e2, h]
    | ok vs' => rw [ht, ht'] at e2; simp at e2
  | ok vs =>
    cases ht' : translateFrom 0 ds' with
    | error e'' => rw [ht, ht'] at e2; simp at e2
    | ok vs' =>
      rw [ht, ht'] at e2
      simp only [Except_map_ok, Except.ok.injEq] at e2
      have hbd : vs.any (fun v => v.kind.isBandit) = vs'.any (fun v => v.kind.isBandit) := by
        rw [← any_flatMap_eq vs pieces (fun p => p.1.isBandit) _ fun v _ => pieces_bandit v,
          ← any_flatMap_eq vs' pieces (fun p => p.1.isBandit) _ fun v _ => pieces_bandit v, e2]
      have pn : ∀ v : Var, (v.kind.isBandit = false → v.dimensionality ≠ 0) →
          (pieces v).any (fun p => !p.1.isBandit) = !v.kind.isBandit := by
        intro v hv
        unfold pieces
        cases hk : v.kind <;> simp_all [Kind.isBandit]
      have hnb : vs.any (fun v => !v.kind.isBandit) = vs'.any (fun v => !v.kind.isBandit) := by
        rw [← any_flatMap_eq vs pieces (fun p => !p.1.isBandit) _
            fun v hv => pn v (translate_positive ds 0 vs hp ht v hv),
          ← any_flatMap_eq vs' pieces (fun p => !p.1.isBandit) _
            fun v hv => pn v (translate_positive ds' 0 vs' hp' ht' v hv), e2]
      rw [ht] at h
      simp only [hbd, hnb] at h ⊢
      by_cases hc : (vs'.any (fun v => v.kind.isBandit) && vs'.any (fun v => !v.kind.isBandit)) = true
      · rw [if_pos hc] at h ⊢
        exact h
      · rw [if_neg hc] at h
        simp at h

/-! ## Contexts, anchor points and suggestions -/

/-- Two names that denote the same variable of two spaces: found at the same place, with the same
domain, or both unknown. -/
def SameVariable (sp sp' : Space) (n n' : String) : Prop :=
  (sp.findVariable n).map nameless = (sp'.findVariable n').map nameless

/-- Two contexts that fix the same variables at the same values. -/
inductive SameContext (sp sp' : Space) : Option Context → Option Context → Prop
  | none : SameContext sp sp' none none
  | some {c c' : Context} (h : List.Forall₂ (fun p p' => SameVariable sp sp' p.1 p'.1 ∧ p.2 = p'.2) c c') :
      SameContext sp sp' (some c) (some c')

namespace Alike

variable {sp sp' : Space}

theorem contextLoop {c c' : Context}
    (hc : List.Forall₂ (fun p p' => SameVariable sp sp' p.1 p'.1 ∧ p.2 = p'.2) c c') :
    contextLoop sp c = contextLoop sp' c' := by
  induction hc with
  | nil => rfl
  | @cons p p' c c' h _ ih =>
    obtain ⟨n, x⟩ := p
    obtain ⟨n', x'⟩ := p'
    obtain ⟨h1, rfl⟩ := h
    simp only [SameVariable] at h1
    simp only [GPyOpt.contextLoop, ih]
    cases e1 : sp.findVariable n with
    | error e =>
      rw [e1] at h1
      cases e2 : sp'.findVariable n' with
      | error e' => rw [e2] at h1; simpa using h1
      | ok v' => rw [e2] at h1; simp at h1
    | ok v =>
      rw [e1] at h1
      cases e2 : sp'.findVariable n' with
      | error e' => rw [e2] at h1; simp at h1
      | ok v' =>
        rw [e2] at h1
        simp only [Except_map_ok, Except.ok.injEq, nameless, EVar.mk.injEq, true_and] at h1
        simp only [h1.1, h1.2.1, h1.2.2]

theorem contextManager (h : Alike sp sp') {c c' : Option Context} (hc : SameContext sp sp' c c') :
    contextManager sp c = contextManager sp' c' := by
  cases hc with
  | none => simp only [GPyOpt.contextManager, h.modelDim, h.len, h.getBounds]
  | some hc => simp only [GPyOpt.contextManager, h.modelDim, h.len, h.getBounds, contextLoop hc]

theorem mapE_npGet_meaning {l l' : List Desc} (h : l.map meaning = l'.map meaning) : ∀ is : List Nat,
    (mapE (npGet l) is).map (List.map meaning) = (mapE (npGet l') is).map (List.map meaning) := by
  intro is
  induction is with
  | nil => rfl
  | cons i is ih =>
    have hi := congrArg (fun l : List (List (String × Option Dom × Option Nat)) => l[i]?) h
    simp only [List.getElem?_map] at hi
    simp only [mapE, npGet]
    cases e1 : l[i]? <;> cases e2 : l'[i]? <;>
      cases e3 : mapE (npGet l) is <;> cases e4 : mapE (npGet l') is <;> simp_all

theorem flatMap_of_map {l l' : List Desc} (h : l.map meaning = l'.map meaning) :
    l.flatMap meaning = l'.flatMap meaning := by
  rw [List.flatMap_def, List.flatMap_def, h]

theorem anchorSpace (h : Alike sp sp') (c : Option Ctx) :
    (∃ e, anchorSpace sp c = .error e ∧ anchorSpace sp' c = .error e) ∨
    ∃ s s' c', anchorSpace sp c = .ok (s, c') ∧ anchorSpace sp' c = .ok (s', c') ∧ Alike s s' := by
  cases c with
  | none => exact .inr ⟨sp, sp', none, rfl, rfl, h⟩
  | some c =>
    by_cases hb : sp.hasBandit = true
    · have hb' : sp'.hasBandit = true := h.bandit ▸ hb
      exact .inr ⟨sp, sp', none, by simp [GPyOpt.anchorSpace, hb], by simp [GPyOpt.anchorSpace, hb'], h⟩
    · have hb : sp.hasBandit = false := by simpa using hb
      have hb' : sp'.hasBandit = false := h.bandit ▸ hb
      have hm := mapE_npGet_meaning (h.cfg hb) c.nocontextIndexObj
      simp only [GPyOpt.anchorSpace, hb, hb', Bool.false_eq_true, if_false, h.constr]
      cases e1 : mapE (npGet sp.configExpanded) c.nocontextIndexObj with
      | error e =>
        cases e2 : mapE (npGet sp'.configExpanded) c.nocontextIndexObj with
        | error e' => rw [e1, e2] at hm; exact .inl ⟨e, rfl, by simpa using hm.symm⟩
        | ok ds' => rw [e1, e2] at hm; simp at hm
      | ok ds =>
        cases e2 : mapE (npGet sp'.configExpanded) c.nocontextIndexObj with
        | error e' => rw [e1, e2] at hm; simp at hm
        | ok ds' =>
          rw [e1, e2] at hm
          simp only [Except_map_ok, Except.ok.injEq] at hm
          have hm := flatMap_of_map hm
          have mem : ∀ {l ds : List Desc} {is : List Nat}, mapE (npGet l) is = .ok ds → ∀ d ∈ ds, d ∈ l := by
            intro l ds is he d hd
            obtain ⟨i, -, hi⟩ := mapE_ok_mem he hd
            exact List.mem_of_getElem? (npGet_ok.1 hi)
          have p1 : ∀ d ∈ ds, Positive d ∧ Named d := fun d hd => h.pos d (mem e1 d hd)
          have p2 : ∀ d ∈ ds', Positive d ∧ Named d := fun d hd => h.pos' d (mem e2 d hd)
          simp only
          cases e3 : designSpace ds sp'.constraints with
          | error e =>
            have := designSpace_refused (fun d hd => (p1 d hd).1) (fun d hd => (p2 d hd).1)
              (fun d hd => (p1 d hd).2) (fun d hd => (p2 d hd).2) hm e3
            exact .inl ⟨e, rfl, by simp only [this]⟩
          | ok s =>
            cases e4 : designSpace ds' sp'.constraints with
            | error e =>
              have := designSpace_refused (fun d hd => (p2 d hd).1) (fun d hd => (p1 d hd).1)
                (fun d hd => (p2 d hd).2) (fun d hd => (p1 d hd).2) hm.symm e4
              rw [this] at e3
              simp at e3
            | ok s' =>
              exact .inr ⟨s, s', some c, rfl, rfl, designSpace_meaning (fun d hd => (p1 d hd).1)
                (fun d hd => (p2 d hd).1) hm e3 e4⟩

theorem anchorSamples (h : Alike sp sp') (c : Option Ctx) (u : Bool) (t : String) (n : Nat)
    (o : DesignOracle) : anchorSamples sp c u t n o = anchorSamples sp' c u t n o := by
  rcases h.anchorSpace c with ⟨e, h1, h2⟩ | ⟨s, s', c', h1, h2, ha⟩
  · simp only [GPyOpt.anchorSamples, h1, h2]
  · simp only [GPyOpt.anchorSamples, h1, h2, ha.initialDesign, ha.unzip, h.addContext]

theorem anchorPoints (h : Alike sp sp') (c : Option Ctx) (dup : Option DupMgr) (u : Bool) (t : String)
    (n k : Nat) (o : DesignOracle) (score : Mat → Py (List ℚ)) (argsort : List ℚ → List Nat) :
    anchorPoints sp c dup u t n k o score argsort = anchorPoints sp' c dup u t n k o score argsort := by
  simp only [GPyOpt.anchorPoints, h.anchorSamples, h.isDup]

theorem acqOptimize (h : Alike sp sp') (c : Ctx) (dup : Option DupMgr) (op : AcqOptions) (o : AcqOracle)
    (f : Vec → Py ℚ) : acqOptimize sp c dup op o f = acqOptimize sp' c dup op o f := by
  simp only [GPyOpt.acqOptimize, acqAnchors, optimizedPoints, h.anchorPoints, h.applyOptimizer]

theorem batchLoop (h : Alike sp sp') (opt : Nat → Vec → Py Vec) (n : Nat) : ∀ (as : Mat) (k : Nat)
    (batch : Mat) (seen : List Vec),
    batchLoop sp opt n k as batch seen = batchLoop sp' opt n k as batch seen := by
  intro as
  induction as with
  | nil => intro k batch seen; rfl
  | cons a as ih => intro k batch seen; simp only [GPyOpt.batchLoop, h.zipTuple, ih]

theorem dedupBatch (h : Alike sp sp') (dm : DupMgr) (as : Py Mat) (x0 : Py (Option Vec))
    (opt : Nat → Vec → Py Vec) (n : Nat) :
    dedupBatch sp dm as x0 opt n = dedupBatch sp' dm as x0 opt n := by
  simp only [GPyOpt.dedupBatch, h.zipTuple, h.batchLoop]

theorem thompsonOptimize (h : Alike sp sp') (c : Ctx) (dup : Option DupMgr) (o : AcqOracle)
    (f : Vec → Py ℚ) : thompsonOptimize sp c dup o f = thompsonOptimize sp' c dup o f := by
  funext k a
  simp only [GPyOpt.thompsonOptimize, h.applyOptimizer, h.round2d]

theorem computeBatch (h : Alike sp sp') (ev : Evaluator) (env : EvalEnv) (c : Ctx)
    (dup : Option DupMgr) : computeBatch ev env sp c dup = computeBatch ev env sp' c dup := by
  cases ev with
  | sequential => simp only [GPyOpt.computeBatch, sequentialBatch, h.acqOptimize]
  | random n =>
    simp only [GPyOpt.computeBatch, randomBatch, randomBatchAnchors, h.acqOptimize, h.anchorPoints,
      h.dedupBatch]
  | thompson n =>
    simp only [GPyOpt.computeBatch, thompsonBatch, thompsonBatchAnchors, h.anchorPoints, h.dedupBatch,
      h.thompsonOptimize]
  | localPenalization n => simp only [GPyOpt.computeBatch, h.acqOptimize]

theorem computeNext (h : Alike sp sp') (ev : Evaluator) (env : EvalEnv) {c c' : Option Context}
    (hc : SameContext sp sp' c c') (deDup : Bool) (X : Mat) (pending ignored : Option Mat) :
    computeNext ev env sp c deDup X pending ignored
      = computeNext ev env sp' c' deDup X pending ignored := by
  simp only [GPyOpt.computeNext, h.contextManager hc, h.computeBatch, h.zip]

end Alike

/-! ## Runs -/

/-- The same object with another context. -/
def withContext (c : Option Context) (s : BOState) : BOState := { s with context := c }

/-- The model fits, the parameters and the acquisition do not read the context of the object: it is
only given to the context manager (`bo.py:231`). -/
structure ContextBlind (env : BOEnv) (envs : BOState → EvalEnv) : Prop where
  fit : ∀ c s, env.fit (withContext c s) = env.fit s
  params : ∀ c s, env.params (withContext c s) = env.params s
  costFit : ∀ c s, env.costFit (withContext c s) = env.costFit s
  envs : ∀ c s, envs (withContext c s) = envs s

section Runs

variable {sp sp' : Space} {c c' : Option Context} {env : BOEnv} {ev : Evaluator}
  {envs : BOState → EvalEnv} {deDup : Bool}

/-- The same optimizer on another space. -/
def onSpace (env : BOEnv) (sp : Space) (ev : Evaluator) (envs : BOState → EvalEnv) (deDup : Bool) : BOEnv :=
  { env with sp := sp, suggest := stdSuggest sp ev envs deDup }

theorem saveParams_label (hb : ContextBlind env envs) (s : BOState) :
    ∃ t r, saveParams (onSpace env sp ev envs deDup) (withContext c s) = (withContext c t, r) ∧
      saveParams (onSpace env sp' ev envs deDup) (withContext c' s) = (withContext c' t, r) := by
  have h1 := hb.params c s
  have h2 := hb.params c' s
  simp only [saveParams, onSpace, h1, h2]
  cases env.params s with
  | error e => exact ⟨s, _, rfl, rfl⟩
  | ok p =>
    cases hp : s.params with
    | none => exact ⟨{ s with params := some [p] }, .ok (), by simp [withContext, hp], by simp [withContext, hp]⟩
    | some ps =>
      exact ⟨{ s with params := some (ps ++ [p]) }, .ok (), by simp [withContext, hp], by simp [withContext, hp]⟩

theorem updateModel_label (ha : Alike sp sp') (hb : ContextBlind env envs) (s : BOState) :
    ∃ t r, updateModel (onSpace env sp ev envs deDup) (withContext c s) = (withContext c t, r) ∧
      updateModel (onSpace env sp' ev envs deDup) (withContext c' s) = (withContext c' t, r) := by
  have h1 := hb.fit c s
  have h2 := hb.fit c' s
  have i0 : (onSpace env sp ev envs deDup).interval = env.interval := rfl
  have i0' : (onSpace env sp' ev envs deDup).interval = env.interval := rfl
  simp only [updateModel, i0, i0']
  by_cases hi : env.interval = 0
  · exact ⟨s, _, by rw [if_pos hi], by rw [if_pos hi]⟩
  rw [if_neg hi, if_neg hi]
  have n0 : (withContext c s).numAcq = s.numAcq := rfl
  have n0' : (withContext c' s).numAcq = s.numAcq := rfl
  rw [n0, n0']
  by_cases hn : (s.numAcq : Int) % env.interval = 0
  · rw [if_pos hn, if_pos hn]
    have u1 : (onSpace env sp ev envs deDup).sp.unzipInputs (withContext c s).X = sp.unzipInputs s.X := rfl
    have u2 : (onSpace env sp' ev envs deDup).sp.unzipInputs (withContext c' s).X = sp.unzipInputs s.X := by
      rw [ha.unzip]; rfl
    rw [u1, u2]
    cases sp.unzipInputs s.X with
    | error e => exact ⟨s, _, rfl, rfl⟩
    | ok Xm =>
      have y1 : (withContext c s).Y = s.Y := rfl
      have y2 : (withContext c' s).Y = s.Y := rfl
      simp only [y1, y2]
      cases s.Y with
      | none => exact ⟨s, _, rfl, rfl⟩
      | some Y =>
        have f1 : (onSpace env sp ev envs deDup).fit (withContext c s) = env.fit s := h1
        have f2 : (onSpace env sp' ev envs deDup).fit (withContext c' s) = env.fit s := h2
        have m1 : (onSpace env sp ev envs deDup).modelY Y = env.modelY Y := rfl
        have m2 : (onSpace env sp' ev envs deDup).modelY Y = env.modelY Y := rfl
        simp only [f1, f2, m1, m2]
        cases env.fit s Xm (env.modelY Y) with
        | error e =>
          exact ⟨{ s with Y := some Y, fits := s.fits ++ [{ acq := s.numAcq, X := Xm, Y := env.modelY Y }] }, _, rfl, rfl⟩
        | ok _ =>
          exact saveParams_label hb { s with Y := some Y, fits := s.fits ++ [{ acq := s.numAcq, X := Xm, Y := env.modelY Y }] }
  · rw [if_neg hn, if_neg hn]
    exact saveParams_label hb s

theorem evaluateObjective_label (hb : ContextBlind env envs) (obj : Nat → Vec → Py ℚ) (s : BOState) (m : Mat) :
    ∃ t r, evaluateObjective (onSpace env sp ev envs deDup) obj (withContext c s) m = (withContext c t, r) ∧
      evaluateObjective (onSpace env sp' ev envs deDup) obj (withContext c' s) m = (withContext c' t, r) := by
  have c1 : (onSpace env sp ev envs deDup).costFit (withContext c s) = env.costFit s := hb.costFit c s
  have c2 : (onSpace env sp' ev envs deDup).costFit (withContext c' s) = env.costFit s := hb.costFit c' s
  simp only [evaluateObjective, c1, c2]
  simp only [onSpace, withContext]
  cases evalFunc obj env.clock m s.world with
  | mk w r =>
    cases r with
    | error e => exact ⟨{ s with world := w }, _, rfl, rfl⟩
    | ok q =>
      obtain ⟨ys, ts⟩ := q
      simp only
      cases s.cost.update env.lg (env.costFit s) m (.list ts) with
      | mk k r =>
        cases r with
        | error e => exact ⟨{ s with world := w, cost := k }, _, rfl, rfl⟩
        | ok _ =>
          simp only
          cases s.Y with
          | none => exact ⟨{ s with world := w, cost := k, Y := none }, _, rfl, rfl⟩
          | some Y => exact ⟨{ s with world := w, cost := k, Y := some (Y ++ ys) }, _, rfl, rfl⟩

/-- The state and outcome of a round with another context. -/
def roundWith (c : Option Context) : Round → Round
  | .next s => .next (withContext c s)
  | .stop s why => .stop (withContext c s) why
  | .raised s e => .raised (withContext c s) e

theorem boRound_label (ha : Alike sp sp') (hc : SameContext sp sp' c c') (hb : ContextBlind env envs)
    (obj : Nat → Vec → Py ℚ) (maxIter maxTime : Limit) (eps : ℚ) (s : BOState) :
    ∃ r, boRound (onSpace env sp ev envs deDup) obj maxIter maxTime eps (withContext c s) = roundWith c r ∧
      boRound (onSpace env sp' ev envs deDup) obj maxIter maxTime eps (withContext c' s) = roundWith c' r := by
  have t1 : (withContext c s).cumTime = s.cumTime := rfl
  have t2 : (withContext c' s).cumTime = s.cumTime := rfl
  simp only [boRound, t1, t2]
  by_cases ht : maxTime.exceeds s.cumTime = true
  · rw [if_pos ht, if_pos ht]
    obtain ⟨t, r, e1, e2⟩ := updateModel_label (ev := ev) (deDup := deDup) (c := c) (c' := c') ha hb s
    rw [e1, e2]
    cases r with
    | error e =>
      cases e
      case linAlg => exact ⟨.stop t .fit, rfl, rfl⟩
      all_goals exact ⟨.raised t _, rfl, rfl⟩
    | ok _ =>
      have n1 : (withContext c t).numAcq = t.numAcq := rfl
      have n2 : (withContext c' t).numAcq = t.numAcq := rfl
      have x1 : (withContext c t).X = t.X := rfl
      have x2 : (withContext c' t).X = t.X := rfl
      simp only [n1, n2, x1, x2]
      by_cases hl : ¬ maxIter.exceeds (t.numAcq : ℚ) = true ∨ lastTwoClose eps t.X = true
      · rw [if_pos hl, if_pos hl]
        exact ⟨.stop t .limit, rfl, rfl⟩
      · rw [if_neg hl, if_neg hl]
        have s1 : (onSpace env sp ev envs deDup).suggest (withContext c t) none none
            = computeNext ev (envs t) sp c deDup t.X none none := by
          simp only [onSpace, stdSuggest, hb.envs]; rfl
        have s2 : (onSpace env sp' ev envs deDup).suggest (withContext c' t) none none
            = computeNext ev (envs t) sp c deDup t.X none none := by
          rw [ha.computeNext ev (envs t) hc]
          simp only [onSpace, stdSuggest, hb.envs]; rfl
        rw [s1, s2]
        cases computeNext ev (envs t) sp c deDup t.X none none with
        | error e => exact ⟨.raised t e, rfl, rfl⟩
        | ok m =>
          obtain ⟨u, r, e3, e4⟩ := evaluateObjective_label (sp := sp) (sp' := sp') (ev := ev) (deDup := deDup)
            (c := c) (c' := c') hb obj { t with X := t.X ++ m } m
          simp only [withContext] at e3 e4 ⊢
          rw [e3, e4]
          cases r with
          | error e => exact ⟨.raised u e, rfl, rfl⟩
          | ok _ => exact ⟨.next { u with
              cumTime := env.clock u.world.ticks - u.timeZero
              world := { u.world with ticks := u.world.ticks + 1 }
              numAcq := u.numAcq + 1 }, rfl, rfl⟩
  · rw [if_neg ht, if_neg ht]
    exact ⟨.stop s .time, rfl, rfl⟩

theorem boLoop_label (ha : Alike sp sp') (hc : SameContext sp sp' c c') (hb : ContextBlind env envs)
    (obj : Nat → Vec → Py ℚ) (maxIter maxTime : Limit) (eps : ℚ) : ∀ (fuel : Nat) (s : BOState),
    ∃ t r, boLoop (onSpace env sp ev envs deDup) obj maxIter maxTime eps fuel (withContext c s) = (withContext c t, r) ∧
      boLoop (onSpace env sp' ev envs deDup) obj maxIter maxTime eps fuel (withContext c' s) = (withContext c' t, r) := by
  intro fuel
  induction fuel with
  | zero => intro s; exact ⟨s, _, rfl, rfl⟩
  | succ fuel ih =>
    intro s
    obtain ⟨r, e1, e2⟩ := boRound_label (ev := ev) (deDup := deDup) ha hc hb obj maxIter maxTime eps s
    simp only [boLoop, e1, e2]
    cases r with
    | next t => exact ih t
    | stop t why => exact ⟨t, _, rfl, rfl⟩
    | raised t e => exact ⟨t, _, rfl, rfl⟩

theorem runOptimization_label (ha : Alike sp sp') (a : RunArgs) (hc : SameContext sp sp' a.context c')
    (hb : ContextBlind env envs) (fuel : Nat) (s : BOState) :
    ∃ t r, runOptimization (onSpace env sp ev envs deDup) a fuel (withContext a.context s)
        = (withContext a.context t, r) ∧
      runOptimization (onSpace env sp' ev envs deDup) { a with context := c' } fuel (withContext c' s)
        = (withContext c' t, r) := by
  simp only [runOptimization]
  have o1 : (onSpace env sp ev envs deDup).obj = env.obj := rfl
  have o2 : (onSpace env sp' ev envs deDup).obj = env.obj := rfl
  rw [o1, o2]
  cases env.obj with
  | none => exact ⟨s, _, rfl, rfl⟩
  | some obj =>
    have start : ∃ t r, runStart (onSpace env sp ev envs deDup) obj a (withContext a.context s)
          = (withContext a.context t, r) ∧
        runStart (onSpace env sp' ev envs deDup) obj { a with context := c' } (withContext c' s)
          = (withContext c' t, r) := by
      have k1 : ∀ w Y, (onSpace env sp ev envs deDup).costFit ({ withContext a.context s with
          params := none, context := a.context, world := w, Y := Y } : BOState)
          = env.costFit { s with params := none, world := w, Y := Y } :=
        fun w Y => hb.costFit a.context { s with params := none, world := w, Y := Y }
      have k2 : ∀ w Y, (onSpace env sp' ev envs deDup).costFit ({ withContext c' s with
          params := none, context := c', world := w, Y := Y } : BOState)
          = env.costFit { s with params := none, world := w, Y := Y } :=
        fun w Y => hb.costFit c' { s with params := none, world := w, Y := Y }
      simp only [runStart, withContext] at k1 k2 ⊢
      cases hY : s.Y with
      | some Y =>
        exact ⟨{ s with
              params := none, timeZero := env.clock s.world.ticks, Y := some Y
              world := { s.world with ticks := s.world.ticks + 1 }
              cumTime := 0, numAcq := 0 }, _, rfl, rfl⟩
      | none =>
        simp only [k1, k2]
        have cl1 : (onSpace env sp ev envs deDup).clock = env.clock := rfl
        have cl2 : (onSpace env sp' ev envs deDup).clock = env.clock := rfl
        rw [cl1, cl2]
        cases evalFunc obj env.clock s.X s.world with
        | mk w r =>
          cases r with
          | error e => exact ⟨{ s with params := none, world := w, Y := none }, _, rfl, rfl⟩
          | ok q =>
            obtain ⟨ys, ts⟩ := q
            simp only
            by_cases hk : s.cost.kind = .evaluationTime
            · rw [if_pos hk, if_pos hk]
              have l1 : (onSpace env sp ev envs deDup).lg = env.lg := rfl
              have l2 : (onSpace env sp' ev envs deDup).lg = env.lg := rfl
              rw [l1, l2]
              cases s.cost.update env.lg (env.costFit { s with params := none, world := w, Y := some ys }) s.X (.list ts) with
              | mk k r =>
                cases r with
                | error e =>
                  exact ⟨{ s with params := none, world := w, Y := some ys, cost := k }, _, rfl, rfl⟩
                | ok _ =>
                  exact ⟨{ s with
              params := none, timeZero := env.clock w.ticks, Y := some ys, cost := k
              world := { w with ticks := w.ticks + 1 }
              cumTime := 0, numAcq := 0 }, _, rfl, rfl⟩
            · rw [if_neg hk, if_neg hk]
              exact ⟨{ s with
              params := none, timeZero := env.clock w.ticks, Y := some ys
              world := { w with ticks := w.ticks + 1 }
              cumTime := 0, numAcq := 0 }, _, rfl, rfl⟩
    obtain ⟨t, r, e1, e2⟩ := start
    simp only [e1, e2]
    cases r with
    | error e => exact ⟨t, _, rfl, rfl⟩
    | ok _ =>
      have lim : ({ a with context := c' } : RunArgs).limits = a.limits := rfl
      obtain ⟨u, r, e3, e4⟩ := boLoop_label (ev := ev) (deDup := deDup) ha hc hb obj a.limits.1 a.limits.2 a.eps fuel t
      simp only [lim, e3, e4]
      cases r with
      | done why =>
        have y1 : (withContext a.context u).Y = u.Y := rfl
        have y2 : (withContext c' u).Y = u.Y := rfl
        have x1 : (withContext a.context u).X = u.X := rfl
        have x2 : (withContext c' u).X = u.X := rfl
        simp only [y1, y2, x1, x2]
        cases u.Y with
        | none => exact ⟨u, _, rfl, rfl⟩
        | some Y =>
          simp only
          cases computeResults u.X Y with
          | error e => exact ⟨u, _, rfl, rfl⟩
          | ok r => exact ⟨{ u with Y := some Y, results := some r }, _, rfl, rfl⟩
      | raised e => exact ⟨u, _, rfl, rfl⟩
      | running => exact ⟨u, _, rfl, rfl⟩

end Runs

/-! ## C147 -/

/-- Two descriptions of the same one-dimensional variables, in the same order. -/
structure SameDomain (ds ds' : List Desc) : Prop where
  positive : ∀ d ∈ ds, Positive d
  positive' : ∀ d ∈ ds', Positive d
  meaning : ds.flatMap meaning = ds'.flatMap meaning

section

variable {ds ds' : List Desc} (hd : SameDomain ds ds') {cs : Option (List ConstrDict)} {sp sp' : Space}

include hd

/-- **C147 (acceptance).** Two descriptions of the same variables, in which every variable with a `dimensionality` has a
name, are both refused with the same exception or both accepted. -/
theorem C147_accepted (hn : ∀ d ∈ ds, Named d) (hn' : ∀ d ∈ ds', Named d) (cs : Option (List ConstrDict)) :
    (∃ e, designSpace ds cs = .error e ∧ designSpace ds' cs = .error e) ∨
    ∃ sp sp', designSpace ds cs = .ok sp ∧ designSpace ds' cs = .ok sp' := by
  cases h : designSpace ds cs with
  | error e => exact .inl ⟨e, rfl, designSpace_refused hd.positive hd.positive' hn hn' hd.meaning h⟩
  | ok sp =>
    cases h' : designSpace ds' cs with
    | error e =>
      have := designSpace_refused hd.positive' hd.positive hn' hn hd.meaning.symm h'
      rw [this] at h
      simp at h
    | ok sp' => exact .inr ⟨sp, sp', rfl, rfl⟩

variable (h : designSpace ds cs = .ok sp) (h' : designSpace ds' cs = .ok sp')

include h h'

/-- **C147 (the space).** The conversions, the rounding, the bounds, the grids, the dimensions and the constraints of a
space depend neither on names nor on how the variables are grouped. -/
theorem C147_space : sp.objectiveToModel = sp'.objectiveToModel ∧ sp.modelToObjective = sp'.modelToObjective ∧
    sp.unzipInputs = sp'.unzipInputs ∧ sp.zipInputs = sp'.zipInputs ∧ sp.roundOptimum = sp'.roundOptimum ∧
    sp.indicatorConstraints = sp'.indicatorConstraints ∧ sp.getBounds = sp'.getBounds ∧
    sp.getContinuousBounds = sp'.getContinuousBounds ∧ sp.getDiscreteGrid = sp'.getDiscreteGrid ∧
    sp.getBandit = sp'.getBandit ∧ sp.getContinuousDims = sp'.getContinuousDims ∧
    sp.getDiscreteDims = sp'.getDiscreteDims ∧ sp.dimensionality = sp'.dimensionality ∧
    sp.objectiveDim = sp'.objectiveDim ∧ sp.modelDim = sp'.modelDim ∧
    (∀ dims, (sp.getSubspace dims).map nameless = (sp'.getSubspace dims).map nameless) := by
  have ha := designSpace_meaning hd.positive hd.positive' hd.meaning h h'
  exact ⟨ha.objectiveToModel, ha.modelToObjective, ha.unzip, ha.zip, ha.round, ha.indicator, ha.getBounds, ha.bounds,
    ha.grid, ha.arms, ha.contDims, ha.discDims, ha.dim, ha.objectiveDim, ha.modelDim,
    fun dims => names_subspace dims _ _ 0 ha.ex⟩

/-- **C147 (designs).** So does every initial design. -/
theorem C147_designs (name : String) (o : DesignOracle) (n : Nat) :
    initialDesign name sp o n = initialDesign name sp' o n :=
  (designSpace_meaning hd.positive hd.positive' hd.meaning h h').initialDesign name o n

/-- **C147 (suggestions).** With contexts that fix the same variables, every evaluator suggests the same batch, or raises
the same exception. -/
theorem C147_suggestions (ev : Evaluator) (env : EvalEnv) {c c' : Option Context} (hc : SameContext sp sp' c c')
    (deDup : Bool) (X : Mat) (pending ignored : Option Mat) :
    computeNext ev env sp c deDup X pending ignored = computeNext ev env sp' c' deDup X pending ignored :=
  (designSpace_meaning hd.positive hd.positive' hd.meaning h h').computeNext ev env hc deDup X pending ignored

/-- **C147 (runs).** So a whole run makes the same evaluations, fits and stops, and reports the same results; only the
context, which is kept with its names, is different. -/
theorem C147_runs {env : BOEnv} {envs : BOState → EvalEnv} (hb : ContextBlind env envs) (ev : Evaluator) (deDup : Bool)
    (a : RunArgs) {c' : Option Context} (hc : SameContext sp sp' a.context c') (fuel : Nat) (s : BOState) :
    ∃ t r, runOptimization { env with sp := sp, suggest := stdSuggest sp ev envs deDup } a fuel
          (withContext a.context s) = (withContext a.context t, r) ∧
      runOptimization { env with sp := sp', suggest := stdSuggest sp' ev envs deDup } { a with context := c' } fuel
          (withContext c' s) = (withContext c' t, r) :=
  runOptimization_label (ev := ev) (deDup := deDup)
    (designSpace_meaning hd.positive hd.positive' hd.meaning h h') a hc hb fuel s

/-- **C147 (names by position).** If no two expanded variables of either space have the same name, the names at the same
position denote the same variable, so a context is translated position by position. -/
theorem C147_positions (hn : (sp.expanded.map EVar.name).Nodup) (hn' : (sp'.expanded.map EVar.name).Nodup)
    {i : Nat} {v v' : EVar} (hv : sp.expanded[i]? = some v) (hv' : sp'.expanded[i]? = some v') :
    SameVariable sp sp' v.name v'.name ∧ sp.findVariable v.name = .ok v := by
  have ha := designSpace_meaning hd.positive hd.positive' hd.meaning h h'
  have find : ∀ {l : List EVar} {v : EVar}, (l.map EVar.name).Nodup → v ∈ l →
      l.find? (fun w => w.name == v.name) = some v := by
    intro l v hnd hm
    cases hf : l.find? (fun w => w.name == v.name) with
    | none =>
      have := List.find?_eq_none.1 hf v hm
      simp at this
    | some w =>
      have h1 := List.find?_some hf
      have h2 := List.mem_of_find?_eq_some hf
      have := List.inj_on_of_nodup_map hnd h2 hm (by simpa using h1)
      rw [this]
  have rev : ∀ {l : List EVar}, (l.map EVar.name).Nodup → (l.reverse.map EVar.name).Nodup := by
    intro l hl
    rw [List.map_reverse]
    exact List.nodup_reverse.2 hl
  have f1 : sp.findVariable v.name = .ok v := by
    simp only [Space.findVariable, find (rev hn) (List.mem_reverse.2 (List.mem_of_getElem? hv))]
  have f2 : sp'.findVariable v'.name = .ok v' := by
    simp only [Space.findVariable, find (rev hn') (List.mem_reverse.2 (List.mem_of_getElem? hv'))]
  refine ⟨?_, f1⟩
  have := congrArg (fun l : List EVar => l[i]?) ha.ex
  simp only [List.getElem?_map, hv, hv', Option.map_some, Option.some.injEq] at this
  simp only [SameVariable, f1, f2, Except_map_ok, this]

end

/-- A continuous variable on the unit interval. -/
def unitVar (name : Option String) (dim : Option Nat) : Desc :=
  { name := name, type := some "continuous", domain := some (.flat [0, 1]), dimensionality := dim }

/-- **C147, negated (colliding names).** A variable `x` of dimensionality 2 followed by a variable `x_1` is the same
domain as three variables `a`, `b`, `c`; both are accepted. The names of the first variables are `x_1` and `a`, but a
context for `x_1` fixes the third variable, one for `a` the first. -/
theorem C147_collision_counterexample : ∃ sp sp',
    SameDomain [unitVar (some "x") (some 2), unitVar (some "x_1") none]
      [unitVar (some "a") none, unitVar (some "b") none, unitVar (some "c") none] ∧
    designSpace [unitVar (some "x") (some 2), unitVar (some "x_1") none] none = .ok sp ∧
    designSpace [unitVar (some "a") none, unitVar (some "b") none, unitVar (some "c") none] none = .ok sp' ∧
    (sp.expanded.map EVar.name).head? = some "x_1" ∧ (sp'.expanded.map EVar.name).head? = some "a" ∧
    (contextManager sp (some [("x_1", 1 / 2)])).map Ctx.contextIndexObj = .ok [2] ∧
    (contextManager sp' (some [("a", 1 / 2)])).map Ctx.contextIndexObj = .ok [0] := by
  refine ⟨_, _, ⟨?_, ?_, ?_⟩, rfl, rfl, ?_, ?_, ?_, ?_⟩
  · simp [Positive, unitVar]
  · simp [Positive, unitVar]
  · decide +kernel
  · decide +kernel
  · decide +kernel
  · decide +kernel
  · decide +kernel

/-- **C147, negated (omitted names).** Without a name the same variable is accepted without a dimensionality and refused,
with a `KeyError`, if its dimensionality 1 is spelled out. -/
theorem C147_unnamed_counterexample :
    SameDomain [unitVar none none] [unitVar none (some 1)] ∧
    (∃ sp, designSpace [unitVar none none] none = .ok sp) ∧
    designSpace [unitVar none (some 1)] none = .error .keyError := by
  refine ⟨⟨?_, ?_, by decide +kernel⟩, ⟨_, rfl⟩, rfl⟩
  · simp [Positive, unitVar]
  · simp [Positive, unitVar]

/-! A case that meets the hypotheses: `x` of dimensionality 2 and a categorical variable, against three variables, with a
context for the second coordinate. -/
section Example

def namesA : List Desc := [unitVar (some "x") (some 2),
  { name := some "k", type := some "categorical", domain := some (.flat [0, 1]), dimensionality := some 1 }]

def namesB : List Desc := [{ name := some "left", domain := some (.flat [0, 1]) }, unitVar (some "right") none,
  { type := some "categorical", domain := some (.flat [0, 1]) }]

example : SameDomain namesA namesB := by
  refine ⟨?_, ?_, by decide +kernel⟩
  · simp [Positive, unitVar, namesA]
  · simp [Positive, unitVar, namesB]

example : (∀ d ∈ namesA, Named d) ∧ (∀ d ∈ namesB, Named d) := by
  constructor <;> simp [Named, unitVar, namesA, namesB]

example : ∃ sp sp', designSpace namesA none = .ok sp ∧ designSpace namesB none = .ok sp' ∧
    SameContext sp sp' (some [("x_2", 1 / 2), ("k", 1)]) (some [("right", 1 / 2), ("var_2", 1)]) := by
  refine ⟨_, _, rfl, rfl, .some (.cons ⟨?_, rfl⟩ (.cons ⟨?_, rfl⟩ .nil))⟩
  · unfold SameVariable; decide +kernel
  · unfold SameVariable; decide +kernel

def namesOracle : AcqOracle :=
  { design := { draws := fun _ => ⟨fun _ _ => 0, fun _ _ => 0, fun _ _ => 0⟩, lhs := fun _ _ => 0,
                sobol := fun _ _ => 0, fuel := 1 }
    argsort := fun _ => [], thompson := fun _ => .ok [], opt := fun _ _ x => .ok x }

example : ContextBlind
    { sp := ⟨[], [], [], [], none⟩, obj := none, clock := fun _ => 0, fit := fun _ _ _ => .ok ()
      params := fun s => .ok [s.X.length], costFit := fun _ => .ok (), lg := id, suggest := fun _ _ _ => .ok []
      normalizeY := false, normalize := id, interval := 1 }
    (fun s => { f := fun x => .ok (x.sum + s.X.length), oracle := ⟨namesOracle, namesOracle⟩
                fLP := fun _ x => .ok x.sum, acqLP := fun _ => namesOracle, lpConsts := .ok (0, 0)
                lpState := ⟨none, none⟩ }) :=
  ⟨fun _ _ => rfl, fun _ _ => rfl, fun _ _ => rfl, fun _ _ => rfl⟩

end Example

end GPyOpt.Props
