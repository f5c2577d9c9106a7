import Verif.Spec.Design
import Verif.Model.Evaluators

/-! # Specification vocabulary for suggestions: contexts, known configurations, sorting -/

namespace GPyOpt.Spec

/-- An objective row carries the values of a context. -/
def HasContext (sp : Space) (context : Option Context) (z : Vec) : Prop :=
  ∀ nv ∈ context.getD [], ∀ v, sp.findVariable nv.1 = .ok v → z[v.idxObj]? = some nv.2

/-- A context that fixes distinct known variables to values of their domains. -/
def ValidContext (sp : Space) (context : Option Context) : Prop :=
  ((context.getD []).map Prod.fst).Nodup ∧
    ∀ nv ∈ context.getD [], ∃ v, sp.findVariable nv.1 = .ok v ∧ ValidObj v.kind nv.2

/-- What `np.argsort` guarantees: a permutation of the positions that orders the scores. -/
def IsArgsort (argsort : List ℚ → List Nat) : Prop :=
  ∀ s : List ℚ, (argsort s).Perm (List.range s.length) ∧
    ((argsort s).filterMap (fun i => s[i]?)).Pairwise (· ≤ ·)

/-- The random sources deliver numbers of the unit interval. -/
structure UnitOracle (o : DesignOracle) : Prop where
  draws : ∀ i, UnitDraw (o.draws i)
  lhs : ∀ r k, 0 ≤ o.lhs r k ∧ o.lhs r k ≤ 1
  sobol : ∀ r k, 0 ≤ o.sobol r k ∧ o.sobol r k ≤ 1

/-- The values of the variables that are not fixed by the context. -/
def freePart (c : Ctx) (z : Vec) : Vec := c.nocontextIndexObj.filterMap (fun i => z[i]?)

/-- `m` is the initial design of `n` rows of a space with the free variables and the constraints of `sp`. -/
def FreeDesign (sp : Space) (c : Ctx) (t : String) (o : DesignOracle) (n : Nat) (m : Mat) : Prop :=
  ∃ (ds : List Desc) (sp' : Space), designSpace ds sp.constraints = .ok sp' ∧
    kindsOf ds = c.nocontextIndexObj.filterMap (fun i => (sp.expanded.map EVar.kind)[i]?) ∧ initialDesign t sp' o n = .ok m

/-- The design of `n` rows of the free variables, with the constraints of the space, is found. Without constraints it always is;
with constraints the random design is one of rejection sampling. -/
def SamplesFound (sp : Space) (c : Ctx) (t : String) (n : Nat) (o : DesignOracle) : Prop :=
  ∃ (ds : List Desc) (sp' : Space) (m : Mat), mapE (npGet sp.configExpanded) c.nocontextIndexObj = .ok ds ∧
    designSpace ds sp.constraints = .ok sp' ∧ initialDesign t sp' o n = .ok m

/-- The samples of the acquisition optimizer are found. -/
def AcqSampled (sp : Space) (c : Ctx) (op : AcqOptions) (o : DesignOracle) : Prop :=
  op.anchorLogic = "max_objective" ∧ SamplesFound sp c "random" op.numSamplesObjective o

/-- A known configuration, for an optional duplicate manager. -/
def InDup (dup : Option DupMgr) (z : Vec) : Prop := ∃ dm, dup = some dm ∧ z ∈ dm.points

instance (dup : Option DupMgr) (z : Vec) : Decidable (InDup dup z) :=
  match dup with
  | none => isFalse (by simp [InDup])
  | some dm => if h : z ∈ dm.points then isTrue ⟨dm, rfl, h⟩ else isFalse (by
      rintro ⟨dm', h1, h2⟩; cases h1; exact h h2)

/-- A domain point in model representation that carries the context. -/
def GoodRow (ks : List Kind) (sp : Space) (context : Option Context) (x z : Vec) : Prop :=
  x = encodeRow ks z ∧ ObjDomain ks z ∧ HasContext sp context z

/-- A local optimizer returns a point with as many coordinates as its starting point. -/
def OptShape (opt : (Vec → Py ℚ) → Vec → Py Vec) : Prop :=
  ∀ g x y, opt g x = .ok y → y.length = x.length

/-- Scores: one per row. -/
def ScoreShape (score : Mat → Py (List ℚ)) : Prop := ∀ X s, score X = .ok s → s.length = X.length

/-- Assumptions on the external inputs of an acquisition optimization. -/
structure GoodAcq (o : AcqOracle) : Prop where
  unit : UnitOracle o.design
  argsort : IsArgsort o.argsort
  thompson : ScoreShape o.thompson
  opt : ∀ k, OptShape (o.opt k)

/-- Positive sample and anchor numbers. -/
structure GoodOptions (op : AcqOptions) : Prop where
  nObj : 0 < op.numSamplesObjective
  nThompson : 0 < op.numSamplesThompson
  nAnchor : 0 < op.numAnchor

end GPyOpt.Spec
