import Verif.Lemmas.Renumber
import Verif.Props.Smaller
import Verif.Props.VarOrder

/-!
# C175: the numbers of the categories do not matter

The categories of a categorical variable are numbered 0, 1, ….  With other numbers for the same categories,
encoding, rounding, designs, suggestions and runs are the same, up to the numbers.
-/

namespace GPyOpt.Props

open Spec

variable {πs : List (List Nat)} {sp sp' : Space}

/-- Encoding, decoding, rounding (where one column of a category is the greatest) and constraints. Decoding is
for the encoded rows. -/
theorem C175_encodings_partial (h : Renumbered πs sp sp') {X : Mat} (hX : X ≠ [])
    (hv : ∀ r ∈ X, List.Forall₂ Encodable sp.kinds r) :
    sp'.unzipInputs (X.map (renumberRow πs)) = (sp.unzipInputs X).map (List.map (recode sp.kinds πs)) ∧
      sp'.indicatorConstraints (X.map (renumberRow πs)) = sp.indicatorConstraints X ∧
      (∀ m, sp.unzipInputs X = .ok m →
        sp'.zipInputs (m.map (recode sp.kinds πs)) = (sp.zipInputs m).map (List.map (renumberRow πs))) ∧
      ∀ y : Vec, y.length = sp.modelDim → OneGreatest sp.kinds y →
        sp'.roundOptimum2d [recode sp.kinds πs y] = (sp.roundOptimum2d [y]).map (List.map (recode sp.kinds πs)) := by
  obtain ⟨c, c', hc, hc'⟩ := h.managers
  have hu := h.unzip ⟨hX, hv⟩
  refine ⟨by rw [h.unzipInputs]; exact hu.1, h.indicator fun r hr => (hv r hr).length_eq.symm, fun m hm => ?_,
    fun y hy hg => (h.corr hc hc').round y hy hg⟩
  rw [h.zipInputs]
  refine (h.zip ?_ (hu.2 m hm)).1
  rintro rfl
  simp only [Space.unzipInputs, h.noBandit, Bool.false_eq_true, if_false] at hm
  obtain ⟨m', -, h2⟩ := Except_map_eq_ok.1 hm
  cases m' <;> simp [atleast2d] at h2

/-- New numbers of different rows are different, and the numbers are again numbers of categories. -/
theorem C175_rows (h : Renumbered πs sp sp') :
    Function.Injective (renumberRow πs) ∧
      ∀ x : Vec, List.Forall₂ Encodable sp.kinds x → List.Forall₂ Encodable sp.kinds (renumberRow πs x) :=
  ⟨renumberRow_inj h.codes, fun _ hx => (encode_rows h.codes hx).1⟩

/-- All designs. -/
theorem C175_designs (h : Renumbered πs sp sp') {o o' : DesignOracle} (ho : SameCategories πs sp.kinds o o')
    (n : Nat) (name : String) :
    initialDesign name sp' o' n = (initialDesign name sp o n).map (List.map (renumberRow πs)) :=
  (h.designs ho n name).1

/-- For all random numbers of one problem there are corresponding ones of the other. -/
theorem C175_draws (h : Renumbered πs sp sp') (o : DesignOracle) : ∃ o', SameCategories πs sp.kinds o o' := by
  refine ⟨{ o with draws := fun t => { (o.draws t) with choice := fun i r => match sp.kinds[i]?, πs[i]? with
      | some (.categorical l), some π => l.idxOf (renumber π (choiceOf l ((o.draws t).choice i r)))
      | _, _ => (o.draws t).choice i r } }, rfl, rfl, rfl, fun _ => rfl, fun t r i k π hk hπ => ?_⟩
  have hi := (List.getElem?_eq_some_iff.1 hk).1
  have hi' := (List.getElem?_eq_some_iff.1 hπ).1
  have hc : CodedBy k π := by
    have := (List.forall₂_iff_get.1 h.codes).2 i hi hi'
    simp only [List.get_eq_getElem] at this
    rwa [(List.getElem?_eq_some_iff.1 hk).2, (List.getElem?_eq_some_iff.1 hπ).2] at this
  have hn : NonEmptyDom k := h.domains k (List.mem_of_getElem? hk)
  simp only [hk, hπ]
  cases k with
  | continuous lo hi => rfl
  | bandit a => rfl
  | discrete l =>
    have h0 : π = [] := hc
    subst h0
    simp only [drawn]
    cases l[(o.draws t).choice i r % l.length]? with
    | none => rfl
    | some v => simp [renumber_nil]
  | categorical l =>
    simp only [drawn]
    have hl : l ≠ [] := hn
    have hm := Nat.mod_lt ((o.draws t).choice i r) (List.length_pos_iff.2 hl)
    have hd : l[(o.draws t).choice i r % l.length]? = some (choiceOf l ((o.draws t).choice i r)) := by
      simp [choiceOf, List.getElem?_eq_getElem hm, List.getD_eq_getElem?_getD]
    rw [hd]
    obtain ⟨j, hj, he⟩ := List.mem_map.1 (hc.2.mem_iff.1 (List.mem_of_getElem? hd))
    obtain ⟨h1, h2⟩ := codedBy_lt hc.1 (List.mem_range.1 hj)
    have hin : renumber π (choiceOf l ((o.draws t).choice i r)) ∈ l := by
      rw [← he, renumber_nat h1]
      exact hc.2.mem_iff.2 (List.mem_map.2 ⟨_, List.mem_range.2 h2, rfl⟩)
    rw [Nat.mod_eq_of_lt (List.idxOf_lt_length_iff.2 hin), List.getElem?_idxOf hin]
    rfl

/-- The evaluators whose samples are not sorted: those without duplicate logic, and those that draw no batch. -/
def Unsorted (ev : Evaluator) (deDup : Bool) : Prop :=
  deDup = false ∨ ((∀ n, ev ≠ .random n) ∧ ∀ n, ev ≠ .thompson n)

theorem Unsorted.des {ev : Evaluator} {deDup : Bool} (hz : Unsorted ev deDup) (logic : String) :
    ∀ q ∈ designsDrawn ev logic deDup, q.1 = false := by
  intro q hq
  unfold designsDrawn at hq
  rcases hz with rfl | ⟨h1, h2⟩
  · cases ev <;> simp at hq <;> aesop
  · cases ev with
    | random n => exact absurd rfl (h1 n)
    | thompson n => exact absurd rfl (h2 n)
    | _ => simp at hq; aesop

/-- Suggestions: the acquisition has the same value at corresponding locations, and a local optimizer returns
rows in which one column of a category is the greatest. Left out are batches of sorted samples, and pending or
ignored points: there the code asks with `np.any` whether there is anything. -/
theorem C175_suggestions_partial (h : Renumbered πs sp sp') {env env' : EvalEnv}
    (he : CorrEnv sp.modelDim sp.modelDim (recode sp.kinds πs) (recode sp.kinds πs) (SameCategories πs sp.kinds) env env')
    (hok : ∀ c, contextManager sp none = .ok c → EnvOk sp c (OneGreatest sp.kinds) env)
    (ev : Evaluator) (deDup : Bool) (hz : Unsorted ev deDup) (X : Mat) :
    computeNext ev env' sp' none deDup (X.map (renumberRow πs)) none none
        = (computeNext ev env sp none deDup X none none).map (List.map (renumberRow πs)) ∧
      ∀ m, computeNext ev env sp none deDup X none none = .ok m → ∀ r ∈ m, List.Forall₂ Encodable sp.kinds r := by
  obtain ⟨c, c', hc, hc'⟩ := h.managers
  obtain ⟨config, cs, cs', hsp, -⟩ := h.built
  have hlen := (expand_self hsp h.noBandit hc).1
  have hco := h.corr hc hc'
  have hT : ∀ n A, ev = .thompson n → thompsonBatchAnchors sp c (if deDup = true then some (dupMgr X none none) else none)
      env.numSamplesThompson n env.oracle.batch = .ok A → ∀ a ∈ A, OneGreatest sp.kinds a := by
    rintro n A rfl hA a ha
    have hd : deDup = false := by
      rcases hz with hz | ⟨-, hz⟩
      · exact hz
      · exact absurd rfl (hz n)
    subst hd
    exact Renumbered.dom_greatest (hco.anchorPoints_dom rfl he.batch.design hA a ha)
  refine ⟨Corr.computeNext_ok hc hc' hco (by rw [hlen]; exact he) (hok c hc) ev deDup (fun _ => ?_)
    (hz.imp id fun hz => .inl hz.1) (fun q hq => hz.des _ q hq) hT, ?_⟩
  · intro z _
    simp only [dupMgr, optAny, Bool.false_eq_true, if_false]
    constructor
    · intro hm
      obtain ⟨r, hr, he⟩ := List.mem_map.1 hm
      rw [← renumberRow_inj h.codes he]
      exact hr
    · exact fun hm => List.mem_map_of_mem hm
  · intro m hm
    unfold computeNext at hm
    rw [hc] at hm
    simp only at hm
    cases hb : computeBatch ev env sp c (if deDup = true then some (dupMgr X none none) else none) with
    | error e => rw [hb] at hm; cases hm
    | ok b =>
      rw [hb] at hm
      exact (h.zip (computeBatch_ne_nil hb) (hco.computeBatch_dom (by rw [hlen]; exact he) (hok c hc)
        (fun q hq => hz.des env.op.anchorLogic q (by cases deDup <;> exact hq)) hT hb)).2 m hm

/-- Runs: the same evaluations, costs, fits, results and exceptions, up to the numbers. The stopping rule takes a
distance less than 1. -/
theorem C175_runs_partial (h : Renumbered πs sp sp') {pc : Vec → Vec} {env env' : BOEnv}
    (hp : CorrParts (recode sp.kinds πs) (renumberRow πs) id pc env env') (ev : Evaluator) (deDup : Bool)
    (hz : Unsorted ev deDup) (envs envs' : BOState → EvalEnv)
    (hc : ∀ s, CorrEnv sp.modelDim sp.modelDim (recode sp.kinds πs) (recode sp.kinds πs) (SameCategories πs sp.kinds)
      (envs s) (envs' (mapState (recode sp.kinds πs) (renumberRow πs) id pc s)))
    (hok : ∀ s c, contextManager sp none = .ok c → EnvOk sp c (OneGreatest sp.kinds) (envs s))
    {a : RunArgs} (ha : a.context = none) (heps : a.eps < 1) (fuel : Nat) {s : BOState} (hX : s.X ≠ [])
    (hv : ∀ r ∈ s.X, List.Forall₂ Encodable sp.kinds r) :
    runOptimization { env' with sp := sp', suggest := stdSuggest sp' ev envs' deDup } a fuel
        (mapState (recode sp.kinds πs) (renumberRow πs) id pc s)
      = (mapState (recode sp.kinds πs) (renumberRow πs) id pc
            (runOptimization { env with sp := sp, suggest := stdSuggest sp ev envs deDup } a fuel s).1,
          (runOptimization { env with sp := sp, suggest := stdSuggest sp ev envs deDup } a fuel s).2) := by
  refine runOptimization_corr_in (env := { env with sp := sp, suggest := stdSuggest sp ev envs deDup })
    (env' := { env' with sp := sp', suggest := stdSuggest sp' ev envs' deDup })
    (P := List.Forall₂ Encodable sp.kinds) (κ := id) (a := a) (a' := a)
    (fun X hX => by rw [h.unzipInputs]; exact (h.unzip hX).1)
    ⟨hp.obj, hp.clock, hp.fit, hp.params, hp.costFit, hp.lg, hp.normalizeY, hp.normalize, hp.interval⟩
    rfl (h.sameStopped heps) rfl ?_ ?_ fuel ⟨hX, hv⟩
  · intro s hs hrows
    simp only [stdSuggest]
    have := (C175_suggestions_partial h (hc s) (hok s) ev deDup hz s.X).1
    rw [hs, ha]
    show computeNext ev (envs' _) sp' (id s.context) deDup (s.X.map (renumberRow πs)) none none = _
    rw [hs, ha]
    exact this
  · intro s m hs hm
    simp only [stdSuggest] at hm
    rw [hs, ha] at hm
    exact (C175_suggestions_partial h (hc s) (hok s) ev deDup hz s.X).2 m hm

/-! ### Concrete cases, and where the numbers do matter -/

def numDesc (name : String) (labels : List ℚ) : Desc :=
  { name := some name, type := some "categorical", domain := some (.flat labels) }

/-- A variable with three categories, and a continuous one; the constraint is for the category `a`. -/
def numSp (a : ℚ) : Space :=
  ⟨[numDesc "c" [0, 1, 2], contDesc "x" 0 1], [⟨"c", .categorical [0, 1, 2], 1⟩, ⟨"x", .continuous 0 1, 1⟩],
    [numDesc "c" [0, 1, 2], contDesc "x" 0 1],
    [⟨"c", .categorical [0, 1, 2], 0, [0, 1, 2]⟩, ⟨"x", .continuous 0 1, 1, [3]⟩],
    some [{ constraint := some fun r => .ok (if r.getD 0 0 = a then r.getD 1 0 - 1 / 2 else -1) }]⟩

theorem codedBy_three {π : List Nat} (h : π.Perm [0, 1, 2]) : CodedBy (.categorical [0, 1, 2]) π := by
  refine ⟨by simpa [List.range_succ] using h, ?_⟩
  have : ((List.range 3).map fun j : Nat => (j : ℚ)) = [0, 1, 2] := by norm_num [List.range_succ]
  change [0, 1, 2].Perm ((List.range 3).map fun j : Nat => (j : ℚ))
  rw [this]

theorem numSp_renumbered : Renumbered [[2, 0, 1], []] (numSp 2) (numSp 0) := by
  have hπ : [2, 0, 1].Perm [0, 1, 2] := by decide
  refine ⟨⟨(numSp 2).config, (numSp 2).constraints, (numSp 0).constraints, rfl, rfl⟩, rfl, ?_, by simp [numSp, Space.kinds],
    .cons (codedBy_three hπ) (.cons rfl .nil), .some (.cons ?_ .nil)⟩
  · intro k hk
    simp only [numSp, Space.kinds, List.map_cons, List.map_nil, List.mem_cons, List.not_mem_nil, or_false] at hk
    rcases hk with rfl | rfl <;> simp [NonEmptyDom]
  · intro x hx
    obtain ⟨v, w, rfl⟩ := List.length_eq_two.1 hx
    simp only [renumberRow, renumber_nil, List.getD_cons_zero, List.getD_cons_succ]
    have hinj := renumber_inj (n := 3) (π := [2, 0, 1]) (by simpa [List.range_succ] using hπ)
    have h2 : renumber [2, 0, 1] 2 = 0 := by decide +kernel
    have : renumber [2, 0, 1] v = 0 ↔ v = 2 := by rw [← h2]; exact hinj.eq_iff
    simp only [this]

/-- Draws of the categories 0, 1, 2, 0, … and of the same with the new numbers 1, 2, 0, 1, …. -/
theorem numDraws : SameCategories [[2, 0, 1], []] (numSp 2).kinds (orderDraws [0, 1]) (orderDraws [1, 1]) := by
  refine ⟨rfl, rfl, rfl, fun _ => rfl, fun t r i k π hk hπ => ?_⟩
  rcases i with _ | _ | i
  · cases hk
    cases hπ
    have key : ∀ n < 3, ([0, 1, 2] : List ℚ)[(1 + n) % 3]? = ([0, 1, 2] : List ℚ)[n % 3]?.map (renumber [2, 0, 1]) := by
      decide +kernel
    have := key ((r + t) % 3) (Nat.mod_lt _ (by omega))
    rw [Nat.add_mod_mod, Nat.mod_mod] at this
    change ([0, 1, 2] : List ℚ)[(1 + r + t) % 3]? = ([0, 1, 2] : List ℚ)[(0 + r + t) % 3]?.map _
    rw [Nat.add_assoc, Nat.add_assoc, Nat.zero_add]
    exact this
  · cases hk
    rfl
  · simp [numSp, Space.kinds] at hk

example : initialDesign "random" (numSp 2) (orderDraws [0, 1]) 3 = .ok [[0, 1 / 2], [1, 1 / 3], [2, 1 / 4]] ∧
    initialDesign "random" (numSp 0) (orderDraws [1, 1]) 3 = .ok [[1, 1 / 2], [2, 1 / 3], [0, 1 / 4]] := by
  constructor <;> decide +kernel

example : (numSp 2).unzipInputs [[2, 1 / 3]] = .ok [[0, 0, 1, 1 / 3]] ∧
    recode (numSp 2).kinds [[2, 0, 1], []] [0, 0, 1, 1 / 3] = [1, 0, 0, 1 / 3] ∧
    renumberRow [[2, 0, 1], []] [2, 1 / 3] = [0, 1 / 3] := by
  refine ⟨by decide +kernel, by decide +kernel, by decide +kernel⟩

/-- The first of several greatest columns is taken. -/
theorem C175_tie_counterexample : ∃ (πs : List (List Nat)) (sp sp' : Space) (y : Vec) (m m' : Mat),
    Renumbered πs sp sp' ∧ y.length = sp.modelDim ∧ sp.roundOptimum2d [y] = .ok m ∧
      sp'.roundOptimum2d [recode sp.kinds πs y] = .ok m' ∧ m' ≠ m.map (recode sp.kinds πs) :=
  ⟨_, _, _, [1 / 2, 0, 1 / 2, 0], [[1, 0, 0, 0]], [[1, 0, 0, 0]], numSp_renumbered, by decide +kernel,
    by decide +kernel, by decide +kernel, by decide +kernel⟩

/-- The stopping rule measures distances of numbers of categories. -/
theorem C175_stop_counterexample : ∃ (πs : List (List Nat)) (sp sp' : Space) (X : Mat) (eps : ℚ),
    Renumbered πs sp sp' ∧ (∀ r ∈ X, List.Forall₂ Encodable sp.kinds r) ∧
      lastTwoClose eps X = true ∧ lastTwoClose eps (X.map (renumberRow πs)) = false := by
  refine ⟨_, _, _, [[1, 0], [2, 0]], 1, numSp_renumbered, ?_, by decide +kernel, by decide +kernel⟩
  intro r hr
  simp only [List.mem_cons, List.not_mem_nil, or_false] at hr
  rcases hr with rfl | rfl
  · exact .cons ⟨1, by simp, by norm_num⟩ (.cons trivial .nil)
  · exact .cons ⟨2, by simp, by norm_num⟩ (.cons trivial .nil)

/-- One variable with three categories. -/
def justCat : Space :=
  ⟨[numDesc "c" [0, 1, 2]], [⟨"c", .categorical [0, 1, 2], 1⟩], [numDesc "c" [0, 1, 2]],
    [⟨"c", .categorical [0, 1, 2], 0, [0, 1, 2]⟩], none⟩

theorem justCat_renumbered : Renumbered [[2, 0, 1]] justCat justCat := by
  refine ⟨⟨justCat.config, none, none, rfl, rfl⟩, rfl, ?_, by simp [justCat, Space.kinds],
    .cons (codedBy_three (by decide)) .nil, .none⟩
  intro k hk
  simp only [justCat, Space.kinds, List.map_cons, List.map_nil, List.mem_cons, List.not_mem_nil, or_false] at hk
  subst hk
  simp [NonEmptyDom]

/-- Draws for `justCat`, starting at category `a`. -/
def catDraws (a : Nat) : DesignOracle :=
  { draws := fun _ => ⟨fun _ _ => 0, fun _ r => a + r, fun _ _ => 0⟩, lhs := fun _ _ => 0, sobol := fun _ _ => 0, fuel := 1 }

theorem catDraws_same : SameCategories [[2, 0, 1]] justCat.kinds (catDraws 0) (catDraws 1) := by
  refine ⟨rfl, rfl, rfl, fun _ => rfl, fun t r i k π hk hπ => ?_⟩
  rcases i with _ | i
  · cases hk
    cases hπ
    have key : ∀ n < 3, ([0, 1, 2] : List ℚ)[(1 + n) % 3]? = ([0, 1, 2] : List ℚ)[n % 3]?.map (renumber [2, 0, 1]) := by
      decide +kernel
    have := key (r % 3) (Nat.mod_lt _ (by omega))
    rw [Nat.add_mod_mod, Nat.mod_mod] at this
    change ([0, 1, 2] : List ℚ)[(1 + r) % 3]? = ([0, 1, 2] : List ℚ)[(0 + r) % 3]?.map _
    rw [Nat.zero_add]
    exact this
  · simp [justCat, Space.kinds] at hk

/-- Local optimizers that always return `y`, with draws from `a` on. -/
def catOracle (a : Nat) (y : Vec) : AcqOracle := { smallOracle with design := catDraws a, opt := fun _ _ _ => .ok y }

/-- The environment for `justCat`; the acquisition is `f`. -/
def catEnv (a : Nat) (y : Vec) (f : Vec → Py ℚ) : EvalEnv :=
  { smallEnv with f := f, oracle := ⟨catOracle a y, catOracle a y⟩, fLP := fun _ => f, acqLP := fun _ => catOracle a y }

theorem catEnv_corr (f : Vec → Py ℚ) : CorrEnv justCat.modelDim justCat.modelDim (recode justCat.kinds [[2, 0, 1]])
    (recode justCat.kinds [[2, 0, 1]]) (SameCategories [[2, 0, 1]] justCat.kinds)
    (catEnv 0 [3 / 4, 1 / 2, 0] fun x => f (recode justCat.kinds [[2, 0, 1]] x)) (catEnv 1 [0, 3 / 4, 1 / 2] f) := by
  have hw : ∀ k, SameWork justCat.modelDim (recode justCat.kinds [[2, 0, 1]]) ((catOracle 0 [3 / 4, 1 / 2, 0]).opt k)
      ((catOracle 1 [0, 3 / 4, 1 / 2]).opt k) := fun k g g' x hx hg =>
    ⟨congrArg Except.ok (by decide +kernel), fun y hy => by cases hy; rfl⟩
  have ho : CorrOracle justCat.modelDim justCat.modelDim (recode justCat.kinds [[2, 0, 1]])
      (recode justCat.kinds [[2, 0, 1]]) (SameCategories [[2, 0, 1]] justCat.kinds) (catOracle 0 [3 / 4, 1 / 2, 0])
      (catOracle 1 [0, 3 / 4, 1 / 2]) :=
    ⟨catDraws_same, rfl, fun X _ => by simp [catOracle, smallOracle], hw⟩
  exact ⟨rfl, fun _ _ => rfl, ho, ho, rfl, rfl, fun _ _ _ _ => rfl, fun k => ho, rfl, rfl⟩

/-- What the local optimizers return has one greatest column. -/
theorem catEnv_ok (a : Nat) (f : Vec → Py ℚ) {c : Ctx} (hc : contextManager justCat none = .ok c) :
    EnvOk justCat c (OneGreatest justCat.kinds) (catEnv a [3 / 4, 1 / 2, 0] f) := by
  have hx := (expand_self (sp := justCat) (config := justCat.config) (cs := none) rfl rfl hc).2.2 [3 / 4, 1 / 2, 0] rfl
  have ho : ∀ k, OptOk justCat c (OneGreatest justCat.kinds) ((catOracle a [3 / 4, 1 / 2, 0]).opt k) := by
    intro k g x y yc hy hyc
    cases hy
    rw [hx.1] at hyc
    cases hyc
    refine .cons (fun _ _ => ⟨0, 3 / 4, rfl, fun j w hw hj => ?_⟩) .nil
    rcases j with _ | _ | _ | j
    · exact absurd rfl hj
    · cases hw; norm_num
    · cases hw; norm_num
    · simp [width] at hw
  exact ⟨ho, ho, fun _ => ho⟩

/-- Suggestions that correspond: category 0 is number 1 with the new numbers. -/
example : computeNext .sequential (catEnv 0 [3 / 4, 1 / 2, 0] fun x => .ok (-(recode justCat.kinds [[2, 0, 1]] x).getD 1 0))
      justCat none true [[1]] none none = .ok [[0]] ∧
    computeNext .sequential (catEnv 1 [0, 3 / 4, 1 / 2] fun x => .ok (-x.getD 1 0)) justCat none true [[2]] none none
      = .ok [[1]] := by
  constructor <;> decide +kernel

/-- A random batch with duplicate logic is taken from the samples in the order of the numbers. -/
theorem C175_random_batch_counterexample : ∃ (πs : List (List Nat)) (sp sp' : Space) (env env' : EvalEnv) (n : Nat)
    (m m' : Mat), Renumbered πs sp sp' ∧
      CorrEnv sp.modelDim sp.modelDim (recode sp.kinds πs) (recode sp.kinds πs) (SameCategories πs sp.kinds) env env' ∧
      (∀ c, contextManager sp none = .ok c → EnvOk sp c (OneGreatest sp.kinds) env) ∧
      computeNext (.random n) env sp none true [] none none = .ok m ∧
      computeNext (.random n) env' sp' none true [] none none = .ok m' ∧ m' ≠ m.map (renumberRow πs) :=
  ⟨_, justCat, justCat, _, _, 2, [[0], [1]], [[1], [0]], justCat_renumbered, catEnv_corr fun x => .ok (-(x.getD 1 0)),
    fun _ hc => catEnv_ok _ _ hc, by decide +kernel, by decide +kernel, by decide +kernel⟩

end GPyOpt.Props
