import Verif.Props.RegretBatch
import Verif.Props.BatchConstraints

/-!
# C184: constraints and the first location of a penalized batch

C180 shows that local penalization may leave the feasible set.  Not with the first location of a batch: there are no penalizers yet,
and the transformations keep a positive acquisition above zero.
-/

namespace GPyOpt.Props

open GPyOpt Spec

/-- **C184**, the transformations (`LP.py:76-84`): without penalizers a location with a positive acquisition has a better penalized
acquisition than one with the acquisition zero, as where constraints are violated. -/
theorem C184_transformed {d : Nat} (t : LPTransform) (g : ℝ) (hg : 0 < g) (x y : Pt d) :
    lpValue t (-g) none x < lpValue t 0 none y := by
  have key : lpTransformed t 0 < lpTransformed t g := by
    cases t with
    | other => simpa [lpTransformed] using hg
    | none =>
      simp only [lpTransformed]
      exact Real.log_lt_log (by positivity) (by linarith)
    | softplus =>
      have h2 : (0 : ℝ) < Real.log 2 := Real.log_pos (by norm_num)
      have h0 : lpTransformed .softplus 0 = Real.log (Real.log 2) := by
        norm_num [lpTransformed]
      rw [h0]
      simp only [lpTransformed]
      split_ifs with h
      · refine Real.log_lt_log h2 ?_
        have := Real.log_le_sub_one_of_pos (show (0 : ℝ) < 2 by norm_num)
        linarith
      · refine Real.log_lt_log h2 (Real.log_lt_log (by norm_num) ?_)
        have := Real.one_lt_exp_iff.2 hg
        linarith
  simpa [lpValue] using key

/-- The numbers `f` are better where the constraints are met than where they are violated. -/
def Separates (cs : List ConstrDict) (ks : List Kind) (f : Vec → Py ℚ) : Prop :=
  ∀ x z u v, ObjDomain ks x → ObjDomain ks z → ¬ Feasible cs x → Feasible cs z → f x = .ok u → f z = .ok v → v < u

open Classical in
/-- Penalized acquisitions without penalizers that are computed with less error than half of the least difference separate. -/
theorem separates_of_near {d : Nat} {cs : List ConstrDict} {ks : List Kind} {f : Vec → Py ℚ} (t : LPTransform) (pt : Vec → Pt d)
    (g : Vec → ℝ) {ρ : ℝ}
    (hg : ∀ z, Feasible cs z → lpValue t (-g z) none (pt z) + 2 * ρ < lpValue t 0 none (pt z))
    (hf : ∀ x v, f x = .ok v → |(v : ℝ) - lpValue t (if Feasible cs x then -g x else 0) none (pt x)| ≤ ρ) :
    Separates cs ks f := by
  intro x z u v _ _ hx hz hu hv
  have h1 := (abs_le.1 (hf x u hu)).1
  have h2 := (abs_le.1 (hf z v hv)).2
  rw [if_neg hx] at h1
  rw [if_pos hz] at h2
  have h3 : lpValue t 0 none (pt z) = lpValue t 0 none (pt x) := rfl
  have h4 := hg z hz
  rw [h3] at h4
  have : (v : ℝ) < u := by linarith
  exact_mod_cast this

/-- **C184**, the first location: local penalization with constraints, continuous variables and no context. If the acquisition
without penalizers separates the feasible locations from the others then the first location of every batch is feasible, whatever
the data, the batch size and the duplicate logic. -/
theorem C184_first {config : List Desc} {cs : List ConstrDict} {sp : Space} (h : designSpace config (some cs) = .ok sp)
    (hb : sp.hasBandit = false) (hs : ∀ k ∈ kindsOf config, Samplable k) (hvar : kindsOf config ≠ [])
    (hk : AllCont (kindsOf config)) (n : Nat) (env : EvalEnv) (hop : GoodOptions env.op) (hacq : GoodAcq (env.acqLP 0))
    (hlogic : env.op.anchorLogic = "max_objective")
    (hopt : ∀ c, contextManager sp none = .ok c → ∀ k, Descends ((env.acqLP 0).opt k) c.noncontextBounds)
    (hsep : Separates cs (kindsOf config) (env.fLP { env.lpState with penalizers := none }))
    (deDup : Bool) (X : Mat) (pending ignored : Option Mat) (m : Mat)
    (hm : computeNext (.localPenalization n) env sp none deDup X pending ignored = .ok m) :
    ∃ x rest, m = x :: rest ∧ ObjDomain (kindsOf config) x ∧ Feasible cs x := by
  have hm' : computeNext (.localPenalization n) env sp none false [] none none = .ok m := hm
  obtain ⟨x, rest, Z, e1, e2, e3, e4, e5⟩ := least_first h hb hs hvar hk none (by simp [ValidContext]) (.localPenalization n)
    (by simp) env hop hacq hlogic hopt false (by simp) [] m hm'
  refine ⟨x, rest, e1, e2, ?_⟩
  by_contra hx
  obtain ⟨z, hz⟩ := List.exists_mem_of_ne_nil Z e4
  obtain ⟨hzd, hz'⟩ := e5 z hz
  obtain ⟨u, v, hu, hv, huv⟩ := hz'.resolve_left (by simp)
  have := hsep x z u v e2 hzd hx (sampled_feasible h hs hacq.unit e3 z hz) hu hv
  linarith

/-- **C184**, a run with batches of local penalization: the first location of every batch is feasible, so that every iteration
evaluates the objective at a feasible location. -/
theorem C184_run {config : List Desc} {cs : List ConstrDict} {sp : Space} (h : designSpace config (some cs) = .ok sp)
    (hb : sp.hasBandit = false) (hs : ∀ k ∈ kindsOf config, Samplable k) (hvar : kindsOf config ≠ [])
    (hk : AllCont (kindsOf config)) (n : Nat) (envs : BOState → EvalEnv) (hop : ∀ t, GoodOptions (envs t).op)
    (hacq : ∀ t, GoodAcq ((envs t).acqLP 0)) (hlogic : ∀ t, (envs t).op.anchorLogic = "max_objective")
    (hopt : ∀ t c, contextManager sp none = .ok c → ∀ k, Descends (((envs t).acqLP 0).opt k) c.noncontextBounds)
    (hsep : ∀ t, Separates cs (kindsOf config) ((envs t).fLP { (envs t).lpState with penalizers := none }))
    (deDup : Bool) (env : BOEnv) (hsug : env.suggest = stdSuggest sp (.localPenalization n) envs deDup) (a : RunArgs)
    (ha : a.context = none) (fuel : Nat) (s s' : BOState) (why : Stop)
    (hrun : runOptimization env a fuel s = (s', .done why)) :
    ∃ bs : List Mat, bs.length = s'.numAcq ∧ s'.X = s.X ++ bs.flatten ∧
      ∀ b ∈ bs, ∃ x rest, b = x :: rest ∧ ObjDomain (kindsOf config) x ∧ Feasible cs x := by
  obtain ⟨obj, s0, bs, sk, s2, Y, r', ho, hst0, hst, htr, -, hsp, -, -, rfl⟩ := runOptimization_done hrun
  obtain ⟨ps, fs, rfl⟩ := hsp.frame
  have hsug1 : ∀ (t : BOState) (m : Mat), t.context = none → env.suggest t none none = .ok m →
      ∃ x rest, m = x :: rest ∧ ObjDomain (kindsOf config) x ∧ Feasible cs x := by
    intro t m t1 t2
    rw [hsug] at t2
    unfold stdSuggest at t2
    rw [t1] at t2
    exact C184_first h hb hs hvar hk n (envs t) (hop t) (hacq t) (hlogic t) (hopt t) (hsep t) deDup t.X none none m t2
  obtain ⟨Y0, new, hY0, -, -⟩ := hst.Y
  obtain ⟨d1, -, -, -, -, d6, -⟩ := htr.data hY0
  rw [hst.numAcq, Nat.zero_add] at d6
  rw [hst.X] at d1
  refine ⟨bs.map Prod.fst, by simpa using d6.symm, d1, ?_⟩
  have hc0 : s0.context = none := by rw [hst.context, ha]
  clear hst hst0 hsp hrun hY0 d1 d6
  induction htr with
  | nil s => simp
  | @cons s s1 s' m ys bs hr hsp ht ih =>
    intro b hbm
    rw [List.map_cons, List.mem_cons] at hbm
    rcases hbm with rfl | hbm
    · obtain ⟨ps, fs, hfr⟩ := updateModel_frame (env := env) (s := s) (s1 := (updateModel env s).1)
        (r := (updateModel env s).2) (by rfl)
      exact hsug1 _ _ (by rw [hfr]; exact hc0) hsp.suggested
    · exact ih (by rw [hsp.context]; exact hc0) b hbm

/-! ## Examples -/

/-- An acquisition that is not transformed. -/
theorem separates_plain {config : List Desc} {cs : List ConstrDict} {sp : Space} (h : designSpace config (some cs) = .ok sp)
    (hb : sp.hasBandit = false) (hs : ∀ k ∈ kindsOf config, Samplable k) (hk : AllCont (kindsOf config)) {acq cost : Vec → Py ℚ}
    (hacq : ∀ x v, acq x = .ok v → 0 < v) (hcost : ∀ x v, cost x = .ok v → 0 < v) :
    Separates cs (kindsOf config) (acquisitionFunction sp acq cost) := by
  have hne := fun k hk => samplable_nonEmpty (hs k hk)
  intro x z u v hx hz hxf hzf hu hv
  have e1 := encodeRow_cont hk hx.length_eq
  have e2 := encodeRow_cont hk hz.length_eq
  obtain ⟨_, _, -, -, h1⟩ := C75_constraint_coordinates_partial h hb hne (noSingle_cont hk) acq cost x hx u (by rw [e1]; exact hu)
  obtain ⟨p, q, hp, hq, h2⟩ := C75_constraint_coordinates_partial h hb hne (noSingle_cont hk) acq cost z hz v (by rw [e2]; exact hv)
  rw [e2] at hp hq
  have hu0 : u = 0 := by
    rcases h1 with ⟨h1, -⟩ | ⟨-, h1⟩
    · exact absurd h1 hxf
    · exact h1
  have hv0 : v < 0 := by
    rcases h2 with ⟨-, rfl⟩ | ⟨h2, -⟩
    · exact div_neg_of_neg_of_pos (by linarith [hacq z p hp]) (hcost z q hq)
    · exact absurd hzf h2
  linarith

def exPenalizedEnvs (sp : Space) (t : BOState) : EvalEnv :=
  { exFeasibleEnvs sp t with
    fLP := fun _ => (exFeasibleEnvs sp t).f
    acqLP := fun _ => { exAcq with opt := fun _ => exJump } }

def exPenalizedBO (n : Nat) (sp : Space) : BOEnv :=
  { exSearch sp with
    obj := some fun _ x => .ok (exSlope x)
    suggest := stdSuggest sp (.localPenalization n) (exPenalizedEnvs sp) true }

/-- The hypotheses of `C184_run` are met, with the constraint `x ≤ 1/2` and a local optimizer that jumps. -/
example {sp : Space} (h : designSpace exUnitLine (some exLowerHalf) = .ok sp) (n : Nat) (a : RunArgs) (ha : a.context = none)
    (fuel : Nat) (s s' : BOState) (why : Stop) (hrun : runOptimization (exPenalizedBO n sp) a fuel s = (s', .done why)) :
    ∃ bs : List Mat, bs.length = s'.numAcq ∧ s'.X = s.X ++ bs.flatten ∧
      ∀ b ∈ bs, ∃ x rest, b = x :: rest ∧ ObjDomain (kindsOf exUnitLine) x ∧ Feasible exLowerHalf x := by
  have hk : kindsOf exUnitLine = [.continuous 0 1] := by decide +kernel
  have hb : sp.hasBandit = false := by
    have : (designSpace exUnitLine (some exLowerHalf)).map Space.hasBandit = .ok false := by decide +kernel
    rw [h] at this
    simpa [Except.map] using this
  have hs : ∀ k ∈ kindsOf exUnitLine, Samplable k := by rw [hk]; simp [Samplable]
  have hc : AllCont (kindsOf exUnitLine) := by rw [hk]; intro k hk; exact ⟨0, 1, by simpa using hk⟩
  refine C184_run h hb hs (by rw [hk]; simp) hc n (exPenalizedEnvs sp)
    (fun _ => ⟨by simp [exPenalizedEnvs, exFeasibleEnvs, exEnv], by simp [exPenalizedEnvs, exFeasibleEnvs, exEnv],
      by simp [exPenalizedEnvs, exFeasibleEnvs, exEnv]⟩)
    (fun _ => exJump_good) (fun _ => by simp [exPenalizedEnvs, exFeasibleEnvs, exEnv])
    (fun t c hcm k => exJump_unit h hb hcm) (fun t => separates_plain (acq := fun x => .ok (1 + x.headD 0 ^ 2))
      (cost := fun x => .ok (2 + x.headD 0 ^ 2)) h hb hs hc ?_ ?_) true
    (exPenalizedBO n sp) rfl a ha fuel s s' why hrun
  · intro x v hv
    simp only [Except.ok.injEq] at hv
    subst hv
    positivity
  · intro x v hv
    simp only [Except.ok.injEq] at hv
    subst hv
    positivity

/-- Two batches of two. -/
example : ((designSpace exUnitLine (some exLowerHalf)).map fun sp =>
      let r := runOptimization (exPenalizedBO 2 sp) { maxIter := some (.fin 2), maxTime := none, eps := -1 } 10
        (boInit [[0], [1/4]] none .none)
      (r.2, r.1.numAcq, r.1.X)) = .ok (.done .limit, 2, [[0], [1/4], [1/2], [1/2], [1/2], [1/2]]) := by
  decide +kernel

end GPyOpt.Props
