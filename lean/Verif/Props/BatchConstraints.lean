import Verif.Props.RegretConstraints
import Verif.Model.LocalPenalization
import Verif.Lemmas.Mills
import Verif.Lemmas.Corr

/-!
# C180: constraints and batches

The further locations of a batch: samples of the design (`batch_random.py:22-45`), which meets the constraints, local optima found
from such samples (`batch_thompson.py:27-54`), and optima of the penalized acquisition (`batch_local_penalization.py:41-45`).
-/

namespace GPyOpt.Props

open GPyOpt Spec

/-- Anchor points drawn at random are feasible, without a context. -/
theorem anchors_feasible {config : List Desc} {cs : List ConstrDict} {sp : Space} (h : designSpace config (some cs) = .ok sp)
    (hb : sp.hasBandit = false) (hs : ∀ k ∈ kindsOf config, Samplable k) (hk : AllCont (kindsOf config)) {c : Ctx}
    (hc : contextManager sp none = .ok c) {o : DesignOracle} (ho : UnitOracle o) {n : Nat} (hn : 0 < n) {unique : Bool}
    {dup : Option DupMgr} {numAnchor : Nat} {score : Mat → Py (List ℚ)} (hsc : ScoreShape score)
    {argsort : List ℚ → List Nat} (ha : IsArgsort argsort) {as : Mat}
    (has : anchorPoints sp (some c) dup unique "random" n numAnchor o score argsort = .ok as) :
    ∀ a ∈ as, ObjDomain (kindsOf config) a ∧ Feasible cs a ∧ ¬ InDup dup a := by
  have hkk := space_kinds_eq h
  rcases anchorPoints_design h hb (hkk ▸ hs) (by simp [ValidContext] : ValidContext sp none) hc ho (by simp : "random" ∈ _) hn
    unique dup numAnchor hsc ha with ⟨e, h1, -⟩ | ⟨ds, sp', m, Z, h1, h2, h3, h4, -, h6, h7, h8⟩
  · rw [has] at h1
    cases h1
  have hfree : ∀ i, freePos c i = true := by
    intro i
    simp [freePos, contextManager_none hc]
  obtain ⟨_, _, _, _, _, _, hcs⟩ := designSpace_ok h
  rw [hcs] at h1
  rw [keep_true hfree] at h3
  have hY := (C16_constrained_design h1 h2 (by
    rw [← space_kinds_eq h1, h3, hkk]
    exact hs) o ho.draws _ m h4).2
  by_cases hall : ∀ z ∈ Z, InDup dup z
  · rw [has] at h7
    cases h7 hall
  have hall' : ∃ z ∈ Z, ¬ InDup dup z := by
    by_contra hcon
    exact hall fun z hz => by_contra fun hn => hcon ⟨z, hz, hn⟩
  rcases h8 hall' with ⟨e, _, g1⟩ | ⟨s, A, -, -, g1, -, -, g2⟩
  · rw [has] at g1
    cases g1
  rw [has] at g1
  cases g1
  intro a ha
  obtain ⟨z, hz, rfl⟩ := List.mem_map.1 ha
  obtain ⟨hzZ, hzd⟩ := g2 z hz
  obtain ⟨y, hy, hyd, -, hyz⟩ := forall₂_mem_right h6 hzZ
  rw [keep_true hfree] at hyz
  rw [encodeRow_cont (hkk ▸ hk) hyd.length_eq]
  subst hyz
  refine ⟨hkk ▸ hyd, (feasible_fixConstr cs z).1 (hY z ?_).2, hzd⟩
  cases unique with
  | false => simpa using hy
  | true => simpa [mem_sortedUnique] using hy

/-- **C180**, one batch: continuous variables with constraints, no context, a positive acquisition that is defined in the domain.
All locations of a batch that is completed at random or by Thompson sampling are feasible. -/
theorem C180_batch {config : List Desc} {cs : List ConstrDict} {sp : Space} (h : designSpace config (some cs) = .ok sp)
    (hb : sp.hasBandit = false) (hs : ∀ k ∈ kindsOf config, Samplable k) (hvar : kindsOf config ≠ [])
    (hk : AllCont (kindsOf config)) (ev : Evaluator) (hev : ∀ n, ev ≠ .localPenalization n) (env : EvalEnv) (henv : GoodEnv env)
    (hlogic : env.op.anchorLogic = "max_objective")
    (hopt : ∀ c, contextManager sp none = .ok c → ∀ k,
      Descends (env.oracle.acq.opt k) c.noncontextBounds ∧ Descends (env.oracle.batch.opt k) c.noncontextBounds)
    (acq cost : Vec → Py ℚ) (hacq : ∀ x v, acq x = .ok v → 0 < v) (hcost : ∀ x v, cost x = .ok v → 0 < v)
    (hf : env.f = acquisitionFunction sp acq cost)
    (hdef : (∃ n, ev = .thompson n) → ∀ x, ObjDomain (kindsOf config) x → ∃ v, env.f x = .ok v)
    (deDup : Bool) (X : Mat) (pending ignored : Option Mat) (m : Mat)
    (hm : computeNext ev env sp none deDup X pending ignored = .ok m) :
    ∀ x ∈ m, ObjDomain (kindsOf config) x ∧ Feasible cs x := by
  have hkk := space_kinds_eq h
  have hne := fun k hk => samplable_nonEmpty (hs k hk)
  have hg : ValidContext sp none := by simp [ValidContext]
  obtain ⟨c, b, hc, hbt, hzip⟩ := computeNext_cases hm
  have hval : ∀ z v, ObjDomain (kindsOf config) z → acquisitionFunction sp acq cost z = .ok v →
      (Feasible cs z ∧ v < 0) ∨ (¬ Feasible cs z ∧ v = 0) := by
    intro z v hz hv
    have he := encodeRow_cont hk hz.length_eq
    obtain ⟨u, p, e1, e2, e3⟩ := C75_constraint_coordinates_partial h hb hne (noSingle_cont hk) acq cost z hz v (by rw [he]; exact hv)
    rw [he] at e1 e2
    rcases e3 with ⟨e3, rfl⟩ | e3
    · exact .inl ⟨e3, div_neg_of_neg_of_pos (by linarith [hacq z u e1]) (hcost z p e2)⟩
    · exact .inr e3
  generalize (if deDup = true then some (dupMgr X pending ignored) else none) = dup at hbt
  have hfirst : ∀ r, acqOptimize sp c dup env.op env.oracle.acq env.f = .ok r →
      ObjDomain (kindsOf config) r.1 ∧ Feasible cs r.1 := by
    intro r hr
    rw [hf] at hr
    obtain ⟨h1, Z, -, h3, ⟨z, hz, hzd⟩, h5⟩ := C178_step h hb hs hvar hk none hg c hc dup env.op henv.op hlogic
      env.oracle.acq henv.acq (fun k => (hopt c hc k).1) acq cost hcost r hr
    obtain ⟨u, v, e1, -, e3⟩ := h5 z hz hzd (h3 rfl z hz)
    exact ⟨h1, (e3 (hacq z u e1)).1⟩
  have key : ∀ x ∈ b, ObjDomain (kindsOf config) x ∧ Feasible cs x := by
    cases ev with
    | localPenalization n => exact absurd rfl (hev n)
    | sequential =>
      simp only [computeBatch, sequentialBatch] at hbt
      cases hx : acqOptimize sp c dup env.op env.oracle.acq env.f with
      | error e => simp [hx] at hbt
      | ok r =>
        simp only [hx, Except.ok.injEq] at hbt
        subst hbt
        intro x hxm
        rw [List.mem_singleton.1 hxm]
        exact hfirst r hx
    | random n =>
      simp only [computeBatch] at hbt
      have hanc : ∀ as, randomBatchAnchors sp c dup env.numSamplesRandom n env.oracle.batch = .ok as →
          ∀ a ∈ as, ObjDomain (kindsOf config) a ∧ Feasible cs a := by
        intro as has a ha
        have := anchors_feasible h hb hs hk hc henv.batch.unit henv.nRandom randomScores_shape henv.batch.argsort has a ha
        exact ⟨this.1, this.2.1⟩
      cases dup with
      | some dm =>
        simp only [randomBatch] at hbt
        refine Corr.dedupBatch_dom hanc (fun x hx => ?_) (fun A hA k a ha x hx => ?_) hbt
        · obtain ⟨r, hr, hrx⟩ := Except_map_eq_ok.1 hx
          cases hrx
          exact hfirst r hr
        · cases hx
          exact hanc A hA a ha
      | none =>
        simp only [randomBatch] at hbt
        cases hx : acqOptimize sp c none env.op env.oracle.acq env.f with
        | error e => simp [hx] at hbt
        | ok r =>
          simp only [hx] at hbt
          cases hA : randomBatchAnchors sp c none env.numSamplesRandom n env.oracle.batch with
          | error e => simp [hA] at hbt
          | ok as =>
            simp only [hA, Except.ok.injEq] at hbt
            subst hbt
            intro x hxm
            rcases List.mem_cons.1 hxm with rfl | hxm
            · exact hfirst r hx
            · exact hanc as hA x (List.mem_of_mem_take hxm)
    | thompson n =>
      simp only [computeBatch] at hbt
      have hanc : ∀ as, thompsonBatchAnchors sp c dup env.numSamplesThompson n env.oracle.batch = .ok as →
          ∀ a ∈ as, ObjDomain (kindsOf config) a ∧ Feasible cs a ∧ ¬ InDup dup a := by
        intro as has
        exact anchors_feasible h hb hs hk hc henv.batch.unit henv.nThompson henv.batch.thompson henv.batch.argsort has
      have hthom : ∀ k a x, ObjDomain (kindsOf config) a ∧ Feasible cs a ∧ ¬ InDup dup a →
          thompsonOptimize sp c dup env.oracle.batch env.f k a = .ok x → ObjDomain (kindsOf config) x ∧ Feasible cs x := by
        rintro k a x ⟨ha1, ha2, ha3⟩ hx
        have hae : encodeRow sp.kinds a = a := encodeRow_cont (hkk ▸ hk) (by rw [hkk]; exact ha1.length_eq)
        have hrow : GoodRow sp.kinds sp none a a := ⟨hae.symm, hkk ▸ ha1, by simp [HasContext]⟩
        unfold thompsonOptimize at hx
        cases hr : applyOptimizer sp (some c) dup (env.oracle.batch.opt k) env.f a with
        | error e => simp [hr] at hx
        | ok r =>
          obtain ⟨v0, hv0⟩ := hdef ⟨n, rfl⟩ a ha1
          have hle := applyOptimizer_descends h hb (hkk ▸ hs) (hkk ▸ hvar) (hkk ▸ hk) hg hc (hopt c hc k).2 (hkk ▸ ha1)
            (by simp [HasContext]) hr hv0
          obtain ⟨xs, -, h3⟩ := (applyOptimizer_spec h hb (hkk ▸ hne) (hkk ▸ hvar) hg hc dup (henv.batch.opt k) env.f hrow).2 ha3
          rcases h3 with ⟨e, -, he⟩ | ⟨y, x', z, -, ⟨rfl, hz, hcz⟩, hdz, heq⟩
          · rw [hr] at he; cases he
          · rw [hr] at heq
            have hround : sp.roundOptimum2d [encodeRow sp.kinds z] = .ok [encodeRow sp.kinds z] := by
              have := C04_round_fixed h hb hne hvar (encodeRow sp.kinds z) (hkk ▸ encodeRow_modelDomain hz)
              simpa [Space.roundOptimum2d] using this
            have hze : encodeRow sp.kinds z = z := encodeRow_cont (hkk ▸ hk) hz.length_eq
            rw [hze] at heq hround
            cases hfz : env.f z with
            | error e => simp [hfz] at heq
            | ok v =>
              simp only [hfz, Except.ok.injEq] at heq
              subst heq
              simp only [hr, hround, Except.ok.injEq] at hx
              subst hx
              rw [hkk] at hz
              refine ⟨hz, ?_⟩
              rw [hf] at hv0 hfz
              rcases hval a v0 ha1 hv0 with ⟨-, hv⟩ | ⟨hn, -⟩
              · rcases hval z v hz hfz with ⟨hz, -⟩ | ⟨-, rfl⟩
                · exact hz
                · simp only at hle
                  linarith
              · exact absurd ha2 hn
      cases dup with
      | some dm =>
        simp only [thompsonBatch] at hbt
        refine Corr.dedupBatch_dom (fun A hA a ha => ⟨(hanc A hA a ha).1, (hanc A hA a ha).2.1⟩) (fun x hx => by cases hx)
          (fun A hA k a ha x hx => hthom k a x (hanc A hA a ha) hx) hbt
      | none =>
        simp only [thompsonBatch] at hbt
        cases hA : thompsonBatchAnchors sp c none env.numSamplesThompson n env.oracle.batch with
        | error e => simp [hA] at hbt
        | ok as =>
          simp only [hA] at hbt
          cases hB : mapE (fun ka : Vec × Nat => thompsonOptimize sp c none env.oracle.batch env.f ka.2 ka.1)
              (as.zipIdx.take n) with
          | error e => simp [hB] at hbt
          | ok B =>
            simp only [hB, vstack] at hbt
            split_ifs at hbt
            simp only [Except.ok.injEq] at hbt
            subst hbt
            intro x hxm
            obtain ⟨ka, hka, hx⟩ := mapE_ok_mem hB hxm
            have hka' := List.mem_of_mem_take hka
            exact hthom ka.2 ka.1 x (hanc as hA _ (List.fst_mem_of_mem_zipIdx hka')) hx
  have hbe : b.map (encodeRow sp.kinds) = b := by
    conv_rhs => rw [← List.map_id b]
    exact List.map_congr_left fun x hx => encodeRow_cont (hkk ▸ hk) (by rw [hkk]; exact (key x hx).1.length_eq)
  have hded : ∀ {dm : DupMgr} {as : Py Mat} {x0 : Py (Option Vec)} {oa : Nat → Vec → Py Vec} {n : Nat},
      dedupBatch sp dm as x0 oa n = .ok b → b ≠ [] := by
    intro dm as x0 oa n hd
    unfold dedupBatch at hd
    split at hd
    · cases hd
    split at hd
    · cases hd
    simp only at hd
    split at hd
    · cases hd
    split at hd
    · cases hd
    · unfold vstack at hd
      split_ifs at hd with h0
      cases hd
      exact h0
  have hb0 : b ≠ [] := by
    cases ev with
    | localPenalization n => exact absurd rfl (hev n)
    | sequential =>
      simp only [computeBatch, sequentialBatch] at hbt
      split at hbt
      · cases hbt
      · cases hbt
        simp
    | random n =>
      cases dup with
      | some dm => exact hded hbt
      | none =>
        simp only [computeBatch, randomBatch] at hbt
        split at hbt
        · cases hbt
        split at hbt
        · cases hbt
        · cases hbt
          simp
    | thompson n =>
      cases dup with
      | some dm =>
        simp only [computeBatch, thompsonBatch] at hbt
        exact hded hbt
      | none =>
        simp only [computeBatch, thompsonBatch] at hbt
        split at hbt
        · cases hbt
        split at hbt
        · cases hbt
        · unfold vstack at hbt
          split_ifs at hbt with h0
          cases hbt
          exact h0
  have := zipInputs_encode_all h hb hb0 (Z := b) (fun x hx => hkk ▸ (key x hx).1)
  rw [hbe, hzip] at this
  cases this
  exact key

/-- **C180**, runs: as `C178_feasible`, also with batches that are completed at random or by Thompson sampling. If the initial
locations are feasible then the objective is evaluated at feasible locations only, and the reported location is feasible. -/
theorem C180_run {config : List Desc} {cs : List ConstrDict} {sp : Space} (h : designSpace config (some cs) = .ok sp)
    (hb : sp.hasBandit = false) (hs : ∀ k ∈ kindsOf config, Samplable k) (hvar : kindsOf config ≠ [])
    (hk : AllCont (kindsOf config)) (ev : Evaluator) (hev : ∀ n, ev ≠ .localPenalization n) (acq cost : BOState → Vec → Py ℚ)
    (hcost : ∀ t x v, cost t x = .ok v → 0 < v) (hacq : ∀ t x v, acq t x = .ok v → 0 < v)
    (envs : BOState → EvalEnv) (henvs : ∀ t, GoodEnv (envs t))
    (hf : ∀ t, (envs t).f = acquisitionFunction sp (acq t) (cost t))
    (hdef : (∃ n, ev = .thompson n) → ∀ t x, ObjDomain (kindsOf config) x → ∃ v, (envs t).f x = .ok v)
    (hlogic : ∀ t, (envs t).op.anchorLogic = "max_objective") (deDup : Bool) (env : BOEnv)
    (hsug : env.suggest = stdSuggest sp ev envs deDup) (a : RunArgs) (ha : a.context = none)
    (hopt : ∀ t c, contextManager sp none = .ok c → ∀ k,
      Descends ((envs t).oracle.acq.opt k) c.noncontextBounds ∧ Descends ((envs t).oracle.batch.opt k) c.noncontextBounds)
    (fuel : Nat) (s s' : BOState) (why : Stop) (hX : ∀ x ∈ s.X, Feasible cs x)
    (hrun : runOptimization env a fuel s = (s', .done why)) :
    (∀ x ∈ s'.X, Feasible cs x) ∧ ∃ r, s'.results = some r ∧ Feasible cs r.xOpt := by
  have key : ∀ x ∈ s'.X, Feasible cs x := by
    obtain ⟨obj, s0, bs, sk, s2, Y, r', ho, hst0, hst, htr, -, hsp, -, -, rfl⟩ := runOptimization_done hrun
    obtain ⟨ps, fs, rfl⟩ := hsp.frame
    show ∀ x ∈ sk.X, Feasible cs x
    have hsug1 : ∀ (t : BOState) (m : Mat), t.context = none → env.suggest t none none = .ok m → ∀ x ∈ m, Feasible cs x := by
      intro t m t1 t2
      rw [hsug] at t2
      unfold stdSuggest at t2
      rw [t1] at t2
      intro x hx
      exact (C180_batch h hb hs hvar hk ev hev (envs t) (henvs t) (hlogic t) (hopt t) (acq t) (cost t) (hacq t) (hcost t) (hf t)
        (fun hn => hdef hn t) deDup t.X none none m t2 x hx).2
    have hc0 : s0.context = none := by rw [hst.context, ha]
    have hX0 : ∀ x ∈ s0.X, Feasible cs x := by rw [hst.X]; exact hX
    clear hst hst0 hsp hrun
    induction htr with
    | nil s => exact hX0
    | @cons s s1 s' m ys bs hr hsp ht ih =>
      refine ih (by rw [hsp.context]; exact hc0) ?_
      rw [hsp.X]
      intro x hx
      rcases List.mem_append.1 hx with hx | hx
      · exact hX0 x hx
      · obtain ⟨ps, fs, hfr⟩ := updateModel_frame (env := env) (s := s) (s1 := (updateModel env s).1)
          (r := (updateModel env s).2) (by rfl)
        exact hsug1 _ m (by rw [hfr]; exact hc0) hsp.suggested x hx
  obtain ⟨r, Y, i, r1, -, -, -, r5, -⟩ := C39_reported_optimum _ a fuel s s' _ hrun
  exact ⟨key, r, r1, key _ (List.mem_of_getElem? r5)⟩

/-! ## Local penalization -/

theorem lpTransformed_le (t : LPTransform) (g : ℝ) (hg : 0 < g) : lpTransformed t g ≤ g + 1 := by
  cases t with
  | other => simp [lpTransformed]
  | none =>
    simp only [lpTransformed]
    have h := Real.log_le_sub_one_of_pos (show (0 : ℝ) < g + 1 / 10 ^ 50 by positivity)
    have : (1 : ℝ) / 10 ^ 50 ≤ 1 := by
      rw [div_le_one (by positivity)]
      exact one_le_pow₀ (by norm_num)
    linarith
  | softplus =>
    simp only [lpTransformed]
    split_ifs with h
    · have := Real.log_le_sub_one_of_pos hg
      linarith
    · have h1 : 0 < Real.log (1 + Real.exp g) := Real.log_pos (by linarith [Real.exp_pos g])
      have h2 := Real.log_le_sub_one_of_pos h1
      have h3 : Real.log (1 + Real.exp g) ≤ Real.log (2 * Real.exp g) :=
        Real.log_le_log (by positivity) (by linarith [Real.one_le_exp hg.le])
      rw [Real.log_mul (by norm_num) (Real.exp_pos g).ne', Real.log_exp] at h3
      have h4 := Real.log_le_sub_one_of_pos (show (0 : ℝ) < 2 by norm_num)
      linarith

theorem log_ncdf_le {K : ℝ} (hK : 0 < K) : Real.log (ncdf (-K)) ≤ -Real.log K := by
  have h1 := std_improvement_pos (-K)
  have h2 := npdf_le_half (-K)
  rw [← Real.log_inv]
  refine Real.log_le_log (ncdf_pos _) ?_
  rw [← one_div, le_div_iff₀ hK]
  linarith

/-- **C180** (negation for local penalization): the acquisition is positive, and zero only where the constraints are violated. The
penalty has no bound. Whatever the transformation, if the feasible set lies within a distance `ρ` of the first location `x0` of the
batch then there is a model for which a location beyond, where the constraints are violated, has a better penalized acquisition
than every feasible location. -/
theorem C180_penalized_counterexample {d : Nat} (t : LPTransform) (feas : Pt d → Prop) [DecidablePred feas] (g : Pt d → ℝ)
    (A ρ : ℝ) (x0 y : Pt d) (hg : ∀ x, 0 < g x ∧ g x ≤ A) (hball : ∀ x, feas x → euclid x x0 ≤ ρ) (hy : ρ < euclid y x0) :
    ¬ feas y ∧ ∃ (L Min : ℝ) (predict : Pt d → ℝ × ℝ), 0 < L ∧ 0 < (predict x0).2 ∧ ∀ x, feas x →
      lpValue t (if feas y then -g y else 0) (lpUpdateBatches (some [x0]) L Min predict) y
        < lpValue t (if feas x then -g x else 0) (lpUpdateBatches (some [x0]) L Min predict) x := by
  have hny : ¬ feas y := fun hf => absurd (hball y hf) (not_le.2 hy)
  refine ⟨hny, ?_⟩
  set R := euclid y x0 with hR
  set K := Real.exp (A + 3 - lpTransformed t 0) with hK
  have hKp : 0 < K := Real.exp_pos _
  have hd : 0 < R - ρ := by linarith
  set L := K / (R - ρ) with hL
  have hLp : 0 < L := div_pos hKp hd
  refine ⟨L, 0, fun _ => (L * R, 1), hLp, one_pos, fun x hx => ?_⟩
  have hpre : ∀ x1 : Pt d, hammerPrecompute L 0 (fun _ => (L * R, 1)) x1 = { x0 := x1, r := R, s := 1 / L } := by
    intro x1
    have : ¬ (1 : ℝ) < 1 / 10 ^ 16 := by
      rw [not_lt, div_le_one (by positivity)]
      exact one_le_pow₀ (by norm_num)
    simp only [hammerPrecompute, if_neg this, Real.sqrt_one, sub_zero]
    rw [mul_div_cancel_left₀ _ hLp.ne']
  simp only [lpValue, lpUpdateBatches, Option.map_some, List.map_cons, List.map_nil, List.sum_cons, List.sum_nil, add_zero,
    hpre, hammerValue, if_neg hny, if_pos hx, neg_neg, neg_zero]
  rw [← hR, sub_self, zero_div, ncdf_zero]
  have h1 : (euclid x x0 - R) / (1 / L) ≤ -K := by
    rw [div_div_eq_mul_div, div_one]
    have e : K = (R - ρ) * L := by
      rw [hL]
      field_simp
    have := mul_le_mul_of_nonneg_right (hball x hx) hLp.le
    rw [e]
    linarith
  have h2 : Real.log (ncdf ((euclid x x0 - R) / (1 / L))) ≤ -Real.log K :=
    (Real.log_le_log (ncdf_pos _) (ncdf_strictMono.monotone h1)).trans (log_ncdf_le hKp)
  rw [hK, Real.log_exp] at h2
  have h3 := lpTransformed_le t (g x) (hg x).1
  have h4 : Real.log (1 / 2 : ℝ) = -Real.log 2 := by rw [one_div, Real.log_inv]
  have h5 := Real.log_le_sub_one_of_pos (show (0 : ℝ) < 2 by norm_num)
  rw [h4]
  linarith [(hg x).2]

/-! ## Examples -/

def exFeasibleEnvs (sp : Space) (_ : BOState) : EvalEnv :=
  { exEnv with
    f := acquisitionFunction sp (fun x => .ok (1 + x.headD 0 ^ 2)) fun x => .ok (2 + x.headD 0 ^ 2)
    oracle := ⟨{ exAcq with opt := fun _ => exJump }, { exAcq with opt := fun _ => exJump }⟩ }

def exFeasibleBO (ev : Evaluator) (deDup : Bool) (sp : Space) : BOEnv :=
  { exSearch sp with
    obj := some fun _ x => .ok (exSlope x)
    suggest := stdSuggest sp ev (exFeasibleEnvs sp) deDup }

theorem exFeasible_defined {sp : Space} (h : designSpace exUnitLine (some exLowerHalf) = .ok sp) {x : Vec}
    (hx : ObjDomain (kindsOf exUnitLine) x) (t : BOState) : ∃ v, (exFeasibleEnvs sp t).f x = .ok v := by
  have hk : kindsOf exUnitLine = [.continuous 0 1] := by decide +kernel
  have hd : sp.modelDim = sp.objectiveDim := by
    have : (designSpace exUnitLine (some exLowerHalf)).map (fun sp => (sp.modelDim, sp.objectiveDim)) = .ok (1, 1) := by
      decide +kernel
    rw [h] at this
    simp only [Except.map, Except.ok.injEq, Prod.mk.injEq] at this
    omega
  obtain ⟨_, _, _, _, _, _, hcs⟩ := designSpace_ok h
  rw [hk] at hx
  obtain ⟨u, rfl⟩ : ∃ u, x = [u] := by
    have := hx.length_eq
    match x, this with
    | [u], _ => exact ⟨u, rfl⟩
  have hc : (2 + u ^ 2 : ℚ) ≠ 0 := by positivity
  have hi : sp.indicatorConstraints [[u]] = .ok [1 * (if u - 1/2 ≤ 0 then 1 else 0)] := by
    unfold Space.indicatorConstraints
    rw [hcs]
    rfl
  exact ⟨-((1 + u ^ 2) * (1 * (if u - 1/2 ≤ 0 then 1 else 0))) / (2 + u ^ 2), by
    simp only [exFeasibleEnvs, acquisitionFunction, constraintRows, hd, if_true, hi, List.headD_cons]
    exact if_neg hc⟩

/-- The hypotheses of `C180_run`, with costs, for all evaluators it covers. -/
example {sp : Space} (h : designSpace exUnitLine (some exLowerHalf) = .ok sp) (ev : Evaluator)
    (hev : ∀ n, ev ≠ .localPenalization n) (deDup : Bool) (a : RunArgs) (ha : a.context = none) (fuel : Nat)
    (s s' : BOState) (why : Stop) (hX : ∀ x ∈ s.X, Feasible exLowerHalf x)
    (hrun : runOptimization (exFeasibleBO ev deDup sp) a fuel s = (s', .done why)) : ∀ x ∈ s'.X, Feasible exLowerHalf x := by
  have hk : kindsOf exUnitLine = [.continuous 0 1] := by decide +kernel
  have hb : sp.hasBandit = false := by
    have : (designSpace exUnitLine (some exLowerHalf)).map Space.hasBandit = .ok false := by decide +kernel
    rw [h] at this
    simpa [Except.map] using this
  exact (C180_run h hb (by rw [hk]; simp [Samplable]) (by rw [hk]; simp)
    (by rw [hk]; intro k hk; exact ⟨0, 1, by simpa using hk⟩) ev hev (fun _ x => .ok (1 + x.headD 0 ^ 2))
    (fun _ x => .ok (2 + x.headD 0 ^ 2))
    (fun _ x v hv => by
      simp only [Except.ok.injEq] at hv
      rw [← hv]
      positivity)
    (fun _ x v hv => by
      simp only [Except.ok.injEq] at hv
      rw [← hv]
      positivity) (exFeasibleEnvs sp)
    (fun _ => ⟨⟨by simp [exFeasibleEnvs, exEnv], by simp [exFeasibleEnvs, exEnv], by simp [exFeasibleEnvs, exEnv]⟩, exJump_good,
      exJump_good, by simp [exFeasibleEnvs, exEnv], by simp [exFeasibleEnvs, exEnv]⟩) (fun _ => rfl)
    (fun _ t x hx => exFeasible_defined h hx t)
    (fun _ => by simp [exFeasibleEnvs, exEnv]) deDup (exFeasibleBO ev deDup sp) rfl a ha
    (fun t c hc k => ⟨exJump_unit h hb hc, exJump_unit h hb hc⟩) fuel s s' why hX hrun).1

/-- One iteration with either evaluator. -/
example : ((designSpace exUnitLine (some exLowerHalf)).map fun sp =>
      [Evaluator.random 2, .thompson 2].map fun ev =>
        let r := runOptimization (exFeasibleBO ev true sp) { maxIter := some (.fin 1) } 10 (boInit [[0], [1/4]] none .none)
        (r.2, r.1.X)) = .ok [(.done .limit, [[0], [1/4], [1/2], [1/7]]), (.done .limit, [[0], [1/4], [1/7], [1/6]])] := by
  decide +kernel

/-- The hypotheses of the counterexample: the constraint `x ≤ 1/2` in the unit interval, the first location `1/4`, and the
location `1`. -/
example (t : LPTransform) : ∃ (L Min : ℝ) (predict : Pt 1 → ℝ × ℝ), 0 < L ∧ 0 < (predict fun _ => 1/4).2 ∧
    ∀ u : ℝ, 0 ≤ u → u ≤ 1/2 →
      lpValue t 0 (lpUpdateBatches (some [fun _ => 1/4]) L Min predict) (fun _ => 1)
        < lpValue t (-1) (lpUpdateBatches (some [fun _ => 1/4]) L Min predict) (fun _ => u) := by
  classical
  obtain ⟨h0, L, Min, predict, h1, h2, h3⟩ := C180_penalized_counterexample (d := 1) t (fun x => 0 ≤ x 0 ∧ x 0 ≤ 1/2)
    (fun _ => 1) 1 (1/4) (fun _ => 1/4) (fun _ => 1) (fun _ => ⟨one_pos, le_rfl⟩)
    (fun x hx => by
      simp only [euclid, Finset.univ_unique, Fin.default_eq_zero, Finset.sum_singleton, Real.sqrt_sq_eq_abs]
      rw [abs_le]
      constructor <;> linarith [hx.1, hx.2])
    (by
      simp only [euclid, Finset.univ_unique, Fin.default_eq_zero, Finset.sum_singleton, Real.sqrt_sq_eq_abs]
      norm_num [abs_of_pos])
  refine ⟨L, Min, predict, h1, h2, fun u hu hu' => ?_⟩
  have := h3 (fun _ => u) ⟨hu, hu'⟩
  rwa [if_neg h0, if_pos ⟨hu, hu'⟩] at this

end GPyOpt.Props
