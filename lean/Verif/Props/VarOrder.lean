import Verif.Lemmas.VarOrderCorr
import Verif.Props.Feasible

/-!
# C157: the order of the variables does not matter

The specification is `Verif/Spec/VarOrder.lean`: two descriptions of a problem list the same one-dimensional
variables in different orders, and rows are read accordingly.  With the same random numbers for every variable
the designs, suggestions and runs are the same up to the order of the columns, except where the code looks at
the order: Sobol designs, and samples without repetition, which the code sorts.
-/

namespace GPyOpt.Props

open GPyOpt Spec

variable {σ : List Nat} {sp sp' : Space}

theorem exists_order {α : Type} {l l' : List α} (h : l'.Perm l) :
    ∃ σ, σ.Perm (List.range l.length) ∧ l' = arrange σ l := by
  induction h with
  | nil => exact ⟨[], .refl _, rfl⟩
  | @cons x l' l _ ih =>
    obtain ⟨σ, h1, h2⟩ := ih
    have hp : (0 :: σ.map Nat.succ).Perm (List.range (x :: l).length) := by
      rw [List.length_cons, List.range_succ_eq_map]
      exact (h1.map _).cons 0
    refine ⟨_, hp, arrange_ext hp (by rw [h2]; simp [arrange_length h1]) fun j i hj => ?_⟩
    cases j with
    | zero => simp at hj; subst hj; rfl
    | succ j =>
      simp only [List.getElem?_cons_succ, List.getElem?_map, Option.map_eq_some_iff] at hj
      obtain ⟨i', hi', rfl⟩ := hj
      rw [h2, List.getElem?_cons_succ, arrange_get h1, hi']
      rfl
  | swap x y l =>
    have hp : (1 :: 0 :: (List.range l.length).map fun i => i + 2).Perm (List.range (x :: y :: l).length) := by
      rw [List.length_cons, List.length_cons, List.range_succ_eq_map, List.range_succ_eq_map]
      simp only [List.map_cons, List.map_map]
      refine (List.Perm.swap _ _ _).trans ?_
      exact .refl _
    refine ⟨_, hp, arrange_ext hp rfl fun j i hj => ?_⟩
    cases j with
    | zero => simp at hj; subst hj; rfl
    | succ j =>
      cases j with
      | zero => simp at hj; subst hj; rfl
      | succ j =>
        simp only [List.getElem?_cons_succ, List.getElem?_map, Option.map_eq_some_iff] at hj
        obtain ⟨i', hi', rfl⟩ := hj
        have := List.getElem?_eq_some_iff.1 hi'
        obtain ⟨_, rfl⟩ := this
        simp
  | @trans l1 l2 l3 _ _ ih1 ih2 =>
    obtain ⟨σ, s1, s2⟩ := ih1
    obtain ⟨τ, t1, t2⟩ := ih2
    have hl : τ.length = l2.length := by rw [order_length t1, t2, arrange_length t1]
    have s1' : σ.Perm (List.range τ.length) := by rw [hl]; exact s1
    have hp : (arrange σ τ).Perm (List.range l3.length) := (arrange_perm s1').trans t1
    refine ⟨_, hp, arrange_ext hp (by rw [s2, arrange_length s1, t2, arrange_length t1]) fun j i hj => ?_⟩
    rw [arrange_get s1'] at hj
    rw [s2, arrange_get s1]
    obtain ⟨m, m1, m2⟩ := Option.bind_eq_some_iff.1 hj
    rw [m1, Option.bind_some, t2, arrange_get t1, m2]
    rfl

/-- Every order of the descriptions gives a problem of this kind. -/
theorem C157_exists {config config' : List Desc} (h : designSpace config none = .ok sp)
    (h' : designSpace config' none = .ok sp') (hb : sp.hasBandit = false) (hd : ∀ k ∈ sp.kinds, NonEmptyDom k)
    (hne : sp.kinds ≠ []) (hp : config'.Perm config) : ∃ σ, Arranged σ sp sp' := by
  have hk : sp'.kinds.Perm sp.kinds := by
    rw [space_kinds_eq h, space_kinds_eq h']
    exact hp.flatMap_right _
  obtain ⟨σ, h1, h2⟩ := exists_order hk
  have hb' : sp'.hasBandit = false := (hasBandit_eq_false h').2 fun d hd' =>
    (hasBandit_eq_false h).1 hb d (hp.mem_iff.1 hd')
  refine ⟨σ, ⟨_, _, h⟩, ⟨_, _, h'⟩, hb, hb', hd, hne, h1, h2, ?_⟩
  obtain ⟨_, -, -, -, -, -, e1⟩ := designSpace_ok h
  obtain ⟨_, -, -, -, -, -, e2⟩ := designSpace_ok h'
  rw [e1, e2]
  exact .none

/-- Encoding, decoding, rounding and weights. -/
theorem C157_encodings (h : Arranged σ sp sp') (X : Mat) (hX : X ≠ []) :
    ((∀ r ∈ X, r.length = sp.objectiveDim) →
      sp'.unzipInputs (X.map (arrange σ)) = (sp.unzipInputs X).map (List.map (arrangeCols σ sp.kinds)) ∧
      sp'.indicatorConstraints (X.map (arrange σ)) = sp.indicatorConstraints X) ∧
    ((∀ r ∈ X, r.length = sp.modelDim) →
      sp'.zipInputs (X.map (arrangeCols σ sp.kinds)) = (sp.zipInputs X).map (List.map (arrange σ)) ∧
      ∀ r ∈ X, sp'.roundOptimum2d [arrangeCols σ sp.kinds r]
        = (sp.roundOptimum2d [r]).map (List.map (arrangeCols σ sp.kinds))) := by
  refine ⟨fun hl => ⟨h.sameUnzip X ⟨hX, hl⟩, h.indicator fun r hr => ?_⟩,
    fun hl => ⟨h.zip hX hl, fun r hr => ?_⟩⟩
  · rw [hl r hr]
    exact Arranged.expanded_length sp
  · obtain ⟨q, -, h1, h2⟩ := h.round (hl r hr)
    rw [h1, h2]
    rfl

/-- Random and Latin designs. -/
theorem C157_designs_partial (h : Arranged σ sp sp') {o o' : DesignOracle} (ho : SameDraws σ sp.kinds o o') (n : Nat)
    {name : String} (hn : name = "random" ∨ name = "latin") :
    initialDesign name sp' o' n = (initialDesign name sp o n).map (List.map (arrange σ)) :=
  h.designs ho n hn

theorem contBefore_inj {ks : List Kind} : ∀ {i j : Nat} {k k' : Kind}, ks[i]? = some k → ks[j]? = some k' →
    k.isContinuous = true → k'.isContinuous = true → contBefore ks i = contBefore ks j → i = j := by
  induction ks with
  | nil => intro i j k k' h; simp at h
  | cons q ks ih =>
    intro i j k k' hi hj hk hk' he
    cases i with
    | zero =>
      cases j with
      | zero => rfl
      | succ j =>
        simp only [List.getElem?_cons_zero, Option.some.injEq] at hi
        subst hi
        rw [contBefore_cons, hk] at he
        simp [contBefore] at he
        omega
    | succ i =>
      cases j with
      | zero =>
        simp only [List.getElem?_cons_zero, Option.some.injEq] at hj
        subst hj
        rw [contBefore_cons, hk'] at he
        simp [contBefore] at he
      | succ j =>
        rw [contBefore_cons, contBefore_cons] at he
        simp only [List.getElem?_cons_succ] at hi hj
        rw [ih hi hj hk hk' (by omega)]

/-- For all random numbers of one problem there are corresponding ones of the other, and conversely. -/
theorem C157_draws (h : Arranged σ sp sp') : (∀ o, ∃ o', SameDraws σ sp.kinds o o') ∧
    ∀ o', ∃ o, SameDraws σ sp.kinds o o' := by
  classical
  have hσ : ∀ {i' j' i : Nat}, σ[i']? = some i → σ[j']? = some i → i' = j' := by
    intro i' j' i h1 h2
    have hnd : σ.Nodup := h.order.nodup_iff.2 List.nodup_range
    exact (List.getElem?_inj (List.getElem?_eq_some_iff.1 h1).1 hnd).1 (h1.trans h2.symm)
  have hget : ∀ {i' i : Nat}, σ[i']? = some i → (arrange σ sp.kinds)[i']? = sp.kinds[i]? := by
    intro i' i hi
    rw [arrange_get h.order, hi]
    rfl
  let P : Nat → Nat → Prop := fun c' c => ∃ (i' i : Nat) (lo hi : ℚ), σ[i']? = some i ∧
    sp.kinds[i]? = some (.continuous lo hi) ∧ contBefore (arrange σ sp.kinds) i' = c' ∧ contBefore sp.kinds i = c
  have P1 : ∀ {c' c d : Nat}, P c' c → P c' d → c = d := by
    rintro c' c d ⟨i', i, lo, hi, h1, h2, h3, rfl⟩ ⟨j', j, lo', hi', k1, k2, k3, rfl⟩
    have := contBefore_inj ((hget h1).trans h2) ((hget k1).trans k2) rfl rfl (h3.trans k3.symm)
    subst this
    rw [h1] at k1
    cases k1
    rfl
  have P2 : ∀ {c' d' c : Nat}, P c' c → P d' c → c' = d' := by
    rintro c' d' c ⟨i', i, lo, hi, h1, h2, rfl, h4⟩ ⟨j', j, lo', hi', k1, k2, rfl, k4⟩
    have := contBefore_inj h2 k2 rfl rfl (h4.trans k4.symm)
    subst this
    rw [hσ h1 k1]
  have hP : ∀ {i' i : Nat} {lo hi : ℚ}, σ[i']? = some i → sp.kinds[i]? = some (.continuous lo hi) →
      P (contBefore (arrange σ sp.kinds) i') (contBefore sp.kinds i) :=
    fun h1 h2 => ⟨_, _, _, _, h1, h2, rfl, rfl⟩
  constructor
  · intro o
    let m : Nat → Nat := fun c' => if hc : ∃ c, P c' c then hc.choose else 0
    have hm : ∀ {c' c : Nat}, P c' c → m c' = c := by
      intro c' c hc
      have he : ∃ c, P c' c := ⟨c, hc⟩
      simp only [m, dif_pos he]
      exact P1 he.choose_spec hc
    refine ⟨{ o with
      draws := fun t => { o.draws t with
        choice := fun i' r => (o.draws t).choice (σ.getD i' 0) r
        unif := fun c' r => (o.draws t).unif (m c') r }
      lhs := fun r c' => o.lhs r (m c') }, rfl, fun t r i' i hi => ?_, fun t r i' i lo hi h1 h2 => ?_,
      fun r i' i lo hi h1 h2 => ?_⟩
    · simp [List.getD_eq_getElem?_getD, hi]
    · simp only [hm (hP h1 h2)]
    · simp only [hm (hP h1 h2)]
  · intro o'
    let m : Nat → Nat := fun c => if hc : ∃ c', P c' c then hc.choose else 0
    have hm : ∀ {c' c : Nat}, P c' c → m c = c' := by
      intro c' c hc
      have he : ∃ c', P c' c := ⟨c', hc⟩
      simp only [m, dif_pos he]
      exact P2 he.choose_spec hc
    let q : Nat → Nat := fun i => if hc : ∃ i' : Nat, σ[i']? = some i then hc.choose else 0
    have hq : ∀ {i' i : Nat}, σ[i']? = some i → q i = i' := by
      intro i' i hi
      have he : ∃ i' : Nat, σ[i']? = some i := ⟨i', hi⟩
      simp only [q, dif_pos he]
      exact hσ he.choose_spec hi
    refine ⟨{ o' with
      draws := fun t => { o'.draws t with
        choice := fun i r => (o'.draws t).choice (q i) r
        unif := fun c r => (o'.draws t).unif (m c) r }
      lhs := fun r c => o'.lhs r (m c) }, rfl, fun t r i' i hi => ?_, fun t r i' i lo hi h1 h2 => ?_,
      fun r i' i lo hi h1 h2 => ?_⟩
    · simp only [hq hi]
    · simp only [hm (hP h1 h2)]
    · simp only [hm (hP h1 h2)]

/-- For every acquisition with its local optimizers there is a corresponding one of the other problem. -/
theorem C157_acquisitions (h : Arranged σ sp sp') {env : EvalEnv} (he : EnvOver sp.modelDim env) :
    ∃ env', CorrEnv sp.modelDim sp.modelDim (arrangeCols σ sp.kinds) (arrangeCols σ sp.kinds)
      (SameDraws σ sp.kinds) env env' := by
  classical
  have hinj := h.arrangeCols_injective
  let E := arrangeCols σ sp.kinds
  let I := Function.invFun E
  have hI : ∀ x, I (E x) = x := Function.leftInverse_invFun hinj
  have hmap : ∀ X : Mat, (X.map E).map I = X := by
    intro X; rw [List.map_map]; conv_rhs => rw [← List.map_id X]
    exact List.map_congr_left fun x _ => hI x
  obtain ⟨D, hD⟩ : ∃ D : DesignOracle → DesignOracle, ∀ o, SameDraws σ sp.kinds o (D o) :=
    ⟨fun o => ((C157_draws h).1 o).choose, fun o => ((C157_draws h).1 o).choose_spec⟩
  let A : AcqOracle → AcqOracle := fun o =>
    { o with
      design := D o.design
      thompson := fun X => o.thompson (X.map I)
      opt := fun k g x => (o.opt k (fun y => g (E y)) (I x)).map E }
  have hA : ∀ o : AcqOracle, (∀ k, OptimizerOver sp.modelDim (o.opt k)) →
      CorrOracle sp.modelDim sp.modelDim E E (SameDraws σ sp.kinds) o (A o) := by
    intro o ho
    refine ⟨hD _, rfl, fun X _ => by simp only [A, hmap], fun k g g' x hx hg => ?_⟩
    have h1 := ho k g (fun y => g' (E y)) x hx hg
    simp only [id, A, hI] at h1 ⊢
    refine ⟨?_, h1.2⟩
    rw [h1.1]
    cases o.opt k g x <;> simp
  have hLP : ∀ s, mapLP I (mapLP E s) = s := by
    intro s
    obtain ⟨a, b⟩ := s
    cases a <;> simp [mapLP, hmap]
  refine ⟨{ env with
    f := fun x => env.f (I x)
    oracle := ⟨A env.oracle.acq, A env.oracle.batch⟩
    fLP := fun s x => env.fLP (mapLP I s) (I x)
    acqLP := fun k => A (env.acqLP k)
    lpState := mapLP E env.lpState }, rfl, fun x _ => congrArg env.f (hI x), hA _ he.acq, hA _ he.batch, rfl, rfl,
    fun s x _ _ => by
      show env.fLP (mapLP I (mapLP E s)) (I (E x)) = env.fLP s x
      rw [hLP, hI x], fun k => hA _ (he.lp k), rfl, rfl⟩

/-- Suggestions, for every evaluator that does not use samples without repetition. -/
theorem C157_suggestions_partial (h : Arranged σ sp sp') {env env' : EvalEnv}
    (he : CorrEnv sp.modelDim sp.modelDim (arrangeCols σ sp.kinds) (arrangeCols σ sp.kinds) (SameDraws σ sp.kinds)
      env env') (hl : env.op.anchorLogic ≠ "thompson_sampling") (ev : Evaluator) (deDup : Bool)
    (hd : deDup = false ∨ (∀ n, ev ≠ .random n) ∧ ∀ n, ev ≠ .thompson n) {X : Mat} {pending ignored : Option Mat}
    (hX : ∀ r ∈ X, r.length = sp.objectiveDim) (hp : ∀ m, pending = some m → ∀ r ∈ m, r.length = sp.objectiveDim)
    (hi : ∀ m, ignored = some m → ∀ r ∈ m, r.length = sp.objectiveDim) :
    computeNext ev env' sp' none deDup (X.map (arrange σ)) (pending.map (List.map (arrange σ)))
        (ignored.map (List.map (arrange σ)))
      = (computeNext ev env sp none deDup X pending ignored).map (List.map (arrange σ)) := by
  obtain ⟨c, c', hc, hc'⟩ := h.managers
  obtain ⟨config, cs, hsp⟩ := h.built
  have hlen := (expand_self hsp h.noBandit hc).1
  have hn : sp.objectiveDim = sp.kinds.length := Arranged.expanded_length sp
  rw [hn] at hX hp hi
  refine Corr.computeNext hc hc' (h.corr hc hc') (by rw [hlen]; exact he) ev deDup (fun _ => ?_)
    (.inr (.inr fun x _ => npAny_perm (h.arrangeCols_perm x))) ?_
  · have hmem : ∀ {m : Mat}, (∀ r ∈ m, r.length = sp.kinds.length) → ∀ z : Vec, z.length = sp.kinds.length →
        (arrange σ z ∈ m.map (arrange σ) ↔ z ∈ m) := by
      intro m hm z hz
      rw [List.mem_map]
      constructor
      · rintro ⟨r, hr, hrz⟩
        rw [← arrange_inj h.order (hm r hr) hz hrz]
        exact hr
      · intro hz
        exact ⟨z, hz, rfl⟩
    have hany : ∀ {m : Option Mat}, (∀ q, m = some q → ∀ r ∈ q, r.length = sp.kinds.length) →
        optAny (m.map (List.map (arrange σ))) = optAny m := by
      intro m hm
      cases m with
      | none => rfl
      | some m =>
        simp only [Option.map_some, optAny, npAny, List.any_map]
        have hm' := hm m rfl
        clear hm
        induction m with
        | nil => rfl
        | cons r m ih =>
          have := (arrange_perm (h.order' (hm' r (by simp)))).any_eq (f := fun v : ℚ => decide (v ≠ 0))
          simp only [List.any_cons, Function.comp, this]
          congr 1
          exact ih fun r hr => hm' r (by simp [hr])
    intro z hz
    rw [Arranged.expanded_length] at hz
    simp only [dupMgr, hany hp, hany hi]
    have hopt : ∀ {m : Option Mat}, (∀ q, m = some q → ∀ r ∈ q, r.length = sp.kinds.length) →
        (arrange σ z ∈ (m.map (List.map (arrange σ))).getD [] ↔ z ∈ m.getD []) := by
      intro m hm
      cases m with
      | none => simp
      | some m => exact hmem (hm m rfl) z hz
    split_ifs <;> simp only [List.mem_append, hmem hX z hz, hopt hp, hopt hi]
  · have ha : ∀ t, anchorDesign env.op.anchorLogic = some t → t = "random" := by
      intro t ht
      unfold anchorDesign at ht
      split_ifs at ht
      cases ht; rfl
    intro q hq
    unfold designsDrawn at hq
    cases ev <;> simp at hq <;> aesop

/-- Runs: the same evaluations, costs, fits, results and exceptions. -/
theorem C157_runs_partial (h : Arranged σ sp sp') {pc : Vec → Vec} {env env' : BOEnv}
    (hp : CorrParts (arrangeCols σ sp.kinds) (arrange σ) id pc env env') (ev : Evaluator) (deDup : Bool)
    (hd : deDup = false ∨ (∀ n, ev ≠ .random n) ∧ ∀ n, ev ≠ .thompson n) (envs envs' : BOState → EvalEnv)
    (hl : ∀ s, (envs s).op.anchorLogic ≠ "thompson_sampling")
    (hc : ∀ s, CorrEnv sp.modelDim sp.modelDim (arrangeCols σ sp.kinds) (arrangeCols σ sp.kinds)
      (SameDraws σ sp.kinds) (envs s) (envs' (mapState (arrangeCols σ sp.kinds) (arrange σ) id pc s)))
    {a : RunArgs} (ha : a.context = none) (fuel : Nat) {s : BOState} (hX : s.X ≠ [])
    (hlen : ∀ r ∈ s.X, r.length = sp.objectiveDim) :
    runOptimization { env' with sp := sp', suggest := stdSuggest sp' ev envs' deDup } a fuel
        (mapState (arrangeCols σ sp.kinds) (arrange σ) id pc s)
      = (mapState (arrangeCols σ sp.kinds) (arrange σ) id pc
            (runOptimization { env with sp := sp, suggest := stdSuggest sp ev envs deDup } a fuel s).1,
          (runOptimization { env with sp := sp, suggest := stdSuggest sp ev envs deDup } a fuel s).2) := by
  refine runOptimization_corr (env := { env with sp := sp, suggest := stdSuggest sp ev envs deDup })
    (env' := { env' with sp := sp', suggest := stdSuggest sp' ev envs' deDup }) (n := sp.expanded.length)
    (κ := id) (a := a) (a' := a) h.sameUnzip
    ⟨hp.obj, hp.clock, hp.fit, hp.params, hp.costFit, hp.lg, hp.normalizeY, hp.normalize, hp.interval⟩
    rfl (h.sameStopped a.eps) rfl ?_ ?_ fuel ⟨hX, hlen⟩
  · intro s hs hrows
    simp only [stdSuggest]
    have := C157_suggestions_partial h (hc s) (hl s) ev deDup hd (X := s.X) (pending := none) (ignored := none)
      hrows.2 (by simp) (by simp)
    rw [hs, ha]
    show computeNext ev (envs' _) sp' (id s.context) deDup (s.X.map (arrange σ)) none none = _
    rw [hs, ha]
    exact this
  · intro s m hs hm r hr
    exact computeNext_length h.noBandit hm r hr

/-! ### Concrete cases, and where the order does matter -/

/-- A description of a continuous variable, for the examples. -/
def contDesc (name : String) (lo hi : ℚ) : Desc := { name := some name, domain := some (.flat [lo, hi]) }

/-- A continuous, a categorical and a discrete variable, and the same in another order, with a constraint on
the first and the third. -/
def orderSp : Space :=
  ⟨[contDesc "x" 0 1, { name := some "c", type := some "categorical", domain := some (.flat [0, 1]) }, smallDesc "d" [3, 4]],
    [⟨"x", .continuous 0 1, 1⟩, ⟨"c", .categorical [0, 1], 1⟩, ⟨"d", .discrete [3, 4], 1⟩],
    [contDesc "x" 0 1, { name := some "c", type := some "categorical", domain := some (.flat [0, 1]) }, smallDesc "d" [3, 4]],
    [⟨"x", .continuous 0 1, 0, [0]⟩, ⟨"c", .categorical [0, 1], 1, [1, 2]⟩, ⟨"d", .discrete [3, 4], 2, [3]⟩],
    some [{ constraint := some fun r => .ok (r.getD 0 0 + r.getD 2 0 - 4) }]⟩

def orderSp' : Space :=
  ⟨[smallDesc "d" [3, 4], contDesc "x" 0 1, { name := some "c", type := some "categorical", domain := some (.flat [0, 1]) }],
    [⟨"d", .discrete [3, 4], 1⟩, ⟨"x", .continuous 0 1, 1⟩, ⟨"c", .categorical [0, 1], 1⟩],
    [smallDesc "d" [3, 4], contDesc "x" 0 1, { name := some "c", type := some "categorical", domain := some (.flat [0, 1]) }],
    [⟨"d", .discrete [3, 4], 0, [0]⟩, ⟨"x", .continuous 0 1, 1, [1]⟩, ⟨"c", .categorical [0, 1], 2, [2, 3]⟩],
    some [{ constraint := some fun r => .ok (r.getD 1 0 + r.getD 0 0 - 4) }]⟩

theorem orderSp_arranged : Arranged [2, 0, 1] orderSp orderSp' := by
  refine ⟨⟨orderSp.config, orderSp.constraints, rfl⟩, ⟨orderSp'.config, orderSp'.constraints, rfl⟩, rfl, rfl, ?_, by simp [orderSp, Space.kinds],
    by decide, rfl, .some (.cons ?_ .nil)⟩
  · intro k hk
    simp only [orderSp, Space.kinds, List.map_cons, List.map_nil, List.mem_cons, List.not_mem_nil, or_false] at hk
    rcases hk with rfl | rfl | rfl <;> simp [NonEmptyDom]
  · intro x hx
    obtain ⟨a, b, c, rfl⟩ := List.length_eq_three.1 hx
    rfl

/-- The order of rows and of model columns. -/
example : arrange [2, 0, 1] [(1 / 2 : ℚ), 1, 3] = [3, 1 / 2, 1] ∧
    arrangeCols [2, 0, 1] orderSp.kinds [1 / 2, 0, 1, 3] = [3, 1 / 2, 0, 1] ∧
    orderSp.unzipInputs [[1 / 2, 1, 3]] = .ok [[1 / 2, 0, 1, 3]] ∧
    orderSp'.unzipInputs [[3, 1 / 2, 1]] = .ok [[3, 1 / 2, 0, 1]] := by
  refine ⟨by decide +kernel, by decide +kernel, by decide +kernel, by decide +kernel⟩

/-- Draws for the first problem, and the corresponding ones for the second. -/
def orderDraws (σ : List Nat) : DesignOracle :=
  { draws := fun t => ⟨fun _ _ => 0, fun i r => σ.getD i 0 + r + t, fun _ r => 1 / (r + 2)⟩
    lhs := fun r _ => 1 / (r + 2), sobol := fun _ k => if k = 0 then 1 / 4 else 3 / 4, fuel := 4 }

theorem orderDraws_same : SameDraws [2, 0, 1] orderSp.kinds (orderDraws [0, 1, 2]) (orderDraws [2, 0, 1]) := by
  refine ⟨rfl, fun t r i' i hi => ?_, fun t r i' i lo hi h1 h2 => rfl, fun r i' i lo hi h1 h2 => rfl⟩
  have : i' < 3 := by
    have := (List.getElem?_eq_some_iff.1 hi).1
    simpa using this
  rcases i' with _ | _ | _ | i' <;> simp at hi <;> (subst hi; rfl)

example : initialDesign "random" orderSp (orderDraws [0, 1, 2]) 2 = .ok [[1 / 2, 1, 3], [1 / 3, 1, 3]] ∧
    initialDesign "random" orderSp' (orderDraws [2, 0, 1]) 2 = .ok [[3, 1 / 2, 1], [3, 1 / 3, 1]] := by
  constructor <;> decide +kernel

/-- Two variables, in both orders. -/
def pairSp (k l : Kind) (dk dl : Desc) : Space :=
  ⟨[dk, dl], [⟨dk.name.getD "", k, 1⟩, ⟨dl.name.getD "", l, 1⟩], [dk, dl],
    [⟨dk.name.getD "", k, 0, [0]⟩, ⟨dl.name.getD "", l, 1, [1]⟩], none⟩

theorem pair_arranged {k l : Kind} {dk dl : Desc} (h : designSpace [dk, dl] none = .ok (pairSp k l dk dl))
    (h' : designSpace [dl, dk] none = .ok (pairSp l k dl dk)) (hk : NonEmptyDom k) (hl : NonEmptyDom l)
    (bk : k.isBandit = false) (bl : l.isBandit = false) : Arranged [1, 0] (pairSp k l dk dl) (pairSp l k dl dk) := by
  refine ⟨⟨_, _, h⟩, ⟨_, _, h'⟩, ?_, ?_, ?_, by simp [pairSp, Space.kinds], by simp [pairSp, Space.kinds]; decide, rfl, .none⟩
  · simp [pairSp, Space.hasBandit, bk, bl]
  · simp [pairSp, Space.hasBandit, bk, bl]
  · intro q hq
    simp only [pairSp, Space.kinds, List.map_cons, List.map_nil, List.mem_cons, List.not_mem_nil, or_false] at hq
    rcases hq with rfl | rfl
    · exact hk
    · exact hl

/-- A Sobol design has its columns in a fixed order; a grid has its rows in an order that depends on the
order of the variables. -/
theorem C157_designs_counterexample : ∃ (σ : List Nat) (sp sp' : Space) (o o' : DesignOracle),
    Arranged σ sp sp' ∧ SameDraws σ sp.kinds o o' ∧ o'.sobol = o.sobol ∧
      (∃ m m', initialDesign "sobol" sp o 1 = .ok m ∧ initialDesign "sobol" sp' o' 1 = .ok m' ∧
        m' ≠ m.map (arrange σ)) ∧
      ∃ m m', initialDesign "grid" sp o 4 = .ok m ∧ initialDesign "grid" sp' o' 4 = .ok m' ∧
        m' ≠ m.map (arrange σ) := by
  refine ⟨[1, 0], pairSp (.continuous 0 1) (.continuous 0 2) (contDesc "a" 0 1) (contDesc "b" 0 2),
    pairSp (.continuous 0 2) (.continuous 0 1) (contDesc "b" 0 2) (contDesc "a" 0 1), orderDraws [0, 1],
    orderDraws [1, 0], pair_arranged rfl rfl (by simp [NonEmptyDom]) (by simp [NonEmptyDom]) rfl rfl,
    ⟨rfl, fun t r i' i hi => ?_, fun t r i' i lo hi h1 h2 => rfl, fun r i' i lo hi h1 h2 => rfl⟩, rfl,
    ⟨[[1 / 4, 3 / 2]], [[1 / 2, 3 / 4]], by decide +kernel, by decide +kernel, by decide +kernel⟩,
    ⟨[[0, 0], [0, 2], [1, 0], [1, 2]], [[0, 0], [0, 1], [2, 0], [2, 1]], by decide +kernel, by decide +kernel,
      by decide +kernel⟩⟩
  have : i' < 2 := by
    have := (List.getElem?_eq_some_iff.1 hi).1
    simpa using this
  rcases i' with _ | _ | _ | i' <;> simp at hi <;> (subst hi; rfl)

/-- The sum of the columns as acquisition, and draws in an order. -/
def orderEnv (σ : List Nat) : EvalEnv :=
  { smallEnv with oracle := ⟨{ smallOracle with design := orderDraws σ }, { smallOracle with design := orderDraws σ }⟩
                  acqLP := fun _ => { smallOracle with design := orderDraws σ } }

/-- Samples without repetition are sorted: random and Thompson batches with duplicate logic
depend on the order. -/
theorem C157_unique_counterexample : ∃ (σ : List Nat) (sp sp' : Space) (env env' : EvalEnv), Arranged σ sp sp' ∧
    CorrEnv sp.modelDim sp.modelDim (arrangeCols σ sp.kinds) (arrangeCols σ sp.kinds) (SameDraws σ sp.kinds) env env' ∧
      (∃ m m', computeNext (.random 2) env sp none true [] none none = .ok m ∧
        computeNext (.random 2) env' sp' none true [] none none = .ok m' ∧ m' ≠ m.map (arrange σ)) ∧
      ∃ m m', computeNext (.thompson 1) env sp none true [] none none = .ok m ∧
        computeNext (.thompson 1) env' sp' none true [] none none = .ok m' ∧ m' ≠ m.map (arrange σ) := by
  have ha : Arranged [1, 0] (pairSp (.discrete [0, 1, 2]) (.discrete [0, 1, 2]) (smallDesc "a" [0, 1, 2]) (smallDesc "b" [0, 1, 2]))
      (pairSp (.discrete [0, 1, 2]) (.discrete [0, 1, 2]) (smallDesc "b" [0, 1, 2]) (smallDesc "a" [0, 1, 2])) :=
    pair_arranged rfl rfl (by simp [NonEmptyDom]) (by simp [NonEmptyDom]) rfl rfl
  have hs : ∀ ks, SameDraws [1, 0] ks (orderDraws [0, 1]) (orderDraws [1, 0]) := by
    intro ks
    refine ⟨rfl, fun t r i' i hi => ?_, fun t r i' i lo hi h1 h2 => rfl, fun r i' i lo hi h1 h2 => rfl⟩
    rcases i' with _ | _ | i' <;> simp at hi
    all_goals subst hi; rfl
  have ho : ∀ n ks (E : Vec → Vec), CorrOracle n n E E (SameDraws [1, 0] ks)
      { smallOracle with design := orderDraws [0, 1] } { smallOracle with design := orderDraws [1, 0] } := by
    intro n ks E
    refine ⟨hs ks, rfl, fun X _ => by simp [smallOracle], fun k g g' x hx hg => ⟨rfl, fun y hy => ?_⟩⟩
    cases hy
    exact hx
  refine ⟨[1, 0], _, _, orderEnv [0, 1], orderEnv [1, 0], ha,
    ⟨rfl, fun x hx => ?_, ho _ _ _, ho _ _ _, rfl, rfl, fun s x _ hx => ?_, fun k => ho _ _ _, rfl, rfl⟩,
    ⟨[[0, 1], [1, 2]], [[1, 0], [0, 2]], by decide +kernel, by decide +kernel, by decide +kernel⟩,
    ⟨[[0, 1]], [[0, 2]], by decide +kernel, by decide +kernel, by decide +kernel⟩⟩
  · exact congrArg Except.ok (ha.arrangeCols_perm x).sum_eq
  · exact congrArg Except.ok (ha.arrangeCols_perm x).sum_eq

end GPyOpt.Props
