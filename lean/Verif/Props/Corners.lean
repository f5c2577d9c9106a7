import Verif.Props.Design

/-!
# Corner cases of C07 and C15
-/

namespace GPyOpt.Props

open GPyOpt Spec

/-- A variable that has no value. -/
def NoValue : Kind → Prop
  | .discrete vals => vals = []
  | .categorical labels => labels = []
  | _ => False

theorem fillRow_noValue (d : Draw) (r : Nat) (vs : List EVar) :
    NoBandit (vs.map EVar.kind) → (∃ v ∈ vs, NoValue v.kind) → ∀ (pre rest : Vec), rest.length = vs.length →
      fillRow d r pre.length vs (pre ++ rest) = .error .valueError := by
  induction vs with
  | nil =>
    intro _ h
    simp at h
  | cons v vs ih =>
    intro hnb hex pre rest hl
    cases rest with
    | nil => simp at hl
    | cons x rest =>
      have hl' : rest.length = vs.length := by simpa using hl
      have hnb' : NoBandit (vs.map EVar.kind) := fun k hk => hnb k (by simp at hk ⊢; tauto)
      have step : (∃ v ∈ vs, NoValue v.kind) → ∀ y, fillRow d r (pre.length + 1) vs (pre ++ y :: rest)
          = .error .valueError := by
        intro hv y
        have := ih hnb' hv (pre ++ [y]) rest hl'
        simpa using this
      have hsplit : NoValue v.kind ∨ ∃ v ∈ vs, NoValue v.kind := by
        obtain ⟨w, hw, hwv⟩ := hex
        rcases List.mem_cons.1 hw with rfl | hw
        · exact .inl hwv
        · exact .inr ⟨w, hw, hwv⟩
      unfold fillRow
      cases hk : v.kind with
      | continuous lo hi =>
        rw [hk] at hsplit
        exact step (hsplit.resolve_left (by simp [NoValue])) x
      | discrete vals =>
        rw [hk] at hsplit
        by_cases he : vals = []
        · subst he
          simp [chooseFrom]
        · obtain ⟨y, hy, hc⟩ := chooseFrom_ok he (d.choice pre.length r)
          simp only [hc, setCol_append, step (hsplit.resolve_left he)]
      | categorical labels =>
        rw [hk] at hsplit
        by_cases he : labels = []
        · subst he
          simp [chooseFrom]
        · obtain ⟨y, hy, hc⟩ := chooseFrom_ok he (d.choice pre.length r)
          simp only [hc, setCol_append, step (hsplit.resolve_left he)]
      | bandit arms => exact absurd hk (hnb v.kind (by simp) arms)

/-- **C15 (no values).** If a discrete or categorical variable has no values, every design of at least one row of a space
without constraints is refused with a `ValueError`. -/
theorem C15_no_values {config : List Desc} {sp : Space}
    (h : designSpace config none = .ok sp) (hb : sp.hasBandit = false) (k : Kind) (hk : k ∈ kindsOf config)
    (hv : NoValue k) (o : DesignOracle) (n : Nat) :
    ∀ name ∈ ["random", "latin", "sobol"], initialDesign name sp o (n + 1) = .error .valueError := by
  obtain ⟨_, _, _, _, _, _, hc⟩ := designSpace_ok h
  rw [← space_kinds_eq h] at hk
  obtain ⟨v, hv1, hv2⟩ := List.mem_map.1 hk
  subst hv2
  have hrow : ∀ d design r, designRow sp d design r = .error .valueError := by
    intro d design r
    have := fillRow_noValue d r sp.expanded (space_noBandit h hb) ⟨v, hv1, hv⟩ [] (emptyRow sp d r) (by
      simp only [emptyRow, List.length_map, List.length_range]
      rw [dimensionality_eq h hb])
    simp only [List.nil_append, List.length_nil] at this
    simp only [designRow, this]
  have hmap : ∀ d design, mapE (designRow sp d design) (List.range (n + 1)) = .error .valueError := by
    intro d design
    rw [List.range_succ_eq_map]
    simp [mapE, hrow]
  intro name hname
  simp only [List.mem_cons, List.not_mem_nil, or_false] at hname
  rcases hname with rfl | rfl | rfl <;>
    simp [initialDesign, randomDesign, randomNoConstr, latinDesign, sobolDesign, Space.hasConstraints, hc, hmap]

/-- The hypotheses are met: an empty domain is accepted by the space. -/
example : ∃ sp, designSpace [{ type := some "discrete", domain := some (.flat []) }] none = .ok sp ∧
    sp.hasBandit = false ∧ .discrete [] ∈ kindsOf [{ type := some "discrete", domain := some (.flat []) }] :=
  ⟨_, rfl, by decide, by decide⟩

theorem mem_cartesian {ss : List (List ℚ)} {r : Vec} :
    r ∈ cartesian ss ↔ List.Forall₂ (fun x s => x ∈ s) r ss := by
  induction ss generalizing r with
  | nil => simp [cartesian]
  | cons s ss ih =>
    simp only [cartesian, List.mem_flatMap, List.mem_map]
    constructor
    · rintro ⟨a, ha, t, ht, rfl⟩
      exact .cons ha (ih.1 ht)
    · intro h
      cases h with
      | cons h1 h2 => exact ⟨_, h1, _, ih.2 h2, rfl⟩

theorem cartesian_nodup {ss : List (List ℚ)} (h : ∀ s ∈ ss, s.Nodup) : (cartesian ss).Nodup := by
  induction ss with
  | nil => simp [cartesian]
  | cons s ss ih =>
    rw [cartesian, List.nodup_flatMap]
    refine ⟨fun a _ => (ih fun t ht => h t (by simp [ht])).map fun x y hxy => by simpa using hxy, ?_⟩
    refine (h s (by simp)).imp ?_
    intro a b hab
    simp only [Function.onFun, List.disjoint_left, List.mem_map]
    rintro r ⟨t, -, rfl⟩ ⟨t', -, he⟩
    simp only [List.cons.injEq] at he
    exact hab he.1.symm

/-- **C07 (discrete grid).** The rows of `get_discrete_grid` are exactly the combinations of values of the discrete
variables, in the order of the description; each occurs once if no domain repeats a value. -/
theorem C07_discrete_grid {config : List Desc} {cs : Option (List ConstrDict)} {sp : Space}
    (h : designSpace config cs = .ok sp) :
    let doms := (kindsOf config).filterMap fun k => match k with | .discrete vals => some vals | _ => none
    (∀ r, r ∈ sp.getDiscreteGrid ↔ List.Forall₂ (fun x s => x ∈ s) r doms) ∧
      ((∀ s ∈ doms, s.Nodup) → sp.getDiscreteGrid.Nodup) := by
  intro doms
  have key : sp.getDiscreteGrid = cartesian doms := by
    unfold Space.getDiscreteGrid
    congr 1
    simp only [doms, ← space_kinds_eq h, space_kinds h]
    induction sp.vars with
    | nil => rfl
    | cons v vs ih =>
      simp only [List.flatMap_cons, List.filterMap_append, ih]
      congr 1
      cases hk : v.kind <;> simp [Kind.isBandit]
  rw [key]
  exact ⟨fun r => mem_cartesian, cartesian_nodup⟩

example : (designSpace [{ name := some "a", type := some "discrete", domain := some (.flat [0, 1]) },
    { domain := some (.flat [0, 1]) },
    { name := some "b", type := some "discrete", domain := some (.flat [3, 5, 7]), dimensionality := some 1 }] none).map
      Space.getDiscreteGrid = .ok [[0, 3], [0, 5], [0, 7], [1, 3], [1, 5], [1, 7]] := by decide +kernel

/-- **C07 (subspaces).** `get_subspace` of a list of model columns has, in order, exactly the variables whose first recorded
column is in the list. -/
theorem C07_subspace {config : List Desc} {cs : Option (List ConstrDict)} {sp : Space}
    (h : designSpace config cs = .ok sp) (hb : sp.hasBandit = false) (hpos : ∀ k ∈ kindsOf config, 0 < width k)
    (dims : List Nat) :
    sp.getSubspace dims = sp.expanded.filter fun v => v.idxModel.head?.any fun c => decide (c ∈ dims) := by
  have hnb := space_noBandit h hb
  have hk := space_kinds_eq h
  -- the columns of the variable at position `i`
  have hlay := C07_layout h hb
  rw [← hk] at hlay hpos
  unfold Space.getSubspace
  have gen : ∀ (pre rest : List EVar), sp.expanded = pre ++ rest →
      getSubspaceFrom dims ((pre.map EVar.kind).map width).sum rest =
        rest.filter fun v => v.idxModel.head?.any fun c => decide (c ∈ dims) := by
    intro pre rest
    induction rest generalizing pre with
    | nil => intro _; rfl
    | cons v rest ih =>
      intro hsp
      have hv : sp.expanded[pre.length]? = some v := by rw [hsp]; simp
      obtain ⟨-, -, h3⟩ := hlay pre.length v hv
      have hkind : v.kind ∈ sp.kinds := by
        unfold Space.kinds
        exact List.mem_map_of_mem (List.mem_of_getElem? hv)
      have htake : sp.kinds.take pre.length = pre.map EVar.kind := by
        unfold Space.kinds
        rw [hsp, List.map_append, List.take_left' (by simp)]
      rw [htake] at h3
      have hw : v.kind.dimInModel = width v.kind := by
        cases hkd : v.kind with
        | bandit arms => exact absurd hkd (hnb v.kind hkind arms)
        | _ => rfl
      have hhead : v.idxModel.head? = some ((pre.map EVar.kind).map width).sum := by
        rw [h3]
        obtain ⟨m, hm⟩ : ∃ m, width v.kind = m + 1 := ⟨width v.kind - 1, by have := hpos _ hkind; omega⟩
        rw [hm, List.range_succ_eq_map]
        simp
      have := ih (pre ++ [v]) (by rw [hsp]; simp)
      simp only [List.map_append, List.map_cons, List.map_nil, List.sum_append, List.sum_cons, List.sum_nil,
        Nat.add_zero] at this
      simp only [getSubspaceFrom, hw, this, List.filter_cons, hhead, Option.any_some]
      simp
  have := gen [] sp.expanded rfl
  simpa using this

/-- The hypotheses are met, and the second column of a categorical variable does not select it. -/
example : (designSpace exConfig none).map (fun sp => ((sp.getSubspace [1, 3]).map EVar.idxModel,
    (sp.getSubspace [4]).length)) = .ok ([[1], [3, 4, 5]], 0) := by
  decide +kernel

end GPyOpt.Props
