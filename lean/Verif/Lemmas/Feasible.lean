import Verif.Spec.Feasible
import Verif.Lemmas.CorrRun
import Verif.Props.Space
import Verif.Props.Descriptions

/-! # Lemmas about constraints with the same feasible set -/

namespace GPyOpt

open Spec Props

theorem designSpace_constraints {config : List Desc} {cs cs' : Option (List ConstrDict)} {sp sp' : Space}
    (h : designSpace config cs = .ok sp) (h' : designSpace config cs' = .ok sp') :
    sp' = { sp with constraints := cs'.map (List.map fixConstr) } := by
  unfold designSpace at h h'
  cases h1 : translateSpace config with
  | error e => simp [h1] at h
  | ok vars =>
    cases h2 : expandConfig config with
    | error e => simp [h1, h2] at h
    | ok ex =>
      simp only [h1, h2, Except.ok.injEq] at h h'
      subst h h'
      rfl

theorem constraintOf_fix (d : ConstrDict) : constraintOf (fixConstr d) = constraintOf d := by
  obtain ⟨a, b⟩ := d
  cases b <;> rfl

theorem canEvaluate_fix {n : Nat} {cs : Option (List ConstrDict)} (h : CanEvaluate n cs) :
    CanEvaluate n (cs.map (List.map fixConstr)) := by
  intro l hl d hd
  cases cs with
  | none => cases hl
  | some l0 =>
    cases hl
    obtain ⟨d0, h0, rfl⟩ := List.mem_map.1 hd
    rw [constraintOf_fix]
    exact h l0 rfl d0 h0

theorem meets_fix {cs : Option (List ConstrDict)} {x : Vec} :
    Meets (cs.map (List.map fixConstr)) x ↔ Meets cs x := by
  cases cs with
  | none => simp [Meets]
  | some l => simp [Meets, Feasible, constraintOf_fix]

theorem Spec.SameFeasible.fix {n : Nat} {cs cs' : Option (List ConstrDict)} (h : SameFeasible n cs cs') :
    SameFeasible n (cs.map (List.map fixConstr)) (cs'.map (List.map fixConstr)) :=
  ⟨canEvaluate_fix h.eval, canEvaluate_fix h.eval', fun x hx => by rw [meets_fix, meets_fix]; exact h.meets x hx⟩

open Classical in
/-- The indicator of constraints that can be evaluated. -/
theorem indicator_meets {config : List Desc} {cs : Option (List ConstrDict)} {sp : Space}
    (h : designSpace config cs = .ok sp) {n : Nat} (he : CanEvaluate n cs) {X : Mat}
    (hX : ∀ r ∈ X, r.length = n) :
    sp.indicatorConstraints X = .ok (X.map fun x => if Meets cs x then 1 else 0) := by
  cases cs with
  | none =>
    obtain ⟨_, _, _, _, _, _, hcs0⟩ := designSpace_ok h
    simp [Space.indicatorConstraints, hcs0, Meets]
  | some l =>
    obtain ⟨_, h1, -⟩ := designSpace_ok h
    obtain ⟨sp0, h0⟩ : ∃ sp0, designSpace config none = .ok sp0 := by
      unfold designSpace at h ⊢
      rw [h1] at h ⊢
      cases h2 : expandConfig config with
      | error e => simp [h2] at h
      | ok ex => exact ⟨_, rfl⟩
    obtain ⟨⟨w, hw⟩, -⟩ := C11_indicator_total h h0 X fun c hc => by
      obtain ⟨f, hf, hv⟩ := he l rfl c hc
      exact ⟨f, hf, fun r hr => hv r (hX r hr)⟩
    obtain ⟨hl, hi⟩ := C11_indicator h X w hw
    rw [hw]
    congr 1
    apply List.ext_getElem?
    intro i
    rw [List.getElem?_map]
    cases hr : X[i]? with
    | none =>
      rw [List.getElem?_eq_none_iff] at hr
      rw [Option.map_none, List.getElem?_eq_none_iff]
      omega
    | some r =>
      rcases hi i r hr with ⟨g1, g2⟩ | ⟨g1, c, hc, f, v, g2, g3, g4⟩
      · rw [g1]
        have : Meets (some l) r := by rintro _ ⟨⟩; exact g2
        simp [this]
      · rw [g1]
        have : ¬ Meets (some l) r := by
          intro hm
          obtain ⟨f', v', k1, k2, k3⟩ := hm l rfl c hc
          rw [g2] at k1; cases k1
          rw [g3] at k2; cases k2
          exact absurd k3 (not_le.2 g4)
        simp [this]

theorem Spec.SameFeasible.indicator {config : List Desc} {cs cs' : Option (List ConstrDict)} {sp sp' : Space}
    (h : designSpace config cs = .ok sp) (h' : designSpace config cs' = .ok sp') {n : Nat}
    (hf : SameFeasible n cs cs') {X : Mat} (hX : ∀ r ∈ X, r.length = n) :
    sp'.indicatorConstraints X = sp.indicatorConstraints X := by
  classical
  rw [indicator_meets h hf.eval hX, indicator_meets h' hf.eval' hX]
  congr 1
  exact List.map_congr_left fun x hx => by simp only [hf.meets x (hX x hx)]

theorem randomNoConstr_length {sp : Space} {d : Draw} {n : Nat} {X : Mat} (h : randomNoConstr sp d n = .ok X) :
    X.length = n ∧ ∀ r ∈ X, r.length = sp.dimensionality := by
  unfold randomNoConstr at h
  refine ⟨by rw [mapE_length h, List.length_range], ?_⟩
  rw [mapE_eq_ok] at h
  intro r hr
  obtain ⟨i, -, hi⟩ := forall₂_mem_right h hr
  unfold designRow at hi
  split at hi
  · cases hi
  rename_i row hrow
  have h1 := fillRow_length hrow
  have h2 : (emptyRow sp d i).length = sp.dimensionality := by simp [emptyRow]
  unfold putContinuous at hi
  split_ifs at hi
  · split at hi
    · cases hi
    · rw [scatter_length hi, h1, h2]
  · cases hi
    rw [h1, h2]

theorem selectValid_ones (X : Mat) : selectValid X (X.map fun _ => 1) = X := by
  induction X with
  | nil => rfl
  | cons x X ih =>
    unfold selectValid at ih ⊢
    simp only [List.map_cons, List.zip_cons_cons, List.filterMap_cons, if_true, ih]

/-- If every sample satisfies the constraints, the first round of the rejection loop is the design. -/
theorem randomDesign_ones {sp : Space}
    (h1 : ∀ X : Mat, (∀ r ∈ X, r.length = sp.dimensionality) →
      sp.indicatorConstraints X = .ok (X.map fun _ => 1)) (ds : Nat → Draw) {fuel : Nat} (hf : 1 ≤ fuel) (n : Nat) :
    randomDesign sp ds fuel n = randomNoConstr sp (ds 0) n := by
  unfold randomDesign
  split_ifs
  · obtain ⟨fuel, rfl⟩ : ∃ k, fuel = k + 1 := ⟨fuel - 1, by omega⟩
    unfold constrLoop
    by_cases hn : n = 0
    · subst hn
      simp [randomNoConstr]
    · rw [if_pos (by simp only [List.length_nil]; omega)]
      simp only
      cases hX : randomNoConstr sp (ds 0) n with
      | error e => rfl
      | ok X =>
        obtain ⟨hl, hr⟩ := randomNoConstr_length hX
        simp only [h1 X hr, selectValid_ones, List.nil_append]
        unfold constrLoop
        rw [if_neg (by omega), ← hl, List.take_length]
  · rfl

theorem constrLoop_same {sp : Space} {k : Option (List ConstrDict)}
    (hI : ∀ X : Mat, (∀ r ∈ X, r.length = sp.dimensionality) →
      ({ sp with constraints := k } : Space).indicatorConstraints X = sp.indicatorConstraints X)
    (n : Nat) (ds : Nat → Draw) (fuel : Nat) : ∀ (round : Nat) (m : Mat),
    constrLoop { sp with constraints := k } n ds fuel round m = constrLoop sp n ds fuel round m := by
  induction fuel with
  | zero => intro round m; unfold constrLoop; rfl
  | succ fuel ih =>
    intro round m
    unfold constrLoop
    split_ifs
    · have : randomNoConstr { sp with constraints := k } (ds round) n = randomNoConstr sp (ds round) n := rfl
      rw [this]
      cases hX : randomNoConstr sp (ds round) n with
      | error e => rfl
      | ok X =>
        simp only [hI X (randomNoConstr_length hX).2]
        cases sp.indicatorConstraints X with
        | error e => rfl
        | ok w => exact ih _ _
    · rfl

/-- Designs of spaces whose constraints have the same indicator. -/
theorem initialDesign_same {sp : Space} {k : Option (List ConstrDict)}
    (hI : ∀ X : Mat, (∀ r ∈ X, r.length = sp.dimensionality) →
      ({ sp with constraints := k } : Space).indicatorConstraints X = sp.indicatorConstraints X)
    (name : String) (o : DesignOracle) (n : Nat)
    (hs : k.isSome = sp.constraints.isSome ∨ name = "random" ∧ 1 ≤ o.fuel) :
    initialDesign name { sp with constraints := k } o n = initialDesign name sp o n := by
  by_cases hk : k.isSome = sp.constraints.isSome
  · have hc : ({ sp with constraints := k } : Space).hasConstraints = sp.hasConstraints := hk
    unfold initialDesign
    split_ifs
    · unfold randomDesign
      rw [hc]
      split_ifs
      · exact constrLoop_same hI n o.draws o.fuel 0 []
      · rfl
    · unfold sobolDesign
      rw [hc]
      rfl
    · unfold gridDesign
      rw [hc]
      rfl
    · unfold latinDesign
      rw [hc]
      rfl
    · rfl
  · obtain ⟨rfl, hf⟩ := hs.resolve_left hk
    unfold initialDesign
    simp only [if_true]
    have ones : ∀ X : Mat, (∀ r ∈ X, r.length = sp.dimensionality) →
        sp.indicatorConstraints X = .ok (X.map fun _ => 1) := by
      intro X hX
      cases hc : sp.constraints with
      | none => simp [Space.indicatorConstraints, hc]
      | some l =>
        rw [← hI X hX]
        cases k with
        | none => simp [Space.indicatorConstraints]
        | some l' => exact absurd (by rw [hc]; rfl) hk
    rw [randomDesign_ones (fun X hX => by rw [hI X hX]; exact ones X hX) _ hf, randomDesign_ones ones _ hf]
    rfl

theorem keep_length {α β : Type} (p : Nat → Bool) : ∀ (l : List α) (m : List β) (s : Nat), l.length = m.length →
    (keep p s l).length = (keep p s m).length := by
  intro l
  induction l with
  | nil =>
    intro m s h
    cases m with
    | nil => rfl
    | cons b m => simp at h
  | cons a l ih =>
    intro m s h
    cases m with
    | nil => simp at h
    | cons b m =>
      simp only [keep]
      split_ifs
      · simp [ih m (s + 1) (by simpa using h)]
      · exact ih m (s + 1) (by simpa using h)

/-- Samples of spaces whose constraints have the same feasible set. -/
theorem anchorSamples_same {config : List Desc} {cs cs' : Option (List ConstrDict)} {sp sp' : Space}
    (h : designSpace config cs = .ok sp) (h' : designSpace config cs' = .ok sp') (hb : sp.hasBandit = false)
    {context : Option Context} {c : Ctx} (hc : contextManager sp context = .ok c)
    (hf : SameFeasible c.nocontextIndexObj.length cs cs') (unique : Bool) (t : String) (n : Nat) (o : DesignOracle)
    (hs : cs'.isSome = cs.isSome ∨ t = "random" ∧ 1 ≤ o.fuel) :
    anchorSamples sp' (some c) unique t n o = anchorSamples sp (some c) unique t n o := by
  have e := designSpace_constraints h h'
  obtain ⟨_, -, -, -, -, -, hcs⟩ := designSpace_ok h
  obtain ⟨_, -, -, -, -, -, hcs'⟩ := designSpace_ok h'
  obtain ⟨vs, es, hcok⟩ := contextManager_ok hc
  obtain ⟨ds, spA, a1, a2, a3, a4⟩ := anchorSpace_ok h hb hc
  have hb' : sp'.hasBandit = false := by rw [e]; exact hb
  have hx' : sp'.configExpanded = sp.configExpanded := by rw [e]
  unfold anchorSamples
  have hlen : spA.dimensionality = c.nocontextIndexObj.length := by
    rw [dimensionality_eq a2 a3]
    have h1 : spA.expanded.length = spA.kinds.length := by simp [Space.kinds]
    have h2 := mapE_length (mapE_npGet_filter_range (freePos c) sp.configExpanded)
    have h3 : c.nocontextIndexObj = (List.range sp.configExpanded.length).filter (freePos c) := hcok.freeObj
    rw [h1, a4, h3, ← h2]
    exact keep_length _ _ _ _ (by simpa using (expandConfig_good h hb).length_eq.symm)
  simp only [a1]
  unfold anchorSpace at a1 ⊢
  simp only [hb, hb', hx', Bool.false_eq_true, if_false] at a1 ⊢
  cases hm : mapE (npGet sp.configExpanded) c.nocontextIndexObj with
  | error err => simp [hm] at a1
  | ok ds =>
    simp only [hm] at a1 ⊢
    cases hA : designSpace ds sp.constraints with
    | error err => simp [hA] at a1
    | ok spB =>
      simp only [hA, Except.ok.injEq, Prod.mk.injEq, and_true] at a1
      subst a1
      obtain ⟨spA', hA'⟩ : ∃ spA', designSpace ds sp'.constraints = .ok spA' := by
        unfold designSpace at hA ⊢
        cases h1 : translateSpace ds with
        | error err => simp [h1] at hA
        | ok vars =>
          cases h2 : expandConfig ds with
          | error err => simp [h1, h2] at hA
          | ok ex => exact ⟨_, rfl⟩
      have eA := designSpace_constraints hA hA'
      have hI : ∀ X : Mat, (∀ r ∈ X, r.length = spB.dimensionality) →
          spA'.indicatorConstraints X = spB.indicatorConstraints X := by
        intro X hX
        refine SameFeasible.indicator hA hA' (n := c.nocontextIndexObj.length) ?_ (by rwa [hlen] at hX)
        rw [hcs, hcs']
        exact hf.fix
      simp only [hA']
      obtain ⟨_, -, -, -, -, -, kcs⟩ := designSpace_ok hA
      have hd := initialDesign_same (sp := spB) (k := sp'.constraints.map (List.map fixConstr))
        (by rw [← eA]; exact hI) t o n (by
          rw [kcs, hcs, hcs']
          simpa using hs)
      rw [← eA] at hd
      rw [hd, eA, e]
      rfl

theorem contextLoop_same (sp : Space) (k : Option (List ConstrDict)) (c : Context) :
    contextLoop { sp with constraints := k } c = contextLoop sp c := by
  induction c with
  | nil => rfl
  | cons p c ih =>
    obtain ⟨name, x⟩ := p
    unfold contextLoop
    rw [ih]
    rfl

theorem contextManager_same (sp : Space) (k : Option (List ConstrDict)) (context : Option Context) :
    contextManager { sp with constraints := k } context = contextManager sp context := by
  unfold contextManager
  cases context with
  | none => rfl
  | some c =>
    simp only [contextLoop_same]
    rfl

theorem roundOptimum2d_length {config : List Desc} {cs : Option (List ConstrDict)} {sp : Space}
    (h : designSpace config cs = .ok sp) (hb : sp.hasBandit = false)
    (hne : ∀ k ∈ sp.kinds, NonEmptyDom k) {x : Vec} {m : Mat} (hx : x.length = sp.modelDim)
    (hm : sp.roundOptimum2d [x] = .ok m) : ∀ r ∈ m, r.length = sp.modelDim := by
  have hk := space_kinds_eq h
  by_cases hvar : kindsOf config = []
  · rw [← hk] at hvar
    have : sp.expanded = [] := by simpa [Space.kinds] using hvar
    simp [Space.roundOptimum2d, Space.roundOptimum, this, roundPieces, concatPieces] at hm
  · have hd : sp.modelDim = ((kindsOf config).map width).sum := by
      rw [← hk, modelDim_eq]
    obtain ⟨r, h1, h2⟩ := C03_round_in_domain h hb (by rw [← hk]; exact hne) hvar x (by rw [hx, hd])
    simp only [Space.roundOptimum2d] at hm
    rw [h1] at hm
    cases hm
    intro q hq
    rw [List.mem_singleton] at hq
    subst hq
    rw [hd]
    exact modelDomain_length (by rw [← hk]; exact space_noBandit h hb) h2

/-- Problems whose constraints have the same feasible set correspond. -/
theorem corr_same {config : List Desc} {cs cs' : Option (List ConstrDict)} {sp sp' : Space}
    (h : designSpace config cs = .ok sp) (h' : designSpace config cs' = .ok sp') (hb : sp.hasBandit = false)
    (hne : ∀ k ∈ sp.kinds, NonEmptyDom k)
    {context : Option Context} {c : Ctx} (hc : contextManager sp context = .ok c)
    (hf : SameFeasible c.nocontextIndexObj.length cs cs') :
    Corr sp c sp' c id id id (fun o o' => o' = o ∧ (cs'.isSome = cs.isSome ∨ 1 ≤ o.fuel))
      (fun _ t => cs'.isSome = cs.isSome ∨ t = "random") (fun _ => True) fun x => x.length = sp.modelDim := by
  have e := designSpace_constraints h h'
  refine ⟨hb, ?_, fun _ _ _ _ _ _ _ _ hX => Corr.samples_length hb hX, fun _ hx => hx, ?_, ?_, ?_, ?_,
    fun _ _ _ _ _ _ _ => trivial, ?_, ?_⟩
  · rintro unique t n o _ ht ⟨rfl, ho⟩
    rw [anchorSamples_same h h' hb hc hf unique t n _ (by tauto)]
    cases anchorSamples sp (some c) unique t n _ <;> simp
  · intro x hx
    simp only [id]
    cases x0NoContext (some c) x <;> simp
  · intro x hx
    rw [e]
    change c.expandVector sp x = _
    cases c.expandVector sp x <;> simp
  · intro x hx _
    rw [e]
    change sp.roundOptimum2d [x] = _
    cases sp.roundOptimum2d [x] <;> simp
  · intro x m hx _ hm
    exact roundOptimum2d_length h hb hne hx hm
  · intro m hm hl
    rw [e, List.map_id]
    change sp.zipInputs m = _
    cases sp.zipInputs m <;> simp
  · intro x y _ _ hxy
    exact hxy

end GPyOpt
