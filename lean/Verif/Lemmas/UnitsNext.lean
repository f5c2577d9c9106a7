import Verif.Lemmas.UnitsRun
import Verif.Lemmas.UnitsBatch
import Verif.Lemmas.Build

/-! Lemmas for other units of the variables (suggestions and descriptions). -/

namespace GPyOpt

open Spec

theorem vstack_ne_nil {m b : Mat} (h : vstack m = .ok b) : b ≠ [] := by
  unfold vstack at h
  split_ifs at h with h0
  cases h
  exact h0

theorem dedupBatch_ne_nil {sp : Space} {dm : DupMgr} {anchors : Py Mat} {x0 : Py (Option Vec)}
    {oa : Nat → Vec → Py Vec} {n : Nat} {b : Mat} (h : dedupBatch sp dm anchors x0 oa n = .ok b) : b ≠ [] := by
  unfold dedupBatch at h
  split at h
  · cases h
  · split at h
    · cases h
    · simp only at h
      split at h
      · cases h
      · split at h
        · cases h
        · exact vstack_ne_nil h

theorem lpLoop_ne_nil {opt : Nat → LPState → Py Vec} {c : ℚ × ℚ} : ∀ (todo k : Nat) (batch : Mat)
    (s : LPState) (tr : List LPState) {r : Mat × LPState × List LPState}, batch ≠ [] →
    lpLoop opt c todo k batch s tr = .ok r → r.1 ≠ [] := by
  intro todo
  induction todo with
  | zero => intro k batch s tr r hb h; simp only [lpLoop, Except.ok.injEq] at h; subst h; exact hb
  | succ todo ih =>
    intro k batch s tr r hb h
    simp only [lpLoop] at h
    split at h
    · cases h
    · exact ih _ _ _ _ (by simp) h

theorem lpBatch_ne_nil {opt : Nat → LPState → Py Vec} {consts : Py (ℚ × ℚ)} {n : Nat} {s : LPState}
    {r : Mat × LPState × List LPState} (h : lpBatch opt consts n s = .ok r) : r.1 ≠ [] := by
  unfold lpBatch at h
  simp only at h
  split at h
  · cases h
  · split_ifs at h
    · split at h
      · cases h
      · split at h
        · cases h
        · next e =>
          simp only [Except.ok.injEq] at h
          subst h
          have := lpLoop_ne_nil _ _ _ _ _ (List.cons_ne_nil _ _) e
          exact this
    · simp only [Except.ok.injEq] at h
      subst h
      simp

/-- An evaluator never returns an empty batch. -/
theorem computeBatch_ne_nil {ev : Evaluator} {env : EvalEnv} {sp : Space} {c : Ctx} {dup : Option DupMgr}
    {b : Mat} (h : computeBatch ev env sp c dup = .ok b) : b ≠ [] := by
  cases ev with
  | sequential =>
    simp only [computeBatch, sequentialBatch] at h
    split at h
    · cases h
    · cases h; simp
  | random n =>
    simp only [computeBatch, randomBatch] at h
    split at h
    · exact dedupBatch_ne_nil h
    · split at h
      · cases h
      · split at h
        · cases h
        · cases h; simp
  | thompson n =>
    simp only [computeBatch, thompsonBatch] at h
    split at h
    · exact dedupBatch_ne_nil h
    · split at h
      · cases h
      · split at h
        · cases h
        · exact vstack_ne_nil h
  | localPenalization n =>
    simp only [computeBatch] at h
    obtain ⟨r, hr, rfl⟩ := Except_map_eq_ok.1 h
    exact lpBatch_ne_nil hr

theorem modelToObjectiveFrom_length {x : Vec} : ∀ {vs : List EVar} {idx : Nat} {y : Vec},
    modelToObjectiveFrom x idx vs = .ok y → y.length = vs.length := by
  intro vs
  induction vs with
  | nil => intro idx y h; simp only [modelToObjectiveFrom, Except.ok.injEq] at h; subst h; rfl
  | cons v vs ih =>
    intro idx y h
    simp only [modelToObjectiveFrom] at h
    split at h
    · cases h
    · split at h
      · cases h
      · next e => cases h; simp [ih e]

theorem zipInputs_length {sp : Space} (hb : sp.hasBandit = false) {X m : Mat} (hX : X ≠ [])
    (h : sp.zipInputs X = .ok m) : ∀ r ∈ m, r.length = sp.expanded.length := by
  simp only [Space.zipInputs, hb, Bool.false_eq_true, if_false] at h
  obtain ⟨m0, h1, rfl⟩ := Except_map_eq_ok.1 h
  intro r hr
  have hne : m0 ≠ [] := by
    intro hn
    have := mapE_length h1
    simp [hn] at this
    exact hX (List.length_eq_zero_iff.1 this.symm)
  have hat : atleast2d m0 = m0 := by cases m0 with
    | nil => exact absurd rfl hne
    | cons _ _ => rfl
  rw [hat] at hr
  obtain ⟨x, -, hx⟩ := mapE_ok_mem h1 hr
  exact modelToObjectiveFrom_length hx

theorem computeNext_length {sp : Space} (hb : sp.hasBandit = false) {ev : Evaluator} {env : EvalEnv}
    {context : Option Context} {deDup : Bool} {X : Mat} {pending ignored : Option Mat} {m : Mat}
    (h : computeNext ev env sp context deDup X pending ignored = .ok m) :
    ∀ r ∈ m, r.length = sp.expanded.length := by
  unfold computeNext at h
  split at h
  · cases h
  · simp only at h
    split at h
    · cases h
    · next e => exact zipInputs_length hb (computeBatch_ne_nil e) h

variable {us : List (ℚ × ℚ)} {sp sp' : Space}

theorem optAny_conv (hp : ∀ u ∈ us, (0 : ℚ) < u.1) (hz : ∀ u ∈ us, u.2 = 0) (m : Option Mat) :
    optAny (m.map (List.map (convRow us))) = optAny m := by
  cases m with
  | none => rfl
  | some m => simp only [Option.map_some, optAny]; exact Spec.OtherUnits.npAny_pos hp hz m

theorem dupMgr_conv (hp : ∀ u ∈ us, (0 : ℚ) < u.1) (X : Mat) (pending ignored : Option Mat)
    (hz : (∀ u ∈ us, u.2 = 0) ∨ (pending = none ∧ ignored = none)) :
    dupMgr (X.map (convRow us)) (pending.map (List.map (convRow us))) (ignored.map (List.map (convRow us)))
      = convDup us (dupMgr X pending ignored) := by
  rcases hz with hz | ⟨rfl, rfl⟩
  · simp only [dupMgr, optAny_conv hp hz, convDup]
    have hg : ∀ m : Option Mat, (m.map (List.map (convRow us))).getD [] = (m.getD []).map (convRow us) := by
      intro m; cases m <;> rfl
    split_ifs <;> simp [hg]
  · rfl

theorem Spec.OtherUnits.positive (h : OtherUnits us sp sp') : ∀ u ∈ us, (0 : ℚ) < u.1 := by
  intro u hu
  have := h.units
  generalize sp.expanded.map EVar.kind = ks at this
  clear h
  induction this with
  | nil => cases hu
  | cons h1 _ ih =>
    rcases List.mem_cons.1 hu with rfl | hu
    · exact h1.1
    · exact ih hu

theorem Spec.OtherUnits.computeNext (h : OtherUnits us sp sp')
    (hn : sp'.expanded.map EVar.name = sp.expanded.map EVar.name) (ev : Evaluator) {env env' : EvalEnv}
    {context : Option Context} (hnd : ((context.getD []).map Prod.fst).Nodup)
    (hc : ∀ c, GPyOpt.contextManager sp context = .ok c →
      SameConstraints (pickUnits us c.nocontextIndexObj) sp.constraints sp'.constraints ∧
        SameEnv (colUnits us sp.kinds) c env env')
    (deDup : Bool) (X : Mat) (pending ignored : Option Mat)
    (hz : deDup = false ∨ (∀ u ∈ us, u.2 = 0) ∨
      (pending = none ∧ ignored = none ∧ ∀ n, ev ≠ .random n)) :
    computeNext ev env' sp' (context.map (convContext us sp)) deDup (X.map (convRow us))
        (pending.map (List.map (convRow us))) (ignored.map (List.map (convRow us)))
      = (computeNext ev env sp context deDup X pending ignored).map (List.map (convRow us)) := by
  unfold GPyOpt.computeNext
  have hcm := h.contextManager hn context
  cases e : GPyOpt.contextManager sp context with
  | error err => rw [hcm, e]; rfl
  | ok c =>
    rw [e] at hcm
    rw [hcm]
    obtain ⟨h1, h2⟩ := hc c e
    have hm : Managed us sp sp' c := ⟨⟨context, e, hnd⟩, ⟨_, hcm⟩, h1⟩
    have hd : (if deDup = true then some (dupMgr (X.map (convRow us)) (pending.map (List.map (convRow us)))
          (ignored.map (List.map (convRow us)))) else none)
        = (if deDup = true then some (dupMgr X pending ignored) else none).map (convDup us) := by
      cases deDup with
      | false => rfl
      | true =>
        simp only [if_true, Option.map_some]
        rw [dupMgr_conv h.positive]
        rcases hz with hz | hz | hz
        · cases hz
        · exact .inl hz
        · exact .inr ⟨hz.1, hz.2.1⟩
    simp only [Except.map]
    rw [hd, h.computeBatch hm h2 ev _ (by
      rcases hz with hz | hz | hz
      · right; subst hz; simp
      · right; intro _; exact hz
      · left; exact hz.2.2)]
    cases GPyOpt.computeBatch ev env sp c (if deDup = true then some (dupMgr X pending ignored) else none) with
    | error err => rfl
    | ok b => simp only [Except.map]; exact h.zipInputs b

/-! ## Descriptions -/

theorem conv_map_one (l : List ℚ) : l.map (conv (1, 0)) = l := by
  conv_rhs => rw [← List.map_id l]
  apply List.map_congr_left
  intro x _
  simp [conv]

/-- A variable in another unit. -/
def convVar (u : ℚ × ℚ) (v : Var) : Var := { v with kind := convKind u v.kind }

theorem createVariable_conv {u : ℚ × ℚ} {name type : String} {dom : Dom} {dim : Option Nat} {v : Var}
    (hb : type ≠ "bandit") (hcat : type = "categorical" → u = (1, 0))
    (h : createVariable name type dom dim = .ok v) :
    createVariable name type (convDom u dom) dim = .ok (convVar u v) ∧
      v.dimensionality = dim.getD 1 ∧ v.kind.isBandit = false ∧
      ((∃ l, v.kind = .categorical l) → type = "categorical") := by
  unfold createVariable at h ⊢
  split_ifs at h ⊢ with h1 h2 h3
  · cases dom with
    | rows a => simp at h
    | flat vals =>
      cases vals with
      | nil => simp at h
      | cons a vals =>
        cases vals with
        | nil => simp at h
        | cons b vals => simp at h; subst h; simp [convDom, convVar, convKind, Kind.isBandit]
  · cases dom with
    | rows a => simp at h
    | flat vals => simp at h; subst h; simp [convDom, convVar, convKind, Kind.isBandit]
  · cases dom with
    | rows a => simp at h
    | flat vals =>
      have := hcat h3
      subst this
      simp at h; subst h
      simp [convDom, convVar, convKind, Kind.isBandit, conv_map_one, h3]

/-- What matters of a variable: its copies and its kind. -/
theorem translateFrom_conv {ws : List (ℚ × ℚ)} {ds : List Desc} (hw : List.Forall₂ DescUnit ws ds) :
    ∀ {i : Nat} {vs : List Var}, translateFrom i ds = .ok vs →
      translateFrom i (List.zipWith convDesc ws ds) = .ok (List.zipWith convVar ws vs) ∧
      List.Forall₂ (fun w v => 0 < w.1 ∧ v.kind.isBandit = false ∧
        ((∃ l, v.kind = .categorical l) → w = ((1 : ℚ), (0 : ℚ)))) ws vs ∧
      vs.map Var.dimensionality = ds.map fun d => d.dimensionality.getD 1 := by
  induction hw with
  | nil => intro i vs h; simp only [translateFrom, Except.ok.injEq] at h; subst h; exact ⟨rfl, .nil, rfl⟩
  | @cons w d ws ds h1 _ ih =>
    intro i vs h
    obtain ⟨dom, v, vs', e1, e2, e3, rfl⟩ := translateFrom_cons_ok.1 h
    obtain ⟨i1, i2, i3⟩ := ih e3
    have hty : d.type.getD "continuous" ≠ "bandit" := by
      have := h1.2.1
      cases ht : d.type with
      | none => simp
      | some t => rw [ht] at this; simpa using this
    have hcat : d.type.getD "continuous" = "categorical" → w = (1, 0) := by
      intro hc
      apply h1.2.2
      cases ht : d.type with
      | none => rw [ht] at hc; simp at hc
      | some t => rw [ht] at hc; simpa using hc
    obtain ⟨j1, j2, j3, j4⟩ := createVariable_conv hty hcat e2
    refine ⟨translateFrom_cons_ok.2 ⟨convDom w dom, convVar w v, _, ?_, j1, i1, rfl⟩,
      .cons ⟨h1.1, j3, fun hl => hcat (j4 hl)⟩ i2, ?_⟩
    · simp [convDesc, e1]
    · simp [j2, i3]

theorem expandDesc_conv (w : ℚ × ℚ) (d : Desc) {l : List Desc} (h : expandDesc d = .ok l) :
    ∃ l', expandDesc (convDesc w d) = .ok l' := by
  unfold expandDesc at h ⊢
  simp only [convDesc]
  split at h
  · simp
  · simp
  · split at h
    · cases h
    · simp

theorem expandConfig_conv {ws : List (ℚ × ℚ)} {ds : List Desc} (hl : ws.length = ds.length) {l : List Desc}
    (h : expandConfig ds = .ok l) : ∃ l', expandConfig (List.zipWith convDesc ws ds) = .ok l' := by
  unfold expandConfig at h ⊢
  obtain ⟨m, hm, -⟩ := Except_map_eq_ok.1 h
  have : ∃ m', mapE expandDesc (List.zipWith convDesc ws ds) = .ok m' := by
    rw [mapE_eq_ok] at hm
    clear h
    induction hm generalizing ws with
    | nil => exact ⟨[], by simp⟩
    | @cons d l0 ds ls h1 _ ih =>
      cases ws with
      | nil => simp at hl
      | cons w ws =>
        obtain ⟨m', hm'⟩ := ih (ws := ws) (by simpa using hl)
        obtain ⟨l', hl'⟩ := expandDesc_conv w d h1
        exact ⟨l' :: m', mapE_cons_ok.2 ⟨l', m', hl', hm', rfl⟩⟩
  obtain ⟨m', hm'⟩ := this
  exact ⟨m'.flatten, by rw [hm']; rfl⟩

theorem expand_conv (w : ℚ × ℚ) (v : Var) (hb : v.kind.isBandit = false) :
    (convVar w v).expand = v.expand.map (fun e => { e with kind := convKind w e.kind }) := by
  obtain ⟨n, k, d⟩ := v
  cases k <;> simp [convVar, Var.expand, convKind, Kind.isBandit] at hb ⊢

/-- The units of the one-dimensional variables. -/
theorem designSpace_conv {ws : List (ℚ × ℚ)} {ds : List Desc} (hw : List.Forall₂ DescUnit ws ds)
    {cs : Option (List ConstrDict)} {sp : Space} (h : designSpace ds cs = .ok sp)
    (cs' : Option (List ConstrDict)) :
    ∃ sp', designSpace (List.zipWith convDesc ws ds) cs' = .ok sp' ∧
      OtherUnits (descUnits ws ds) sp sp' ∧
      sp'.expanded.map EVar.name = sp.expanded.map EVar.name ∧
      sp'.constraints = cs'.map (List.map fixConstr) := by
  obtain ⟨vars, h1, h2, h3, h4, h5, h6⟩ := designSpace_ok h
  obtain ⟨t1, -⟩ := translateSpace_ok h1
  obtain ⟨i1, i2, i3⟩ := translateFrom_conv hw t1
  obtain ⟨l', hl'⟩ := expandConfig_conv hw.length_eq h4
  have hnb : ∀ v ∈ List.zipWith convVar ws vars, v.kind.isBandit = false := by
    clear i1 i3 h1 t1 h3 h5 hw h hl' h4 h6 h2
    induction i2 with
    | nil => simp
    | @cons w v ws vs g1 _ ih =>
      intro x hx
      rcases List.mem_cons.1 hx with rfl | hx
      · obtain ⟨n, k, d⟩ := v
        have := g1.2.1
        cases k <;> simp_all [convVar, convKind, Kind.isBandit]
      · exact ih x hx
  have hnb0 : ∀ v ∈ vars, v.kind.isBandit = false := by
    clear i1 i3 h1 t1 h3 h5 hnb hw h hl' h4 h6 h2
    induction i2 with
    | nil => simp
    | @cons w v ws vs g1 _ ih =>
      intro x hx
      rcases List.mem_cons.1 hx with rfl | hx
      · exact g1.2.1
      · exact ih x hx
  have hts : translateSpace (List.zipWith convDesc ws ds) = .ok (List.zipWith convVar ws vars) := by
    unfold translateSpace
    rw [i1]
    have : (List.zipWith convVar ws vars).any (fun v => v.kind.isBandit) = false := by
      rw [List.any_eq_false]
      intro v hv
      simp [hnb v hv]
    simp [this]
  refine ⟨{ config := List.zipWith convDesc ws ds, vars := List.zipWith convVar ws vars
            configExpanded := l'
            expanded := computeIndices 0 0 ((List.zipWith convVar ws vars).flatMap Var.expand)
            constraints := cs'.map (List.map fixConstr) }, ?_, ?_, ?_, rfl⟩
  · simp [designSpace, hts, hl']
  · have hun : List.Forall₂ UnitFor (descUnits ws ds) ((vars.flatMap Var.expand).map EVar.kind) ∧
        ((List.zipWith convVar ws vars).flatMap Var.expand).map EVar.kind
          = List.zipWith convKind (descUnits ws ds) ((vars.flatMap Var.expand).map EVar.kind) := by
      clear h1 t1 h3 h5 hnb hnb0 hts h4 hl' h h2 h6 i1
      unfold descUnits
      induction i2 generalizing ds with
      | nil => exact ⟨by simp, by simp⟩
      | @cons w v ws vs g1 _ ih =>
        cases ds with
        | nil => simp at i3
        | cons d ds =>
          simp only [List.map_cons, List.cons.injEq] at i3
          cases hw with
          | cons w1 w2 =>
          obtain ⟨r1, r2⟩ := ih w2 i3.2
          have hlen : (v.expand.map EVar.kind) = List.replicate (d.dimensionality.getD 1) v.kind := by
            rw [expand_kinds, g1.2.1, ← i3.1]; simp
          have hlen' : ((convVar w v).expand.map EVar.kind)
              = List.replicate (d.dimensionality.getD 1) (convKind w v.kind) := by
            rw [expand_conv w v g1.2.1, List.map_map]
            have : (EVar.kind ∘ fun e : EVar => { e with kind := convKind w e.kind })
              = (convKind w) ∘ EVar.kind := rfl
            rw [this, ← List.map_map, hlen, List.map_replicate]
          simp only [List.zipWith_cons_cons, List.flatten_cons, List.flatMap_cons, List.map_append, hlen,
            hlen']
          constructor
          · refine List.rel_append (R := UnitFor) ?_ r1
            rw [List.forall₂_iff_get]
            refine ⟨by simp, fun i a b => ?_⟩
            simp only [List.get_eq_getElem, List.getElem_replicate]
            refine ⟨g1.1, ?_⟩
            cases hk : v.kind with
            | categorical l => exact g1.2.2 ⟨l, hk⟩
            | bandit a => have := g1.2.1; rw [hk] at this; cases this
            | _ => trivial
          · rw [List.zipWith_append (by simp), r2, List.zipWith_replicate]
            simp
    refine ⟨⟨ds, cs, h⟩, ⟨List.zipWith convDesc ws ds, cs', by simp [designSpace, hts, hl']⟩, ?_, ?_, ?_, ?_⟩
    · unfold Space.hasBandit
      rw [h3, List.any_eq_false]
      intro v hv
      simp [hnb0 v hv]
    · unfold Space.hasBandit
      rw [List.any_eq_false]
      intro v hv
      simp [hnb v hv]
    · rw [h5, computeIndices_kinds]; exact hun.1
    · rw [h5, computeIndices_kinds]
      simp only [computeIndices_kinds]
      exact hun.2
  · rw [h5, computeIndices_names]
    simp only [computeIndices_names]
    clear h1 t1 h3 h5 hnb hnb0 hts h4 hl' h h2 h6 i1 i3 hw
    induction i2 with
    | nil => rfl
    | @cons w v ws vs g1 _ ih =>
      simp only [List.zipWith_cons_cons, List.flatMap_cons, List.map_append, ih]
      congr 1
      rw [expand_conv w v g1.2.1, List.map_map]
      rfl

end GPyOpt
