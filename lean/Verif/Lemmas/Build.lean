import Verif.Lemmas.Space

/-! Lemmas on the construction of design spaces. -/

namespace GPyOpt

open Spec

theorem createVariable_ok {name type : String} {dom : Dom} {dim : Option Nat} {v : Var}
    (h : createVariable name type dom dim = .ok v) :
    kindOfType type dom = some v.kind ∧ v.name = name ∧
      (v.kind.isBandit = true ↔ type = "bandit") ∧
      (v.kind.isBandit = false → v.dimensionality = dim.getD 1) := by
  unfold createVariable at h
  split_ifs at h with h1 h2 h3 h4
  · subst h1
    cases dom with
    | rows a => simp at h
    | flat vals =>
      match vals, h with
      | [], h => simp at h
      | [_], h => simp at h
      | lo :: hi :: rest, h => simp at h; subst h; simp [kindOfType, Kind.isBandit]
  · subst h2
    cases dom with
    | flat a => simp at h
    | rows arms =>
      match arms, h with
      | [], h => simp at h
      | a :: as, h =>
        simp only at h
        split_ifs at h with hc
        simp only [Except.ok.injEq] at h
        subst h
        refine ⟨?_, rfl, ?_, ?_⟩ <;> simp [kindOfType, Kind.isBandit]
  · subst h3
    cases dom with
    | rows a => simp at h
    | flat vals => simp at h; subst h; simp [kindOfType, Kind.isBandit]
  · subst h4
    cases dom with
    | rows a => simp at h
    | flat vals => simp at h; subst h; simp [kindOfType, Kind.isBandit]

theorem translateFrom_cons_ok {i : Nat} {d : Desc} {ds : List Desc} {vs : List Var} :
    translateFrom i (d :: ds) = .ok vs ↔ ∃ dom v vs', d.domain = some dom ∧
      createVariable (d.name.getD ("var_" ++ toString i)) (d.type.getD "continuous") dom
        d.dimensionality = .ok v ∧ translateFrom (i + 1) ds = .ok vs' ∧ vs = v :: vs' := by
  simp only [translateFrom]
  generalize d.name.getD ("var_" ++ toString i) = nm
  cases hd : d.domain with
  | none => simp
  | some dom =>
    cases hc : createVariable nm (d.type.getD "continuous") dom d.dimensionality with
    | error e => simp [hc]
    | ok v =>
      cases ht : translateFrom (i + 1) ds with
      | error e => simp [hc]
      | ok vs' => simp [hc, eq_comm]

/-- Relation between a descriptor and its variable. -/
def DescVar (d : Desc) (v : Var) : Prop :=
  kindOf d = some v.kind ∧ (v.kind.isBandit = true ↔ d.type = some "bandit") ∧
    (v.kind.isBandit = false → v.dimensionality = d.dimensionality.getD 1)

theorem translateFrom_rel {config : List Desc} : ∀ {i : Nat} {vs : List Var},
    translateFrom i config = .ok vs → List.Forall₂ DescVar config vs := by
  induction config with
  | nil => intro i vs h; simp [translateFrom] at h; subst h; exact .nil
  | cons d ds ih =>
    intro i vs h
    obtain ⟨dom, v, vs', h1, h2, h3, rfl⟩ := translateFrom_cons_ok.1 h
    refine .cons ?_ (ih h3)
    obtain ⟨c1, _, c3, c4⟩ := createVariable_ok h2
    refine ⟨by simp [kindOf, h1, c1], c3.trans ?_, c4⟩
    cases ht : d.type with
    | none => simp
    | some t => simp

theorem translateSpace_ok {config : List Desc} {vs : List Var}
    (h : translateSpace config = .ok vs) :
    translateFrom 0 config = .ok vs ∧
      ¬ (vs.any (fun v => v.kind.isBandit) = true ∧ vs.any (fun v => !v.kind.isBandit) = true) := by
  unfold translateSpace at h
  cases h1 : translateFrom 0 config with
  | error e => simp [h1] at h
  | ok vs' =>
    simp only [h1] at h
    split_ifs at h with hc
    · simp only [Except.ok.injEq] at h
      subst h
      exact ⟨rfl, by simpa only [Bool.and_eq_true] using hc⟩

theorem descVar_copies {d : Desc} {v : Var} (h : DescVar d v) :
    (if v.kind.isBandit then 1 else v.dimensionality) = copies d := by
  obtain ⟨_, h2, h3⟩ := h
  unfold copies
  by_cases hb : v.kind.isBandit = true
  · simp [hb, h2.1 hb]
  · have : d.type ≠ some "bandit" := fun hc => hb (h2.2 hc)
    rw [if_neg hb, if_neg this, h3 (by simpa using hb)]

/-- The expanded variables of a space are the ones its configuration denotes. -/
theorem space_kinds_eq {config : List Desc} {cs : Option (List ConstrDict)} {sp : Space}
    (h : designSpace config cs = .ok sp) : sp.kinds = kindsOf config := by
  obtain ⟨vars, ht, -, hv, -, -, -⟩ := designSpace_ok h
  rw [space_kinds h, hv]
  have := translateFrom_rel (translateSpace_ok ht).1
  clear ht hv h
  unfold kindsOf
  induction this with
  | nil => rfl
  | cons h1 _ ih =>
    simp only [List.flatMap_cons, ih, h1.1, descVar_copies h1]

theorem hasBandit_eq_false {config : List Desc} {cs : Option (List ConstrDict)} {sp : Space}
    (h : designSpace config cs = .ok sp) :
    sp.hasBandit = false ↔ ∀ d ∈ config, d.type ≠ some "bandit" := by
  obtain ⟨vars, ht, -, hv, -, -, -⟩ := designSpace_ok h
  unfold Space.hasBandit
  rw [hv]
  have := translateFrom_rel (translateSpace_ok ht).1
  clear ht hv h
  induction this with
  | nil => simp
  | @cons d v ds vs h1 _ ih =>
    simp only [List.any_cons, Bool.or_eq_false_iff, ih, List.mem_cons, forall_eq_or_imp]
    rw [ne_eq, ← h1.2.1]
    simp

/-- A descriptor of the expanded configuration and the kind it denotes. -/
def GoodDesc (d : Desc) (k : Kind) : Prop :=
  kindOf d = some k ∧ (∀ arms, k ≠ .bandit arms) ∧
    (d.dimensionality = none ∨ (d.dimensionality = some 1 ∧ d.name.isSome))

theorem isBandit_false_iff (k : Kind) : k.isBandit = false ↔ ∀ arms, k ≠ .bandit arms := by
  cases k <;> simp [Kind.isBandit]

theorem expandDesc_good {d : Desc} {v : Var} (h : DescVar d v) (hnb : v.kind.isBandit = false)
    {ds : List Desc} (he : expandDesc d = .ok ds) :
    List.Forall₂ GoodDesc ds (List.replicate v.dimensionality v.kind) := by
  have hk : ∀ (s : Option String) (n : Option Nat),
      kindOf { d with name := s, dimensionality := n } = some v.kind := fun s n => h.1
  unfold expandDesc at he
  rw [h.2.2 hnb]
  cases hd : d.dimensionality with
  | none =>
    simp [hd] at he
    subst he
    exact .cons ⟨h.1, (isBandit_false_iff _).1 hnb, .inl hd⟩ .nil
  | some n =>
    cases n with
    | zero => simp [hd] at he; subst he; exact .nil
    | succ n =>
      cases hn : d.name with
      | none => simp [hd, hn] at he
      | some s =>
        simp only [hd, hn, Except.ok.injEq] at he
        subst he
        simp only [Option.getD_some]
        rw [List.forall₂_iff_get]
        refine ⟨by simp, ?_⟩
        intro i h1 h2
        simp only [List.get_eq_getElem, List.getElem_map, List.getElem_replicate]
        exact ⟨hk _ _, (isBandit_false_iff _).1 hnb, .inr ⟨rfl, rfl⟩⟩

theorem expandConfig_good {config : List Desc} {cs : Option (List ConstrDict)} {sp : Space}
    (h : designSpace config cs = .ok sp) (hb : sp.hasBandit = false) :
    List.Forall₂ GoodDesc sp.configExpanded sp.kinds := by
  obtain ⟨vars, ht, -, hv, hx, -, -⟩ := designSpace_ok h
  rw [space_kinds h, hv]
  have hrel := translateFrom_rel (translateSpace_ok ht).1
  unfold Space.hasBandit at hb
  rw [hv] at hb
  unfold expandConfig at hx
  rw [Except_map_eq_ok] at hx
  obtain ⟨dss, hm, hf⟩ := hx
  rw [← hf]
  clear ht hv h hf
  induction hrel generalizing dss with
  | nil => simp [mapE] at hm; subst hm; exact .nil
  | @cons d v ds vs h1 _ ih =>
    obtain ⟨e, es, he, hes, rfl⟩ := mapE_cons_ok.1 hm
    simp only [List.any_cons, Bool.or_eq_false_iff] at hb
    simp only [List.flatten_cons, List.flatMap_cons, hb.1]
    exact List.rel_append (expandDesc_good h1 hb.1 he) (ih hb.2 es hes)

theorem createVariable_of_kind {name type : String} {dom : Dom} {dim : Option Nat} {k : Kind}
    (h : kindOfType type dom = some k) (hnb : ∀ arms, k ≠ .bandit arms) :
    createVariable name type dom dim = .ok ⟨name, k, dim.getD 1⟩ := by
  unfold kindOfType at h
  unfold createVariable
  cases dom with
  | rows arms =>
    simp at h
    exact absurd h.2.symm (hnb arms)
  | flat vals =>
    simp only at h
    split_ifs at h with h1 h2 h3
    · subst h1
      match vals, h with
      | [], h => simp at h
      | [_], h => simp at h
      | lo :: hi :: rest, h => simp at h; subst h; simp
    · subst h2; simp at h; subst h; simp
    · subst h3; simp at h; subst h; simp

theorem translateFrom_good {ds : List Desc} {ks : List Kind} (h : List.Forall₂ GoodDesc ds ks) :
    ∀ i, ∃ vs, translateFrom i ds = .ok vs ∧
      List.Forall₂ (fun v k => v.kind = k ∧ v.dimensionality = 1) vs ks := by
  induction h with
  | nil => intro i; exact ⟨[], rfl, .nil⟩
  | @cons d k ds ks h1 _ ih =>
    intro i
    obtain ⟨vs, h2, h3⟩ := ih (i + 1)
    obtain ⟨hk, hnb, hd⟩ := h1
    unfold kindOf at hk
    rw [Option.bind_eq_some_iff] at hk
    obtain ⟨dom, hdom, hk⟩ := hk
    have hc := createVariable_of_kind (name := d.name.getD ("var_" ++ toString i))
      (dim := d.dimensionality) hk hnb
    refine ⟨_, translateFrom_cons_ok.2 ⟨dom, _, vs, hdom, hc, h2, rfl⟩, .cons ⟨rfl, ?_⟩ h3⟩
    rcases hd with hd | ⟨hd, _⟩ <;> simp [hd]

theorem expandConfig_of_good {ds : List Desc} {ks : List Kind} (h : List.Forall₂ GoodDesc ds ks) :
    ∃ cx, expandConfig ds = .ok cx := by
  have : ∃ r, mapE expandDesc ds = .ok r := by
    apply mapE_total
    intro d hd
    induction h with
    | nil => simp at hd
    | cons h1 _ ih =>
      rcases List.mem_cons.1 hd with rfl | hd
      · rcases h1.2.2 with h2 | ⟨h2, h3⟩
        · exact ⟨[d], by simp [expandDesc, h2]⟩
        · obtain ⟨s, hs⟩ := Option.isSome_iff_exists.1 h3
          exact ⟨_, by simp [expandDesc, h2, hs]; rfl⟩
      · exact ih hd
  obtain ⟨r, hr⟩ := this
  exact ⟨r.flatten, by simp [expandConfig, hr]⟩

/-- Good descriptors build a space with exactly their kinds. -/
theorem designSpace_of_good {ds : List Desc} {ks : List Kind} (h : List.Forall₂ GoodDesc ds ks)
    (cs : Option (List ConstrDict)) :
    ∃ sp, designSpace ds cs = .ok sp ∧ sp.kinds = ks ∧ sp.hasBandit = false ∧
      sp.constraints = cs.map (List.map fixConstr) := by
  obtain ⟨vs, h1, h2⟩ := translateFrom_good h 0
  obtain ⟨cx, hcx⟩ := expandConfig_of_good h
  have hnb : vs.any (fun v => v.kind.isBandit) = false := by
    rw [List.any_eq_false]
    intro v hv
    clear h1 hcx
    induction h2 generalizing ds with
    | nil => simp at hv
    | @cons w k vs ks h3 _ ih =>
      obtain ⟨d', ds', hd', hds', rfl⟩ := List.forall₂_cons_right_iff.1 h
      rcases List.mem_cons.1 hv with rfl | hv
      · rw [h3.1, (isBandit_false_iff k).2 hd'.2.1]; simp
      · exact ih hds' hv
  have ht : translateSpace ds = .ok vs := by simp [translateSpace, h1, hnb]
  have hd : designSpace ds cs = .ok
      { config := ds, vars := vs, configExpanded := cx
        expanded := computeIndices 0 0 (vs.flatMap Var.expand)
        constraints := cs.map (List.map fixConstr) } := by
    simp [designSpace, ht, hcx]
  refine ⟨_, hd, ?_, hnb, rfl⟩
  rw [space_kinds hd]
  simp only
  clear hd ht h1 hcx h
  induction h2 with
  | nil => rfl
  | cons h1 _ ih =>
    simp only [List.any_cons, Bool.or_eq_false_iff] at hnb
    simp [ih hnb.2, h1.1, h1.2]

end GPyOpt
