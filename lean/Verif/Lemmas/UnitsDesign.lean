import Verif.Lemmas.Units

/-! # Lemmas about other units of the variables: spaces and designs -/

namespace GPyOpt

open Spec Props

namespace Spec.OtherUnits

theorem rescaled_of {us : List (ℚ × ℚ)} : ∀ {ex ex' : List EVar},
    List.Forall₂ UnitFor us (ex.map EVar.kind) →
    ex'.map EVar.kind = List.zipWith convKind us (ex.map EVar.kind) → Rescaled us ex ex' := by
  induction us with
  | nil =>
    intro ex ex' h1 h2
    cases ex with
    | nil =>
      cases ex' with
      | nil => exact .nil
      | cons v vs => simp at h2
    | cons v vs => cases h1
  | cons u us ih =>
    intro ex ex' h1 h2
    cases ex with
    | nil => cases h1
    | cons v vs =>
      rw [List.map_cons, List.forall₂_cons] at h1
      cases ex' with
      | nil => simp at h2
      | cons v' vs' =>
        simp only [List.map_cons, List.zipWith_cons_cons, List.cons.injEq] at h2
        exact .cons h1.1 h2.1 (ih h1.2 h2.2)

variable {us : List (ℚ × ℚ)} {sp sp' : Space}

theorem rescaled (h : OtherUnits us sp sp') : Rescaled us sp.expanded sp'.expanded :=
  rescaled_of h.units h.kinds

theorem pos (h : OtherUnits us sp sp') : ∀ u ∈ us, (0 : ℚ) < u.1 := h.rescaled.pos

theorem modelDim (h : OtherUnits us sp sp') : sp'.modelDim = sp.modelDim :=
  congrArg List.sum h.rescaled.widths

theorem cols_length (h : OtherUnits us sp sp') : (colUnits us sp.kinds).length = sp.modelDim :=
  h.rescaled.colLength

theorem objectiveToModel (h : OtherUnits us sp sp') (x : Vec) :
    sp'.objectiveToModel (convRow us x)
      = (sp.objectiveToModel x).map (convRow (colUnits us sp.kinds)) := by
  rw [sp.objectiveToModel_of h.noBandit, sp'.objectiveToModel_of h.noBandit']
  exact h.rescaled.toModel x us 0 rfl

theorem modelToObjective (h : OtherUnits us sp sp') (x : Vec) :
    sp'.modelToObjective (convRow (colUnits us sp.kinds) x)
      = (sp.modelToObjective x).map (convRow us) :=
  h.rescaled.toObjective x _ 0 rfl

theorem getBounds (h : OtherUnits us sp sp') :
    sp'.getBounds = sp.getBounds.map (convBounds (colUnits us sp.kinds)) :=
  h.rescaled.bounds

theorem mapE_conv {α α' β β' : Type} {f : α → Py β} {f' : α' → Py β'} {g : α → α'} {k : β → β'} (l : List α)
    (hf : ∀ a ∈ l, f' (g a) = (f a).map k) : mapE f' (l.map g) = (mapE f l).map (List.map k) := by
  induction l with
  | nil => rfl
  | cons a l ih =>
    simp only [List.map_cons, mapE, hf a (by simp), ih fun b hb => hf b (by simp [hb])]
    cases f a with
    | error e => rfl
    | ok b => simp only [Except_map_ok]; cases mapE f l <;> rfl

theorem atleast2d_conv (cu : List (ℚ × ℚ)) (X : Mat) :
    atleast2d (X.map (convRow cu)) = (atleast2d X).map (convRow cu) := by
  cases X <;> simp [atleast2d]

theorem unzipInputs (h : OtherUnits us sp sp') (X : Mat) :
    sp'.unzipInputs (X.map (convRow us))
      = (sp.unzipInputs X).map (List.map (convRow (colUnits us sp.kinds))) := by
  simp only [Space.unzipInputs, h.noBandit, h.noBandit', Bool.false_eq_true, if_false]
  rw [mapE_conv X fun x _ => h.objectiveToModel x]
  cases mapE sp.objectiveToModel X with
  | error e => rfl
  | ok m => simp [atleast2d_conv]

theorem zipInputs (h : OtherUnits us sp sp') (X : Mat) :
    sp'.zipInputs (X.map (convRow (colUnits us sp.kinds)))
      = (sp.zipInputs X).map (List.map (convRow us)) := by
  simp only [Space.zipInputs, h.noBandit, h.noBandit', Bool.false_eq_true, if_false]
  rw [mapE_conv X fun x _ => h.modelToObjective x]
  cases mapE sp.modelToObjective X with
  | error e => rfl
  | ok m => simp [atleast2d_conv]

theorem roundOptimum (h : OtherUnits us sp sp') {x : Vec} (hx : x.length = sp.modelDim) :
    sp'.roundOptimum (convRow (colUnits us sp.kinds) x)
      = (sp.roundOptimum x).map (List.map (convRow (colUnits us sp.kinds))) := by
  obtain ⟨p, h1, h2, h3⟩ := h.rescaled.round x (colUnits us sp.kinds) 0 rfl (by
    rw [hx]; exact (Nat.zero_add _).le)
  unfold Space.roundOptimum
  rw [h1, h2]
  cases p with
  | error e => rfl
  | ok rs =>
    simp only [Except_map_ok, Rescaled.concatPieces_flat]
    have hl := (h3 rs rfl).length_eq
    have hu := h.rescaled.length.1
    have hn : List.zipWith (fun u r => r.map (conv u)) us rs = [] ↔ rs = [] := by
      rw [← List.length_eq_zero_iff, ← List.length_eq_zero_iff, List.length_zipWith]
      simp at hl
      omega
    by_cases hr : rs = []
    · simp [hr]
    · rw [if_neg hr, if_neg (fun hc => hr (hn.1 hc)), Rescaled.flatten_conv (h3 rs rfl) us (by simpa using hu)]
      rfl

theorem roundOptimum2d (h : OtherUnits us sp sp') {x : Vec} (hx : x.length = sp.modelDim) :
    sp'.roundOptimum2d [convRow (colUnits us sp.kinds) x]
      = (sp.roundOptimum2d [x]).map (List.map (convRow (colUnits us sp.kinds))) :=
  h.roundOptimum hx

/-! ### Constraints -/

theorem constraints_fixed {config : List Desc} {cs : Option (List ConstrDict)} {sp : Space}
    (h : designSpace config cs = .ok sp) : ∀ l, sp.constraints = some l → ∀ c ∈ l,
      constraintOf c = c.constraint := by
  obtain ⟨vars, -, -, -, -, -, hc⟩ := designSpace_ok h
  intro l hl c hcl
  rw [hc] at hl
  cases cs with
  | none => simp at hl
  | some l0 =>
    simp only [Option.map_some, Option.some.injEq] at hl
    subst hl
    obtain ⟨c0, -, rfl⟩ := List.mem_map.1 hcl
    unfold fixConstr constraintOf
    cases h0 : c0.constrain with
    | none => simp only [h0]
    | some f => rfl

theorem applyConstr_conv {vs : List (ℚ × ℚ)} {c c' : ConstrDict} (h : SameVerdict vs c c')
    (hc : constraintOf c = c.constraint) (hc' : constraintOf c' = c'.constraint) (X : Mat) (w : List ℚ) :
    applyConstr c' (X.map (convRow vs)) w = applyConstr c X w := by
  unfold SameVerdict at h
  rw [hc, hc'] at h
  unfold applyConstr
  cases h1 : c.constraint with
  | none =>
    rw [h1] at h
    cases h2 : c'.constraint with
    | none => rfl
    | some g => rw [h2] at h; exact h.elim
  | some f =>
    rw [h1] at h
    cases h2 : c'.constraint with
    | none => rw [h2] at h; exact h.elim
    | some g =>
      rw [h2] at h
      simp only at h ⊢
      have key : ∀ X : Mat, (∃ e, mapE f X = .error e ∧ mapE g (X.map (convRow vs)) = .error e) ∨
          ∃ a b : List ℚ, mapE f X = .ok a ∧ mapE g (X.map (convRow vs)) = .ok b ∧
            ∀ w, List.zipWith (fun a v => a * (if v ≤ 0 then (1 : ℚ) else 0)) w b
              = List.zipWith (fun a v => a * (if v ≤ 0 then (1 : ℚ) else 0)) w a := by
        intro X
        induction X with
        | nil => right; exact ⟨[], [], rfl, rfl, fun w => rfl⟩
        | cons x X ih =>
          have hx := h x
          simp only [List.map_cons, mapE]
          cases hf : f x with
          | error e =>
            rw [hf] at hx
            cases hg : g (convRow vs x) with
            | error e' =>
              rw [hg] at hx
              simp only [Except_map_error, Except.error.injEq] at hx
              subst hx
              left; exact ⟨_, rfl, rfl⟩
            | ok b => rw [hg] at hx; simp at hx
          | ok a =>
            rw [hf] at hx
            cases hg : g (convRow vs x) with
            | error e' => rw [hg] at hx; simp at hx
            | ok b =>
              rw [hg] at hx
              simp only [Except_map_ok, Except.ok.injEq, decide_eq_decide] at hx
              simp only
              rcases ih with ⟨e, i1, i2⟩ | ⟨as, bs, i1, i2, i3⟩
              · left; exact ⟨e, by simp [i1], by simp [i2]⟩
              · right
                refine ⟨a :: as, b :: bs, by simp [i1], by simp [i2], fun w => ?_⟩
                cases w with
                | nil => rfl
                | cons y w => simp only [List.zipWith_cons_cons, i3 w, hx]
      rcases key X with ⟨e, k1, k2⟩ | ⟨a, b, k1, k2, k3⟩
      · simp [k1, k2]
      · simp only [k1, k2, k3 w]

theorem applyConstrs_conv {vs : List (ℚ × ℚ)} {cs cs' : List ConstrDict}
    (h : List.Forall₂ (SameVerdict vs) cs cs') (hc : ∀ c ∈ cs, constraintOf c = c.constraint)
    (hc' : ∀ c ∈ cs', constraintOf c = c.constraint) (X : Mat) : ∀ w : List ℚ,
    applyConstrs cs' (X.map (convRow vs)) w = applyConstrs cs X w := by
  induction h with
  | nil => intro w; rfl
  | @cons c c' cs cs' h1 _ ih =>
    intro w
    simp only [applyConstrs, applyConstr_conv h1 (hc c (by simp)) (hc' c' (by simp))]
    cases applyConstr c X w with
    | error e => rfl
    | ok w' => exact ih (fun c h => hc c (by simp [h])) (fun c h => hc' c (by simp [h])) w'

theorem indicator (h : OtherUnits us sp sp') {vs : List (ℚ × ℚ)}
    (hc : SameConstraints vs sp.constraints sp'.constraints) (X : Mat) :
    sp'.indicatorConstraints (X.map (convRow vs)) = sp.indicatorConstraints X := by
  obtain ⟨config, cs, hd⟩ := h.built
  obtain ⟨config', cs', hd'⟩ := h.built'
  have h1 := constraints_fixed hd
  have h2 := constraints_fixed hd'
  unfold Space.indicatorConstraints
  generalize sp.constraints = c at hc h1 ⊢
  generalize sp'.constraints = c' at hc h2 ⊢
  cases hc with
  | none => simp [Function.comp_def]
  | some hcs =>
    simp only
    rw [applyConstrs_conv hcs (h1 _ rfl) (h2 _ rfl)]
    simp [Function.comp_def]

theorem hasConstraints {us : List (ℚ × ℚ)} {c c' : Option (List ConstrDict)}
    (hc : SameConstraints us c c') : c'.isSome = c.isSome := by
  cases hc <;> rfl

theorem selectValid_conv (vs : List (ℚ × ℚ)) (X : Mat) : ∀ w : List ℚ,
    selectValid (X.map (convRow vs)) w = (selectValid X w).map (convRow vs) := by
  induction X with
  | nil => intro w; simp [selectValid]
  | cons x X ih =>
    intro w
    cases w with
    | nil => simp [selectValid]
    | cons a w =>
      have := ih w
      unfold selectValid at this ⊢
      simp only [List.map_cons, List.zip_cons_cons, List.filterMap_cons]
      by_cases ha : a = 1
      · simp [ha, this]
      · simp [ha, this]

end Spec.OtherUnits

/-! ## Designs -/

/-- The row `y` is the row `x` in the units `us` at the columns in `P`; the other columns are
arbitrary. -/
def ConvOn (us : List (ℚ × ℚ)) (P : Nat → Prop) (x y : Vec) : Prop :=
  y.length = x.length ∧ ∀ i, P i → y[i]? = x[i]?.map (conv (us.getD i (1, 0)))

theorem ConvOn.all {us : List (ℚ × ℚ)} {P : Nat → Prop} {x y : Vec} (h : ConvOn us P x y)
    (hP : ∀ i < x.length, P i) : y = convRow us x := by
  apply List.ext_getElem? fun i => ?_
  rw [convRow_get]
  by_cases hi : i < x.length
  · exact h.2 i (hP i hi)
  · have hl := h.1
    rw [List.getElem?_eq_none (by omega), List.getElem?_eq_none (by omega)]
    rfl

theorem ConvOn.set {us : List (ℚ × ℚ)} {P : Nat → Prop} {x y : Vec} (h : ConvOn us P x y) (i : Nat) (v : ℚ) :
    ConvOn us (fun j => P j ∨ j = i) (x.set i v) (y.set i (conv (us.getD i (1, 0)) v)) := by
  refine ⟨by simp [h.1], fun j hj => ?_⟩
  rw [List.getElem?_set, List.getElem?_set, h.1]
  by_cases hij : i = j
  · subst hij
    by_cases hl : i < x.length <;> simp [hl]
  · simp only [hij, if_false]
    rcases hj with hj | hj
    · exact h.2 j hj
    · exact absurd hj.symm hij

theorem ConvOn.mono {us : List (ℚ × ℚ)} {P Q : Nat → Prop} {x y : Vec} (h : ConvOn us P x y)
    (hQ : ∀ i, Q i → P i) : ConvOn us Q x y :=
  ⟨h.1, fun i hi => h.2 i (hQ i hi)⟩

/-- Two results that correspond: related values, or the same exception. -/
def PyRel {α β : Type} (R : α → β → Prop) : Py α → Py β → Prop
  | .ok a, .ok b => R a b
  | .error e, .error e' => e = e'
  | _, _ => False

theorem PyRel.mono {α β : Type} {R S : α → β → Prop} {a : Py α} {b : Py β} (h : PyRel R a b)
    (hRS : ∀ a b, R a b → S a b) : PyRel S a b := by
  cases a <;> cases b <;> first | exact h | exact hRS _ _ h

theorem PyRel.map_eq {α β : Type} {f : α → β} {a : Py α} {b : Py β}
    (h : PyRel (fun a b => b = f a) a b) : b = a.map f := by
  cases a <;> cases b <;> simp [PyRel] at h ⊢ <;> first | exact h.symm | exact h

theorem PyRel.split {α β : Type} {R : α → β → Prop} {a : Py α} {b : Py β} (h : PyRel R a b) :
    (∃ e, a = .error e ∧ b = .error e) ∨ ∃ x y, a = .ok x ∧ b = .ok y ∧ R x y := by
  cases a with
  | error e =>
    cases b with
    | error e' => exact .inl ⟨e, rfl, by rw [show e = e' from h]⟩
    | ok y => exact False.elim h
  | ok x =>
    cases b with
    | error e' => exact False.elim h
    | ok y => exact .inr ⟨x, y, rfl, rfl, h⟩

theorem setCol_conv {us : List (ℚ × ℚ)} {P : Nat → Prop} {x y : Vec} (h : ConvOn us P x y) (i : Nat) (v : ℚ) :
    PyRel (ConvOn us fun j => P j ∨ j = i) (setCol x i v) (setCol y i (conv (us.getD i (1, 0)) v)) := by
  unfold setCol
  rw [h.1]
  split_ifs
  · exact h.set i v
  · rfl

theorem scatter_conv {us : List (ℚ × ℚ)} (idx : List Nat) : ∀ {P : Nat → Prop} {x y : Vec} {vals : Vec},
    vals.length = idx.length → ConvOn us P x y →
    PyRel (ConvOn us fun j => P j ∨ j ∈ idx) (scatter idx vals x)
      (scatter idx (convRow (idx.map fun i => us.getD i (1, 0)) vals) y) := by
  induction idx with
  | nil =>
    intro P x y vals hl h
    cases vals with
    | nil => simpa [scatter, PyRel] using h
    | cons _ _ => simp at hl
  | cons i idx ih =>
    intro P x y vals hl h
    cases vals with
    | nil => simp at hl
    | cons v vals =>
      simp only [scatter, List.map_cons, convRow_cons]
      rcases (setCol_conv h i v).split with ⟨e, h1, h2⟩ | ⟨a, b, h1, h2, hab⟩
      · simp only [h1, h2]; rfl
      simp only [h1, h2]
      refine (ih (by simpa using hl) hab).mono fun a b hab => hab.mono fun j hj => ?_
      rcases hj with hj | hj
      · exact .inl (.inl hj)
      · rcases List.mem_cons.1 hj with hj | hj
        · exact .inl (.inr hj)
        · exact .inr hj

theorem chooseFrom_conv {α β : Type} (g : α → β) (l : List α) (i : Nat) :
    chooseFrom (l.map g) i = (chooseFrom l i).map g := by
  simp only [chooseFrom, List.length_map, List.getElem?_map]
  cases l[i % l.length]? <;> rfl

theorem fillRow_conv (d : Draw) (r : Nat) (all : List (ℚ × ℚ)) {us : List (ℚ × ℚ)} {ex ex' : List EVar}
    (h : Rescaled us ex ex') : ∀ (i : Nat) (P : Nat → Prop) (x y : Vec), all.drop i = us →
    ConvOn all P x y →
    PyRel (ConvOn all fun j => P j ∨ ∃ n v, ex[n]? = some v ∧ v.kind.isContinuous = false ∧ j = i + n)
      (fillRow d r i ex x) (fillRow d r i ex' y) := by
  induction h with
  | nil => intro i P x y _ h; simpa [fillRow, PyRel] using h
  | @cons u us v v' vs vs' h1 h2 _ ih =>
    intro i P x y hi h
    have hu : all.getD i (1, 0) = u := by
      rw [List.getD_eq_getElem?_getD, ← Nat.add_zero i, ← List.getElem?_drop, hi]
      rfl
    have hi' : all.drop (i + 1) = us := by
      rw [← List.drop_drop, hi]; rfl
    have step : ∀ {Q : Nat → Prop} {a b : Vec}, ConvOn all Q a b → (∀ j, P j → Q j) →
        (v.kind.isContinuous = false → Q i) →
        PyRel (ConvOn all fun j => P j ∨ ∃ n w, (v :: vs)[n]? = some w ∧ w.kind.isContinuous = false ∧ j = i + n)
          (fillRow d r (i + 1) vs a) (fillRow d r (i + 1) vs' b) := by
      intro Q a b hab hPQ hQi
      refine (ih (i + 1) Q a b hi' hab).mono fun a b hab => hab.mono fun j hj => ?_
      rcases hj with hj | ⟨n, w, hn, hw, rfl⟩
      · exact .inl (hPQ j hj)
      · cases n with
        | zero =>
          simp only [List.getElem?_cons_zero, Option.some.injEq] at hn
          subst hn
          exact .inl (hQi hw)
        | succ n => exact .inr ⟨n, w, by simpa using hn, hw, by omega⟩
    simp only [fillRow, h2]
    cases hk : v.kind with
    | continuous lo hi =>
      simp only [convKind]
      exact step h (fun _ => id) (by simp [hk, Kind.isContinuous])
    | discrete vals =>
      simp only [convKind, chooseFrom_conv]
      cases chooseFrom vals (d.choice i r) with
      | error e => rfl
      | ok a =>
        simp only [Except_map_ok]
        have e := setCol_conv h i a
        rw [hu] at e
        rcases e.split with ⟨e, h1, h2⟩ | ⟨a, b, h1, h2, hab⟩
        · simp only [h1, h2]; rfl
        · simp only [h1, h2]
          exact step hab (fun _ => .inl) fun _ => .inr rfl
    | categorical labels =>
      rw [hk] at h1
      obtain rfl : u = (1, 0) := h1.2
      simp only [convKind]
      cases chooseFrom labels (d.choice i r) with
      | error e => rfl
      | ok a =>
        have e := setCol_conv h i a
        rw [hu, conv_one] at e
        rcases e.split with ⟨e, h1, h2⟩ | ⟨a, b, h1, h2, hab⟩
        · simp only [h1, h2]; rfl
        · simp only [h1, h2]
          exact step hab (fun _ => .inl) fun _ => .inr rfl
    | bandit arms => rw [hk] at h1; exact h1.2.elim

theorem setCol_length {x y : Vec} {i : Nat} {v : ℚ} (h : setCol x i v = .ok y) : y.length = x.length := by
  unfold setCol at h
  split_ifs at h
  cases h
  simp

theorem scatter_length {idx : List Nat} : ∀ {vals x y : Vec}, scatter idx vals x = .ok y →
    y.length = x.length := by
  induction idx with
  | nil => intro vals x y h; simp [scatter] at h; rw [h]
  | cons i idx ih =>
    intro vals x y h
    cases vals with
    | nil => simp [scatter] at h; rw [h]
    | cons v vals =>
      simp only [scatter] at h
      cases hs : setCol x i v with
      | error e => simp [hs] at h
      | ok x' => rw [hs] at h; rw [ih h, setCol_length hs]

theorem fillRow_length {d : Draw} {r : Nat} {vs : List EVar} : ∀ {i : Nat} {x y : Vec},
    fillRow d r i vs x = .ok y → y.length = x.length := by
  induction vs with
  | nil => intro i x y h; simp [fillRow] at h; rw [h]
  | cons v vs ih =>
    intro i x y h
    simp only [fillRow] at h
    cases hk : v.kind with
    | continuous lo hi => rw [hk] at h; exact ih h
    | discrete vals =>
      rw [hk] at h
      simp only at h
      cases hc : chooseFrom vals (d.choice i r) with
      | error e => simp [hc] at h
      | ok a =>
        simp only [hc] at h
        cases hs : setCol x i a with
        | error e => simp [hs] at h
        | ok x' => rw [hs] at h; rw [ih h, setCol_length hs]
    | categorical vals =>
      rw [hk] at h
      simp only at h
      cases hc : chooseFrom vals (d.choice i r) with
      | error e => simp [hc] at h
      | ok a =>
        simp only [hc] at h
        cases hs : setCol x i a with
        | error e => simp [hs] at h
        | ok x' => rw [hs] at h; rw [ih h, setCol_length hs]
    | bandit arms =>
      rw [hk] at h
      simp only at h
      cases hc : chooseFrom arms (d.choice i r) with
      | error e => simp [hc] at h
      | ok a =>
        simp only [hc] at h
        cases hs : scatter ((List.range (armDim arms)).map (i + ·)) a x with
        | error e => simp [hs] at h
        | ok x' => rw [hs] at h; rw [ih h, scatter_length hs]

theorem contPos_mem (ks : List Kind) : ∀ (s j : Nat), j ∈ contPos s ks ↔
    ∃ n k, ks[n]? = some k ∧ k.isContinuous = true ∧ j = s + n := by
  induction ks with
  | nil => intro s j; simp [contPos]
  | cons k ks ih =>
    intro s j
    have h1 : (∃ n k', (k :: ks)[n]? = some k' ∧ k'.isContinuous = true ∧ j = s + n)
        ↔ (k.isContinuous = true ∧ j = s) ∨
          ∃ n k', ks[n]? = some k' ∧ k'.isContinuous = true ∧ j = s + 1 + n := by
      constructor
      · rintro ⟨n, k', h1, h2, rfl⟩
        cases n with
        | zero =>
          simp only [List.getElem?_cons_zero, Option.some.injEq] at h1
          subst h1
          exact .inl ⟨h2, rfl⟩
        | succ n => exact .inr ⟨n, k', by simpa using h1, h2, by omega⟩
      · rintro (⟨h1, rfl⟩ | ⟨n, k', h1, h2, rfl⟩)
        · exact ⟨0, k, rfl, h1, rfl⟩
        · exact ⟨n + 1, k', by simpa using h1, h2, by omega⟩
    rw [h1, ← ih (s + 1) j, contPos]
    by_cases hc : k.isContinuous = true
    · simp [hc]
    · simp [hc]

theorem isContinuous_conv (u : ℚ × ℚ) (k : Kind) : (convKind u k).isContinuous = k.isContinuous := by
  cases k <;> rfl

theorem contPos_conv {us : List (ℚ × ℚ)} {ex ex' : List EVar} (h : Rescaled us ex ex') : ∀ s,
    contPos s (ex'.map EVar.kind) = contPos s (ex.map EVar.kind) := by
  induction h with
  | nil => intro s; rfl
  | cons _ h2 _ ih => intro s; simp only [List.map_cons, contPos, h2, isContinuous_conv, ih]

theorem contBounds_conv (all : List (ℚ × ℚ)) {us : List (ℚ × ℚ)} {ex ex' : List EVar}
    (h : Rescaled us ex ex') : ∀ s, all.drop s = us →
    (ex'.map EVar.kind).filterMap contBound
      = convBounds ((contPos s (ex.map EVar.kind)).map fun i => all.getD i (1, 0))
        ((ex.map EVar.kind).filterMap contBound) ∧
    (contPos s (ex.map EVar.kind)).length = ((ex.map EVar.kind).filterMap contBound).length := by
  induction h with
  | nil => intro s _; simp [convBounds, contPos]
  | @cons u us v v' vs vs' h1 h2 _ ih =>
    intro s hi
    have hu : all.getD s (1, 0) = u := by
      rw [List.getD_eq_getElem?_getD, ← Nat.add_zero s, ← List.getElem?_drop, hi]
      rfl
    have hi' : all.drop (s + 1) = us := by
      rw [← List.drop_drop, hi]; rfl
    obtain ⟨e1, e2⟩ := ih (s + 1) hi'
    simp only [List.map_cons, h2, contPos]
    cases hk : v.kind with
    | continuous lo hi =>
      simp only [convKind, Kind.isContinuous, if_true, List.filterMap_cons, contBound, e1]
      simp only [List.map_cons, convBounds, List.zipWith_cons_cons, hu, List.length_cons, e2, and_self]
    | discrete vals =>
      simpa [convKind, Kind.isContinuous, List.filterMap_cons, contBound] using And.intro e1 e2
    | categorical labels =>
      simpa [convKind, Kind.isContinuous, List.filterMap_cons, contBound] using And.intro e1 e2
    | bandit arms => rw [hk] at h1; exact h1.2.elim

theorem convBounds_mapIdx {vs bs : List (ℚ × ℚ)} (hl : vs.length = bs.length)
    (φ : Nat → ℚ × ℚ → ℚ) (hφ : ∀ u k b, φ k (conv u b.1, conv u b.2) = conv u (φ k b)) :
    (convBounds vs bs).mapIdx φ = convRow vs (bs.mapIdx φ) := by
  apply List.ext_getElem? fun i => ?_
  rw [convRow_get, List.getElem?_mapIdx, List.getElem?_mapIdx, convBounds, List.getElem?_zipWith]
  cases hb : bs[i]? with
  | none =>
    have : vs[i]? = none := by
      rw [List.getElem?_eq_none_iff] at hb ⊢
      omega
    simp [this]
  | some b =>
    have hi := (List.getElem?_eq_some_iff.1 hb).1
    rw [List.getElem?_eq_getElem (by omega : i < vs.length)]
    simp only [Option.map_some, hφ, List.getD_eq_getElem?_getD]
    rw [List.getElem?_eq_getElem (by omega : i < vs.length)]
    rfl

theorem linspaceAt_conv (u : ℚ × ℚ) (lo hi : ℚ) (m i : Nat) :
    linspaceAt (conv u lo) (conv u hi) m i = conv u (linspaceAt lo hi m i) := by
  unfold linspaceAt
  split_ifs
  · rfl
  · simp only [conv]; ring

theorem multigridRow_conv {vs bs : List (ℚ × ℚ)} (hl : vs.length = bs.length) (m r : Nat) :
    multigridRow (convBounds vs bs) m r = convRow vs (multigridRow bs m r) := by
  have gen : (convBounds vs bs).mapIdx (fun k b => linspaceAt b.1 b.2 m ((r / m ^ gridStride k) % m))
      = convRow vs (bs.mapIdx fun k b => linspaceAt b.1 b.2 m ((r / m ^ gridStride k) % m)) :=
    convBounds_mapIdx hl _ fun u k b => linspaceAt_conv ..
  match bs, vs, hl with
  | [], [], _ => rfl
  | [b], [v], _ => simp [convBounds, multigridRow, linspaceAt_conv]
  | b :: b' :: bs, v :: v' :: vs, _ => exact gen

namespace Spec.OtherUnits

variable {us : List (ℚ × ℚ)} {sp sp' : Space}

/-- The units of the continuous variables. -/
def contUnits (us : List (ℚ × ℚ)) (sp : Space) : List (ℚ × ℚ) :=
  (contPos 0 sp.kinds).map fun i => us.getD i (1, 0)

theorem contDims (h : OtherUnits us sp sp') : sp.getContinuousDims = .ok (contPos 0 sp.kinds) ∧
    sp'.getContinuousDims = .ok (contPos 0 sp.kinds) := by
  obtain ⟨config, cs, hd⟩ := h.built
  obtain ⟨config', cs', hd'⟩ := h.built'
  refine ⟨getContinuousDims_eq hd h.noBandit, ?_⟩
  rw [getContinuousDims_eq hd' h.noBandit']
  exact congrArg _ (contPos_conv h.rescaled 0)

theorem contBounds (h : OtherUnits us sp sp') :
    sp'.getContinuousBounds = convBounds (contUnits us sp) sp.getContinuousBounds ∧
      (contPos 0 sp.kinds).length = sp.getContinuousBounds.length := by
  obtain ⟨config, cs, hd⟩ := h.built
  obtain ⟨config', cs', hd'⟩ := h.built'
  rw [getContinuousBounds_eq hd h.noBandit, getContinuousBounds_eq hd' h.noBandit']
  exact contBounds_conv us h.rescaled 0 rfl

theorem putContinuous_eq {config : List Desc} {cs : Option (List ConstrDict)} {sp : Space}
    (hd : designSpace config cs = .ok sp) (hb : sp.hasBandit = false) (row design : Vec) :
    putContinuous sp row design = scatter (contPos 0 sp.kinds) design row := by
  unfold putContinuous
  by_cases hc : sp.hasContinuous = true
  · simp [hc, getContinuousDims_eq hd hb]
  · have h0 := hasContinuous_false hd hb (by simpa using hc)
    have : contPos 0 sp.kinds = [] := by
      rw [List.eq_nil_iff_forall_not_mem]
      intro j hj
      obtain ⟨n, k, h1, h2, -⟩ := (contPos_mem _ _ _).1 hj
      rw [h0 k (List.mem_of_getElem? h1)] at h2
      cases h2
    simp [hc, this, scatter]

theorem designRow (h : OtherUnits us sp sp') (d : Draw) {design design' : Nat → Vec} {r : Nat}
    (hl : (design r).length = sp.getContinuousBounds.length)
    (hdes : design' r = convRow (contUnits us sp) (design r)) :
    designRow sp' d design' r = (designRow sp d design r).map (convRow us) := by
  obtain ⟨config, cs, hd⟩ := h.built
  obtain ⟨config', cs', hd'⟩ := h.built'
  have hrow : emptyRow sp' d r = emptyRow sp d r := by
    simp only [emptyRow, dimensionality_eq hd h.noBandit, dimensionality_eq hd' h.noBandit',
      h.rescaled.length.2]
  have hel : (emptyRow sp d r).length = sp.expanded.length := by
    simp [emptyRow, dimensionality_eq hd h.noBandit]
  apply PyRel.map_eq
  unfold GPyOpt.designRow
  rw [hrow]
  rcases (fillRow_conv d r us h.rescaled 0 (fun _ => False) (emptyRow sp d r) (emptyRow sp d r) rfl
    ⟨rfl, fun _ => False.elim⟩).split with ⟨e, h1, h2⟩ | ⟨a, b, h1, h2, hab⟩
  · simp only [h1, h2]; rfl
  simp only [h1, h2]
  rw [putContinuous_eq hd h.noBandit, putContinuous_eq hd' h.noBandit', hdes]
  have hcp : contPos 0 sp'.kinds = contPos 0 sp.kinds := contPos_conv h.rescaled 0
  have hal : a.length = sp.expanded.length := by
    obtain ⟨out, g1, g2⟩ : ∃ out : Vec, fillRow d r 0 sp.expanded (emptyRow sp d r) = .ok out ∧
        out.length = (emptyRow sp d r).length := by
      refine ⟨a, h1, ?_⟩
      exact fillRow_length h1
    rw [h1] at g1; cases g1
    rw [g2, hel]
  rw [hcp]
  have hsc := scatter_conv (us := us) (contPos 0 sp.kinds) (vals := design r)
    (by rw [hl, h.contBounds.2]) hab
  rcases hsc.split with ⟨e, k1, k2⟩ | ⟨a', b', k1, k2, hab'⟩
  · rw [k1]
    show PyRel _ _ (scatter _ (convRow (contUnits us sp) (design r)) b)
    rw [contUnits, k2]
    rfl
  · rw [k1]
    show PyRel _ _ (scatter _ (convRow (contUnits us sp) (design r)) b)
    rw [contUnits, k2]
    refine hab'.all fun i hi => ?_
    rw [scatter_length k1, hal] at hi
    obtain ⟨v, hv⟩ : ∃ v, sp.expanded[i]? = some v := ⟨_, List.getElem?_eq_getElem hi⟩
    by_cases hc : v.kind.isContinuous = true
    · right
      exact (contPos_mem _ _ _).2 ⟨i, v.kind, by simp [Space.kinds, hv], hc, by simp⟩
    · left; right
      exact ⟨i, v, hv, by simpa using hc, by simp⟩

end Spec.OtherUnits

end GPyOpt
