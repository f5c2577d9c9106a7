import Verif.Lemmas.Batch
import Verif.Props.Design
import Verif.Props.Suggest
import Mathlib.Algebra.Order.BigOperators.Group.List

/-! # Lemmas about spaces of one bandit variable -/

namespace GPyOpt

open Spec Props

/-- the configuration of one bandit variable with the given arms -/
def banditConfig (name : Option String) (arms : Mat) : List Desc :=
  [{ name := name, type := some "bandit", domain := some (.rows arms) }]

/-- What the space of one bandit variable looks like. -/
structure OneBandit (sp : Space) (arms : Mat) : Prop where
  hb : sp.hasBandit = true
  ne : arms ≠ []
  width : ∀ a ∈ arms, a.length = armDim arms
  expanded : ∃ v, sp.expanded = [v] ∧ v.kind = .bandit arms
  random : ∀ d n, ∃ m, randomNoConstr sp d n = .ok m ∧ m.length = n ∧ ∀ row ∈ m, row ∈ arms
  sobol : sp.constraints = none → ∀ o n, ∃ m, initialDesign "sobol" sp o n = .ok m ∧ m.length = n ∧
    ∀ row ∈ m, row ∈ arms

theorem oneBandit {name : Option String} {arms : Mat} {cs : Option (List ConstrDict)} {sp : Space}
    (h : designSpace (banditConfig name arms) cs = .ok sp) :
    OneBandit sp arms ∧ sp.constraints = cs.map (List.map fixConstr) := by
  have h0 : designSpace (banditConfig name arms) none = .ok { sp with constraints := none } := by
    unfold designSpace at h ⊢
    cases h1 : translateSpace (banditConfig name arms) with
    | error e => simp [h1] at h
    | ok vars =>
      simp only [h1] at h ⊢
      cases h2 : expandConfig (banditConfig name arms) with
      | error e => simp [h2] at h
      | ok cx =>
        simp only [h2, Except.ok.injEq] at h ⊢
        subst h
        rfl
  have hc : sp.constraints = cs.map (List.map fixConstr) := by
    unfold designSpace at h
    cases h1 : translateSpace (banditConfig name arms) with
    | error e => simp [h1] at h
    | ok vars =>
      simp only [h1] at h
      cases h2 : expandConfig (banditConfig name arms) with
      | error e => simp [h2] at h
      | ok cx =>
        simp only [h2, Except.ok.injEq] at h
        subst h
        rfl
  have hdes := fun (o : DesignOracle) n => C20_bandit_partial name arms h0 o n
  refine ⟨?_, hc⟩
  have hk : kindsOf (banditConfig name arms) = [.bandit arms] := by
    simp [kindsOf, banditConfig, kindOf, kindOfType, copies]
  have hexp : ∃ v, sp.expanded = [v] ∧ v.kind = .bandit arms := by
    have := space_kinds_eq h
    rw [hk] at this
    unfold Space.kinds at this
    rw [List.map_eq_singleton_iff] at this
    exact this
  have hran : ∀ d n, ∃ m, randomNoConstr sp d n = .ok m ∧ m.length = n ∧ ∀ row ∈ m, row ∈ arms := by
    intro d n
    have := hdes ⟨fun _ => d, fun _ _ => 0, fun _ _ => 0, 0⟩ n "random" (by simp)
    simp only [initialDesign, randomDesign, Space.hasConstraints, if_true, Option.isSome_none,
      Bool.false_eq_true, if_false] at this
    exact this
  have hshape : arms ≠ [] ∧ (∀ a ∈ arms, a.length = armDim arms) ∧ sp.hasBandit = true := by
    cases arms with
    | nil => simp [designSpace, banditConfig, translateSpace, translateFrom, createVariable] at h
    | cons a as =>
      by_cases hall : as.all (fun b => b.length == a.length) = true
      · refine ⟨by simp, ?_, ?_⟩
        · intro b hb
          rcases List.mem_cons.1 hb with rfl | hb
          · rfl
          · simpa [armDim] using List.all_eq_true.1 hall b hb
        · simp only [designSpace, banditConfig, translateSpace, translateFrom, createVariable,
            Option.getD_some, expandConfig, mapE, expandDesc, if_pos hall] at h
          generalize name.getD ("var_" ++ toString 0) = nm at h
          simp [Kind.isBandit, Var.expand, computeIndices] at h
          subst h
          simp [Space.hasBandit, Kind.isBandit]
      · exfalso
        simp only [designSpace, banditConfig, translateSpace, translateFrom, createVariable,
          Option.getD_some, if_neg hall] at h
        simp at h
  refine ⟨hshape.2.2, hshape.1, hshape.2.1, hexp, hran, ?_⟩
  intro hcn o n
  have hsp : sp = { sp with constraints := none } := by
    cases sp; simp only at hcn; subst hcn; rfl
  rw [hsp]
  exact hdes o n "sobol" (by simp)

namespace OneBandit

variable {sp : Space} {arms : Mat}

theorem zip (B : OneBandit sp arms) (X : Mat) : sp.zipInputs X = .ok X := by
  simp [Space.zipInputs, B.hb]

theorem isDup_eq (B : OneBandit sp arms) (dup : Option DupMgr) (x : Vec) :
    isDup dup sp x = .ok (decide (InDup dup x)) := by
  cases dup with
  | none => simp [isDup, InDup]
  | some dm =>
    have : InDup (some dm) x ↔ x ∈ dm.points := by simp [InDup]
    simp [isDup, DupMgr.isUnzippedDup, B.zip, DupMgr.isZippedDup, this, Except.map]

theorem modelDim_eq (B : OneBandit sp arms) : sp.modelDim = armDim arms := by
  obtain ⟨v, h1, h2⟩ := B.expanded
  simp [Space.modelDim, h1, h2, Kind.dimInModel]

theorem design (B : OneBandit sp arms) {t : String} (ht : t ∈ ["random", "sobol"]) {o : DesignOracle}
    {n : Nat} {m : Mat} (hm : initialDesign t sp o n = .ok m) : m.length = n ∧ ∀ row ∈ m, row ∈ arms := by
  simp only [List.mem_cons, List.not_mem_nil, or_false] at ht
  cases hc : sp.constraints with
  | none =>
    rcases ht with rfl | rfl
    · obtain ⟨m', h1, h2⟩ := B.random (o.draws 0) n
      simp [initialDesign, randomDesign, Space.hasConstraints, hc, h1] at hm
      exact hm ▸ h2
    · obtain ⟨m', h1, h2⟩ := B.sobol hc o n
      rw [hm] at h1
      cases h1
      exact h2
  | some cs =>
    rcases ht with rfl | rfl
    · simp only [initialDesign, if_true, randomDesign, Space.hasConstraints, hc, Option.isSome_some] at hm
      have key : ∀ fuel round (acc : Mat), (∀ row ∈ acc, row ∈ arms) →
          constrLoop sp n o.draws fuel round acc = .ok m → m.length = n ∧ ∀ row ∈ m, row ∈ arms := by
        intro fuel
        induction fuel with
        | zero =>
          intro round acc hacc h
          unfold constrLoop at h
          split_ifs at h with hlt
          simp only [Except.ok.injEq] at h
          subst h
          exact ⟨by simp; omega, fun row hr => hacc row (List.mem_of_mem_take hr)⟩
        | succ fuel ih =>
          intro round acc hacc h
          unfold constrLoop at h
          split_ifs at h with hlt
          · obtain ⟨dom, h1, h2, h3⟩ := B.random (o.draws round) n
            simp only [h1] at h
            cases hi : sp.indicatorConstraints dom with
            | error e => simp [hi] at h
            | ok w =>
              simp only [hi] at h
              refine ih _ _ ?_ h
              intro row hr
              rcases List.mem_append.1 hr with hr | hr
              · exact hacc row hr
              · simp only [selectValid, List.mem_filterMap] at hr
                obtain ⟨⟨r, q⟩, hp, hq⟩ := hr
                simp only at hq
                split_ifs at hq
                simp only [Option.some.injEq] at hq
                subst hq
                exact h3 _ (List.of_mem_zip hp).1
          · simp only [Except.ok.injEq] at h
            subst h
            exact ⟨by simp; omega, fun row hr => hacc row (List.mem_of_mem_take hr)⟩
      exact key _ _ _ (by simp) hm
    · simp [initialDesign, sobolDesign, Space.hasConstraints, hc] at hm

theorem design_total (B : OneBandit sp arms) (hc : sp.constraints = none) {t : String}
    (ht : t ∈ ["random", "sobol"]) (o : DesignOracle) (n : Nat) : ∃ m, initialDesign t sp o n = .ok m := by
  simp only [List.mem_cons, List.not_mem_nil, or_false] at ht
  rcases ht with rfl | rfl
  · obtain ⟨m', h1, -⟩ := B.random (o.draws 0) n
    exact ⟨m', by simp [initialDesign, randomDesign, Space.hasConstraints, hc, h1]⟩
  · obtain ⟨m', h1, -⟩ := B.sobol hc o n
    exact ⟨m', h1⟩

theorem bounds_ok (B : OneBandit sp arms) : ∃ b, sp.getBounds = .ok b := by
  obtain ⟨v, h1, h2⟩ := B.expanded
  obtain ⟨b, hb⟩ : ∃ b, v.kind.getBounds = .ok b := by
    rw [h2]
    apply mapE_total
    intro d _
    have hne : column arms d ≠ [] := by simpa [column] using B.ne
    obtain ⟨x, xs, hx⟩ := List.exists_cons_of_ne_nil hne
    simp [hx, pyMin, pyMax]
  exact ⟨[b].flatten, by simp [Space.getBounds, h1, mapE, hb, Except.map]⟩

/-- Only an empty context is accepted. -/
theorem context_empty (B : OneBandit sp arms) {context : Option Context} {c : Ctx}
    (hc : contextManager sp context = .ok c) :
    context.getD [] = [] ∧ c.noncontextIndex = List.range (armDim arms) ∧ c.contextIndex = [] ∧
      c.contextValue = [] := by
  obtain ⟨b, hb⟩ := B.bounds_ok
  obtain ⟨v, h1, h2⟩ := B.expanded
  simp only [contextManager, hb, B.modelDim_eq] at hc
  cases context with
  | none =>
    simp only [Except.ok.injEq] at hc
    subst hc
    simp
  | some l =>
    cases l with
    | nil =>
      simp only [contextLoop, List.not_mem_nil, not_false_eq_true, decide_true, List.filter_true] at hc
      split at hc
      · simp at hc
      · simp only [Except.ok.injEq] at hc
        subst hc
        simp
    | cons nv rest =>
      exfalso
      obtain ⟨nm, x⟩ := nv
      simp only [contextLoop, Space.findVariable, h1, List.reverse_singleton] at hc
      cases hf : List.find? (fun v : EVar => v.name == nm) [v] with
      | none => simp [hf] at hc
      | some w =>
        have hw : w = v := by simpa using List.mem_of_find?_eq_some hf
        subst hw
        simp [hf, h2, Kind.objectiveToModel] at hc

theorem context_none (B : OneBandit sp arms) : ∃ c, contextManager sp none = .ok c := by
  obtain ⟨b, hb⟩ := B.bounds_ok
  simp [contextManager, hb]

theorem x0_ok (B : OneBandit sp arms) {context : Option Context} {c : Ctx}
    (hc : contextManager sp context = .ok c) {x : Vec} (hx : x.length = armDim arms) :
    x0NoContext (some c) x = .ok x := by
  obtain ⟨-, h2, -, -⟩ := B.context_empty hc
  simp only [x0NoContext, h2, ← hx]
  rw [mapE_eq_ok, List.forall₂_iff_get]
  refine ⟨by simp, ?_⟩
  intro i h1 h2
  simp [npGet_ok]

theorem expand_ok (B : OneBandit sp arms) {context : Option Context} {c : Ctx}
    (hc : contextManager sp context = .ok c) {x : Vec} (hx : x.length = armDim arms) :
    c.expandVector sp x = .ok x := by
  obtain ⟨-, h2, h3, h4⟩ := B.context_empty hc
  obtain ⟨out, e1, e2, e3, -⟩ := scatterB_spec (idx := List.range (armDim arms)) (vals := x)
    (row := List.replicate (armDim arms) 0) List.nodup_range (by simp) (by simp [hx])
  have : out = x := by
    simp only [List.length_replicate] at e2
    apply map_some_inj
    rw [← e3]
    apply List.ext_getElem
    · simp [e2]
    · intro i h1 h2
      simp only [List.length_map] at h1
      simp [h1]
  subst this
  simp only [Ctx.expandVector, h2, h3, h4, B.modelDim_eq, e1]
  simp [scatterB, scatter]

theorem round_ok (B : OneBandit sp arms) {x : Vec} (hx : x.length = armDim arms) :
    ∃ a, sp.roundOptimum2d [x] = .ok [a] ∧ Nearest (.bandit arms) x a ∧ a ∈ arms := by
  obtain ⟨v, hv, hvk⟩ := B.expanded
  obtain ⟨a, h1, h2⟩ := roundBandit_spec B.ne (show x.length = Spec.width (.bandit arms) from hx)
  refine ⟨a, ?_, h2, nearest_valid h2⟩
  have hs : slice x 0 (Spec.width (.bandit arms)) = x := by
    rw [slice, List.drop_zero, List.take_of_length_le (by simp only [Spec.width]; simp only [armDim] at hx; omega)]
  simp [Space.roundOptimum2d, Space.roundOptimum, hv, roundPieces, hvk, dimInModel_eq_width, hs, Kind.round, h1,
    concatPieces, concatRows, pieceWidth, Except.map]

/-- Rounding an arm gives an arm equal to it. -/
theorem round_arm (B : OneBandit sp arms) {x : Vec} (hx : x ∈ arms) : sp.roundOptimum2d [x] = .ok [x] := by
  obtain ⟨a, h1, ⟨i, hi, hmin⟩, h3⟩ := B.round_ok (B.width x hx)
  obtain ⟨j, hj⟩ := List.getElem?_of_mem hx
  have h0 := (hmin j x hj).1
  have hz : ∀ l : Vec, (List.zipWith (fun p q : ℚ => (p - q) ^ 2) l l).sum = 0 := by
    intro l
    induction l with
    | nil => rfl
    | cons y l ih => simp
  simp only [hz] at h0
  have hpos : ∀ (l k : Vec), l.length = k.length →
      (List.zipWith (fun p q : ℚ => (p - q) ^ 2) l k).sum ≤ 0 → l = k := by
    intro l
    induction l with
    | nil => intro k hk _; simpa using hk.symm
    | cons y l ih =>
      intro k hk hs
      cases k with
      | nil => simp at hk
      | cons w k =>
        simp only [List.zipWith_cons_cons, List.sum_cons] at hs
        have hnn : 0 ≤ (List.zipWith (fun p q : ℚ => (p - q) ^ 2) l k).sum := by
          apply List.sum_nonneg
          intro q hq
          simp only [List.mem_iff_getElem, List.getElem_zipWith] at hq
          obtain ⟨i, _, rfl⟩ := hq
          exact sq_nonneg _
        have h1 : (y - w) ^ 2 = 0 := le_antisymm (by linarith) (sq_nonneg _)
        have h2 : y = w := by
          have := pow_eq_zero_iff (two_ne_zero) |>.1 h1
          linarith
        rw [h2, ih k (by simpa using hk) (by linarith [sq_nonneg (y - w)])]
  rw [h1, hpos a x (by rw [B.width a h3, B.width x hx]) h0]

/-- What `apply_optimizer` does when it starts at an arm. -/
theorem applyOptimizer_ok (B : OneBandit sp arms) {context : Option Context} {c : Ctx}
    (hc : contextManager sp context = .ok c) (dup : Option DupMgr)
    {opt : (Vec → Py ℚ) → Vec → Py Vec} (hopt : OptShape opt) (f : Vec → Py ℚ) {x0 : Vec}
    (hx0 : x0 ∈ arms) (hd : ¬ InDup dup x0) :
    (∃ e, opt (fNoContext (some c) sp f) x0 = .error e ∧
        applyOptimizer sp (some c) dup opt f x0 = .error e) ∨
    ∃ y x, opt (fNoContext (some c) sp f) x0 = .ok y ∧ x ∈ arms ∧ ¬ InDup dup x ∧
      (applyOptimizer sp (some c) dup opt f x0
        = match f x with | .error e => .error e | .ok v => .ok (x, v)) := by
  have hw := B.width x0 hx0
  cases ho : opt (fNoContext (some c) sp f) x0 with
  | error e =>
    left
    exact ⟨e, rfl, by simp [applyOptimizer, B.x0_ok hc hw, B.isDup_eq, hd, ho]⟩
  | ok y =>
    right
    have hy : y.length = armDim arms := (hopt _ _ _ ho).trans hw
    obtain ⟨a, h1, -, h3⟩ := B.round_ok hy
    by_cases hda : InDup dup a
    · refine ⟨y, x0, rfl, hx0, hd, ?_⟩
      simp only [applyOptimizer, B.x0_ok hc hw, B.isDup_eq, hd, ho, addContext, B.expand_ok hc hy, h1, hda,
        decide_false, decide_true]
      cases f x0 <;> rfl
    · refine ⟨y, a, rfl, h3, hda, ?_⟩
      simp only [applyOptimizer, B.x0_ok hc hw, B.isDup_eq, hd, ho, addContext, B.expand_ok hc hy, h1, hda,
        decide_false]
      cases f a <;> rfl

/-- The anchor points, described through the sampled arms. -/
theorem anchorPoints_ok (B : OneBandit sp arms) (c : Ctx) {o : DesignOracle} {t : String}
    (ht : t ∈ ["random", "sobol"]) {n : Nat} (hn : 0 < n) (unique : Bool) (dup : Option DupMgr)
    (numAnchor : Nat) {score : Mat → Py (List ℚ)} (hsc : ScoreShape score)
    {argsort : List ℚ → List Nat} (ha : IsArgsort argsort) :
    (∃ e, initialDesign t sp o n = .error e ∧
      anchorPoints sp (some c) dup unique t n numAnchor o score argsort = .error e) ∨
    ∃ m, initialDesign t sp o n = .ok m ∧ m.length = n ∧ (∀ row ∈ m, row ∈ arms) ∧
      ((∀ z ∈ m, InDup dup z) →
        anchorPoints sp (some c) dup unique t n numAnchor o score argsort = .error .fullyExplored) ∧
      ((∃ z ∈ m, ¬ InDup dup z) →
        (∃ X e, score X = .error e ∧
          anchorPoints sp (some c) dup unique t n numAnchor o score argsort = .error e) ∨
        ∃ A : Mat, anchorPoints sp (some c) dup unique t n numAnchor o score argsort = .ok A ∧
          (0 < numAnchor → A ≠ []) ∧ ∀ a ∈ A, a ∈ m ∧ ¬ InDup dup a) := by
  cases hd : initialDesign t sp o n with
  | error e =>
    left
    exact ⟨e, rfl, by simp [anchorPoints, anchorSamples, anchorSpace, B.hb, hd]⟩
  | ok m =>
    right
    obtain ⟨h1, h2⟩ := B.design ht hd
    refine ⟨m, rfl, h1, h2, ?_⟩
    have hmne : m ≠ [] := by rintro rfl; simp at h1; omega
    obtain ⟨Z, hZ, hZm⟩ : ∃ Z : Mat, anchorSamples sp (some c) unique t n o = .ok Z ∧
        ∀ z, z ∈ Z ↔ z ∈ m := by
      have hid : ∀ X : Mat, mapE (addContext none sp) X = .ok X := by
        intro X
        induction X with
        | nil => rfl
        | cons x X ih => simp [mapE, addContext] at ih ⊢; simp [ih]
      cases unique with
      | false => exact ⟨m, by simp [anchorSamples, anchorSpace, B.hb, hd, Space.unzipInputs, hid], fun _ => Iff.rfl⟩
      | true =>
        exact ⟨sortedUnique m, by simp [anchorSamples, anchorSpace, B.hb, hd, Space.unzipInputs, hid, hmne],
          fun _ => mem_sortedUnique⟩
    have hfl : mapE (isDup dup sp) Z = .ok (Z.map fun z => decide (InDup dup z)) := by
      clear hZ hZm
      induction Z with
      | nil => rfl
      | cons z Z ih => simp only [mapE, B.isDup_eq, List.map_cons]; rw [ih]
    have hnd : nonDuplicates Z (Z.map fun z => decide (InDup dup z))
        = Z.filter (fun z => !decide (InDup dup z)) := by
      have := nonDuplicates_map (fun z : Vec => z) (fun z => decide (InDup dup z)) Z
      simpa using this
    generalize hF : Z.filter (fun z => !decide (InDup dup z)) = F at hnd
    have hFm : ∀ z, z ∈ F ↔ z ∈ m ∧ ¬ InDup dup z := by
      intro z; rw [← hF, List.mem_filter, hZm]; simp
    constructor
    · intro hall
      have : F = [] := List.eq_nil_iff_forall_not_mem.2 fun z hz => ((hFm z).1 hz).2 (hall z ((hFm z).1 hz).1)
      simp [anchorPoints, hZ, hfl, hnd, this]
    · rintro ⟨z0, hz0, hnz0⟩
      have hFne : F ≠ [] := List.ne_nil_of_mem ((hFm z0).2 ⟨hz0, hnz0⟩)
      cases hs : score F with
      | error e =>
        left
        exact ⟨F, e, hs, by simp [anchorPoints, hZ, hfl, hnd, hFne, hs]⟩
      | ok s =>
        right
        have hsl := hsc _ _ hs
        have hperm := (ha s).1
        have hlen : (argsort s).length = s.length := by simpa using hperm.length_eq
        have hlt : ∀ i ∈ (argsort s).take (min s.length numAnchor), i < F.length := by
          intro i hi
          have := hperm.mem_iff.1 (List.mem_of_mem_take hi)
          simp at this; omega
        obtain ⟨A, hA1, hA2⟩ := mapE_npGet_total F _ hlt
        refine ⟨A, by simp only [anchorPoints, hZ, hfl, hnd, hFne, if_false, hs, hA1], ?_, ?_⟩
        · intro hpos hA
          subst hA
          have := congrArg List.length hA2
          simp only [List.length_map, List.length_take, hlen, List.length_nil] at this
          have : 0 < F.length := List.length_pos_iff.2 hFne
          omega
        · intro a haA
          have : some a ∈ A.map some := List.mem_map_of_mem haA
          rw [hA2, List.mem_map] at this
          obtain ⟨i, -, hi⟩ := this
          exact (hFm a).1 (List.mem_of_getElem? hi)

end OneBandit

end GPyOpt
