import Verif.Model.LocalOptimizer
import Verif.Props.Suggest

/-!
# Properties C98–C100: local optimizers and the quality of suggestions
-/

namespace GPyOpt.Props

open GPyOpt Spec

/-- A point of a box. -/
def InBox (b : Bounds) (x : Vec) : Prop := List.Forall₂ (fun (i : ℚ × ℚ) v => i.1 ≤ v ∧ v ≤ i.2) b x

/-- What is assumed of `fmin_l_bfgs_b`: unless the line search failed, the result of a start in the
box is in the box, comes with its value, and is not worse than the start. -/
structure ScipyContract (s : Scipy) : Prop where
  withGrad : ∀ F b x0 y v, InBox b x0 → s.withGrad F b x0 = .ok (y, v, false) →
    InBox b y ∧ (∃ g, F y = .ok (v, g)) ∧ ∀ v0 g0, F x0 = .ok (v0, g0) → v ≤ v0
  approx : ∀ g b x0 y v, InBox b x0 → s.approx g b x0 = .ok (y, v, false) →
    InBox b y ∧ g y = .ok v ∧ ∀ v0, g x0 = .ok v0 → v ≤ v0

/-! ## C98: the local optimizers -/

/-- C98. L-BFGS: the returned location is in the box, the returned value is the value of the function
there, and it is not worse than the value at the start, also if the line search fails. The start must
have a gradient with a row if gradients are used. -/
theorem C98_lbfgs (s : Scipy) (hs : ScipyContract s) (b : Bounds) (f : Vec → Py ℚ)
    (df : Option (Vec → Py Mat)) (fdf : Option (Vec → Py (ℚ × Mat))) (x0 : Vec) (h0 : InBox b x0)
    (hg : ∀ F, fdf = some F → ∃ v g gs, F x0 = .ok (v, g :: gs)) (r : Vec × ℚ)
    (hr : lbfgsOptimize s b f df fdf x0 = .ok r) :
    InBox b r.1 ∧ f r.1 = .ok r.2 ∧ ∀ v0, f x0 = .ok v0 → r.2 ≤ v0 := by
  have abn : ∀ y v, lbfgsResult f x0 (.ok (y, v, true)) = .ok r →
      InBox b r.1 ∧ f r.1 = .ok r.2 ∧ ∀ v0, f x0 = .ok v0 → r.2 ≤ v0 := by
    intro y v h
    cases hf : f x0 with
    | error e => simp [lbfgsResult, hf] at h
    | ok v0 =>
      simp only [lbfgsResult, hf, Except.ok.injEq] at h
      subst h
      exact ⟨h0, hf, fun v0' h' => by injection h' with h'; rw [h']⟩
  cases fdf with
  | none =>
    cases df with
    | some d => simp [lbfgsOptimize] at hr
    | none =>
      simp only [lbfgsOptimize] at hr
      rcases hq : s.approx f b x0 with e | ⟨y, v, a⟩
      · simp [hq, lbfgsResult] at hr
      · rw [hq] at hr
        cases a with
        | true => exact abn y v hr
        | false =>
          simp only [lbfgsResult, Except.ok.injEq] at hr
          subst hr
          exact hs.approx f b x0 y v h0 hq
  | some F =>
    have hr' : lbfgsResult f x0 (s.withGrad (lbfgsFun f F) b x0) = .ok r := by
      cases df <;> exact hr
    rcases hq : s.withGrad (lbfgsFun f F) b x0 with e | ⟨y, v, a⟩
    · simp [hq, lbfgsResult] at hr'
    · rw [hq] at hr'
      cases a with
      | true => exact abn y v hr'
      | false =>
        simp only [lbfgsResult, Except.ok.injEq] at hr'
        subst hr'
        obtain ⟨h1, ⟨g, h2⟩, h3⟩ := hs.withGrad _ b x0 y v h0 hq
        refine ⟨h1, ?_, ?_⟩
        · unfold lbfgsFun at h2
          cases hf : f y with
          | error e => simp [hf] at h2
          | ok v' =>
            simp only [hf] at h2
            cases hF : F y with
            | error e => simp [hF] at h2
            | ok vg =>
              simp only [hF] at h2
              cases hn : npGet vg.2 0 with
              | error e => simp [hn] at h2
              | ok g' =>
                simp only [hn, Except.ok.injEq, Prod.mk.injEq] at h2
                rw [h2.1]
        · intro v0 hv0
          obtain ⟨w, g0, gs, hF⟩ := hg F rfl
          exact h3 v0 g0 (by simp [lbfgsFun, hv0, hF, npGet])

/-- C98 (negation): L-BFGS with a gradient `df` but without `f_df` raises a `NameError`, for every
function, gradient and start. -/
theorem C98_gradient_argument_counterexample (s : Scipy) (b : Bounds) (f : Vec → Py ℚ)
    (df : Vec → Py Mat) (x0 : Vec) : lbfgsOptimize s b f (some df) none x0 = .error .nameError := rfl

/-- C98. DIRECT and CMA: the returned value is the value of the function at the returned location;
CMA is refused for one variable. DIRECT does not use its start. -/
theorem C98_direct_cma (solve : (Vec → Py ℚ) → Bounds → Py Vec)
    (fmin : (Vec → Py ℚ) → Vec → Bounds → Py Vec) (b : Bounds) (f : Vec → Py ℚ) (x0 : Vec) (r : Vec × ℚ) :
    (directOptimize solve b f x0 = .ok r → solve f b = .ok r.1 ∧ f r.1 = .ok r.2) ∧
    (∀ x1, directOptimize solve b f x1 = directOptimize solve b f x0) ∧
    (cmaOptimize fmin b f x0 = .ok r → b.length ≠ 1 ∧ fmin f x0 b = .ok r.1 ∧ f r.1 = .ok r.2) ∧
    (b.length = 1 → cmaOptimize fmin b f x0 = .error .indexError) := by
  refine ⟨?_, fun _ => rfl, ?_, fun h => by simp [cmaOptimize, h]⟩
  · intro h
    unfold directOptimize at h
    cases hs : solve f b with
    | error e => simp [hs] at h
    | ok x =>
      cases hf : f x with
      | error e => simp [hs, hf] at h
      | ok v =>
        simp only [hs, hf, Except.ok.injEq] at h
        subst h
        exact ⟨rfl, hf⟩
  · intro h
    unfold cmaOptimize at h
    split_ifs at h with hb
    cases hs : fmin f x0 b with
    | error e => simp [hs] at h
    | ok x =>
      cases hf : f x with
      | error e => simp [hs, hf] at h
      | ok v =>
        simp only [hs, hf, Except.ok.injEq] at h
        subst h
        exact ⟨hb, rfl, hf⟩

/-- A solver for the examples: it tries the lower corner. -/
def exScipy : Scipy where
  withGrad F b x0 := match F (b.map Prod.fst), F x0 with
    | .ok (v, _), .ok (v0, _) => if v ≤ v0 then .ok (b.map Prod.fst, v, false) else .ok (x0, v0, false)
    | .ok _, .error e => .error e
    | .error e, _ => .error e
  approx g b x0 := match g (b.map Prod.fst), g x0 with
    | .ok v, .ok v0 => if v ≤ v0 then .ok (b.map Prod.fst, v, false) else .ok (x0, v0, false)
    | .ok _, .error e => .error e
    | .error e, _ => .error e

theorem inBox_corner {b : Bounds} {x : Vec} (h : InBox b x) : InBox b (b.map Prod.fst) := by
  unfold InBox at h ⊢
  induction h with
  | nil => exact .nil
  | cons h1 _ ih => exact .cons ⟨le_refl _, h1.1.trans h1.2⟩ ih

/-- The contract of C98 can be met. -/
example : ScipyContract exScipy where
  withGrad F b x0 y v h0 h := by
    rcases h1 : F (b.map Prod.fst) with e | ⟨v1, g1⟩
    · simp [exScipy, h1] at h
    rcases h2 : F x0 with e | ⟨v2, g2⟩
    · simp [exScipy, h1, h2] at h
    simp only [exScipy, h1, h2] at h
    split_ifs at h with hle
    · simp only [Except.ok.injEq, Prod.mk.injEq, and_true] at h
      obtain ⟨rfl, rfl⟩ := h
      exact ⟨inBox_corner h0, ⟨g1, h1⟩, fun v0 g0 h' => by cases h'; exact hle⟩
    · simp only [Except.ok.injEq, Prod.mk.injEq, and_true] at h
      obtain ⟨rfl, rfl⟩ := h
      exact ⟨h0, ⟨g2, h2⟩, fun v0 g0 h' => by cases h'; exact le_refl _⟩
  approx g b x0 y v h0 h := by
    cases h1 : g (b.map Prod.fst) with
    | error e => simp [exScipy, h1] at h
    | ok v1 =>
      cases h2 : g x0 with
      | error e => simp [exScipy, h1, h2] at h
      | ok v2 =>
        simp only [exScipy, h1, h2] at h
        split_ifs at h with hle
        · simp only [Except.ok.injEq, Prod.mk.injEq, and_true] at h
          obtain ⟨rfl, rfl⟩ := h
          exact ⟨inBox_corner h0, h1, fun v0 h' => by cases h'; exact hle⟩
        · simp only [Except.ok.injEq, Prod.mk.injEq, and_true] at h
          obtain ⟨rfl, rfl⟩ := h
          exact ⟨h0, h2, fun v0 h' => by cases h'; exact le_refl _⟩

/-! ## C99: gradients of the free variables -/

/-- Scalar product of rows. -/
def rowDot (a b : Vec) : ℚ := (List.zipWith (· * ·) a b).sum

/-- Sum of rows. -/
def rowAdd (a b : Vec) : Vec := List.zipWith (· + ·) a b

/-- `D` is the gradient of `f` at `x`: the error of the linear approximation is of smaller order than
the step. -/
def HasGrad (f : Vec → Py ℚ) (x D : Vec) : Prop :=
  D.length = x.length ∧ ∃ v, f x = .ok v ∧ ∀ ε > 0, ∃ δ > 0, ∀ h : Vec, h.length = x.length →
    (h.map abs).sum < δ → ∃ w, f (rowAdd x h) = .ok w ∧ |w - v - rowDot D h| ≤ ε * (h.map abs).sum

/-- Sums over all columns reduce to sums over the free ones. -/
theorem sum_range_filter (p : Nat → Bool) (g : Nat → ℚ) (n : Nat) (h : ∀ i < n, p i = false → g i = 0) :
    ((List.range n).map g).sum = (((List.range n).filter p).map g).sum := by
  have : ∀ l : List Nat, (∀ i ∈ l, p i = false → g i = 0) → (l.map g).sum = ((l.filter p).map g).sum := by
    intro l
    induction l with
    | nil => intro _; rfl
    | cons i l ih =>
      intro hl
      have := ih fun j hj => hl j (by simp [hj])
      cases hp : p i with
      | true => simp [hp, this]
      | false => simp [hp, this, hl i (by simp) hp]
  exact this _ fun i hi => h i (List.mem_range.1 hi)

theorem sum_eq_range (l : Vec) (g : ℚ → ℚ) (n : Nat) (hl : l.length = n) :
    (l.map g).sum = ((List.range n).map fun i => g (l.getD i 0)).sum := by
  congr 1
  apply List.ext_getElem?
  intro i
  by_cases hi : i < n
  · have hi' : i < l.length := hl ▸ hi
    simp [hi, List.getD_eq_getElem?_getD, hi']
  · have hi' : ¬ i < l.length := hl ▸ hi
    simp [List.getElem?_map, hi, List.getElem?_eq_none (not_lt.1 hi')]

theorem rowDot_eq_range (a b : Vec) (n : Nat) (ha : a.length = n) (hb : b.length = n) :
    rowDot a b = ((List.range n).map fun i => a.getD i 0 * b.getD i 0).sum := by
  unfold rowDot
  congr 1
  apply List.ext_getElem?
  intro i
  by_cases hi : i < n
  · have ha' : i < a.length := ha ▸ hi
    have hb' : i < b.length := hb ▸ hi
    simp [hi, List.getD_eq_getElem?_getD, ha', hb']
  · have ha' : ¬ i < a.length := ha ▸ hi
    simp [List.getElem?_zipWith, hi, List.getElem?_eq_none (not_lt.1 ha')]

theorem map_getD_of_map_some {idx : List Nat} {row x : Vec}
    (h : idx.map (fun i => row[i]?) = x.map some) : idx.map (fun i => row.getD i 0) = x := by
  have h2 : (idx.map fun i => row.getD i 0) = (idx.map (fun i => row[i]?)).map (·.getD 0) := by
    simp [List.map_map, Function.comp_def, List.getD_eq_getElem?_getD]
  rw [h2, h]
  simp [Function.comp_def]

/-- C99. With a context the local optimizer works on the function of the free variables that inserts
the context values, and is given its gradient: if the gradient of the acquisition is right at the full
location then the one handed to the optimizer is right, too. -/
theorem C99_context_gradient {config : List Desc} {cs : Option (List ConstrDict)} {sp : Space}
    (h : designSpace config cs = .ok sp) (hb : sp.hasBandit = false)
    (context : Option Context) (hg : ValidContext sp context) (c : Ctx)
    (hc : contextManager sp context = .ok c) (f : Vec → Py ℚ) (fdf : Vec → Py (ℚ × Mat))
    (x : Vec) (hx : x.length = c.noncontextIndex.length) :
    ∃ xx, c.expandVector sp x = .ok xx ∧ fNoContext (some c) sp f x = f xx ∧
      ∀ v D, fdf xx = .ok (v, [D]) → HasGrad f xx D →
        ∃ g, fdfNoContext (some c) sp fdf x = .ok (v, [g]) ∧
          (∀ df, (dfNoContext (some c) sp df fdf).map (fun d => d x) = some (.ok [g])) ∧
          HasGrad (fNoContext (some c) sp f) x g := by
  obtain ⟨vs, es, hcok⟩ := contextManager_ok hc
  obtain ⟨bin, h1, -, h3, -, -, h6, h7⟩ := expandVector_blocks h hb hcok hg.1 x hx
  refine ⟨_, h1, by simp only [fNoContext, h1], ?_⟩
  intro v D hfdf hD
  have hDl : D.length = sp.modelDim := hD.1.trans h3
  have hflt : ∀ i ∈ c.noncontextIndex, i < D.length := by
    intro i hi
    rw [hcok.free, List.mem_filter, List.mem_range] at hi
    omega
  obtain ⟨g, hgm, hgg⟩ := mapE_npGet_total D c.noncontextIndex hflt
  have hgg' : c.noncontextIndex.map (fun i => D.getD i 0) = g :=
    map_getD_of_map_some (mapE_npGet_map_some hgm)
  have hgl : g.length = x.length := by rw [mapE_length hgm, hx]
  refine ⟨g, by simp [fdfNoContext, h1, hfdf, mapE, hgm],
    fun df => by simp [dfNoContext, h1, hfdf, mapE, hgm], hgl, ?_⟩
  obtain ⟨-, v0, hv0, hlim⟩ := hD
  refine ⟨v0, by simp only [fNoContext, h1, hv0], ?_⟩
  intro ε hε
  obtain ⟨δ, hδ, hh⟩ := hlim ε hε
  refine ⟨δ, hδ, ?_⟩
  intro d hdl hdδ
  -- the displaced location
  have hxd : (rowAdd x d).length = c.noncontextIndex.length := by simp [rowAdd, hdl, hx]
  obtain ⟨bin2, k1, -, k3, -, -, k6, k7⟩ := expandVector_blocks h hb hcok hg.1 (rowAdd x d) hxd
  generalize hrow : bin.flatten = row at *
  generalize hrow2 : bin2.flatten = row2 at *
  -- the step in the full space
  let dd : Vec := (List.range sp.modelDim).map fun i => row2.getD i 0 - row.getD i 0
  have hddl : dd.length = sp.modelDim := by simp [dd]
  have hdd : ∀ i < sp.modelDim, dd.getD i 0 = row2.getD i 0 - row.getD i 0 := by
    intro i hi
    simp [dd, List.getD_eq_getElem?_getD, hi]
  have hadd : rowAdd row dd = row2 := by
    apply List.ext_getElem?
    intro i
    unfold rowAdd
    rw [List.getElem?_zipWith]
    by_cases hi : i < sp.modelDim
    · have e1 : i < row.length := by omega
      have e2 : i < row2.length := by omega
      have e3 : i < dd.length := by omega
      have := hdd i hi
      simp only [List.getD_eq_getElem?_getD, List.getElem?_eq_getElem e1, List.getElem?_eq_getElem e2,
        List.getElem?_eq_getElem e3, Option.getD_some] at this
      simp only [List.getElem?_eq_getElem e1, List.getElem?_eq_getElem e2, List.getElem?_eq_getElem e3,
        Option.some.injEq, this]
      ring
    · have e1 : row[i]? = none := List.getElem?_eq_none (by omega)
      have e2 : row2[i]? = none := List.getElem?_eq_none (by omega)
      simp only [e1, e2]
  -- context columns do not move
  have hctx : ∀ i < sp.modelDim, decide (i ∉ c.contextIndex) = false → dd.getD i 0 = 0 := by
    intro i hi hp
    simp only [decide_eq_false_iff_not, not_not] at hp
    rw [hdd i hi]
    have : c.contextIndex.map (fun i => row[i]?) = c.contextIndex.map (fun i => row2[i]?) := h7.trans k7.symm
    have := List.map_inj_left.1 this i hp
    simp only [List.getD_eq_getElem?_getD, this, sub_self]
  -- free columns move as the step
  have hfree : c.noncontextIndex.map (fun i => dd.getD i 0) = d := by
    have e1 := map_getD_of_map_some h6
    have e2 := map_getD_of_map_some k6
    have : c.noncontextIndex.map (fun i => dd.getD i 0)
        = List.zipWith (· - ·) (c.noncontextIndex.map fun i => row2.getD i 0)
            (c.noncontextIndex.map fun i => row.getD i 0) := by
      rw [List.zipWith_map, List.zipWith_self]
      apply List.map_congr_left
      intro i hi
      exact hdd i (by have := hflt i hi; omega)
    rw [this, e1, e2]
    unfold rowAdd
    clear this e1 e2 h6 k6 k1 h1 hxd hx hgl hdδ
    induction x generalizing d with
    | nil => cases d with
      | nil => rfl
      | cons a d => simp at hdl
    | cons a x ih => cases d with
      | nil => simp at hdl
      | cons b d =>
        simp only [List.zipWith_cons_cons, List.cons.injEq]
        exact ⟨by ring, ih d (by simpa using hdl)⟩
  have hfr : c.noncontextIndex = (List.range sp.modelDim).filter fun i => decide (i ∉ c.contextIndex) := hcok.free
  have habs : (dd.map abs).sum = (d.map abs).sum := by
    rw [sum_eq_range dd abs _ hddl, sum_range_filter (fun i => decide (i ∉ c.contextIndex)) _ _
      (fun i hi hp => by rw [hctx i hi hp, abs_zero]), ← hfr, ← hfree, List.map_map]
    rfl
  have hdot : rowDot D dd = rowDot g d := by
    rw [rowDot_eq_range D dd _ hDl hddl, sum_range_filter (fun i => decide (i ∉ c.contextIndex)) _ _
      (fun i hi hp => by rw [hctx i hi hp, mul_zero]), ← hfr]
    unfold rowDot
    rw [← hfree, ← hgg', List.zipWith_map, List.zipWith_self]
  obtain ⟨w, hw1, hw2⟩ := hh dd (hddl.trans h3.symm) (by rw [habs]; exact hdδ)
  rw [hadd] at hw1
  refine ⟨w, by simp only [fNoContext, k1, hw1], ?_⟩
  rw [← hdot, ← habs]
  exact hw2

/-- The assumption of C99 on the gradient is met by a linear function. -/
example : HasGrad (fun x => .ok (rowDot [2, 3] x)) [1, 5] [2, 3] := by
  refine ⟨rfl, _, rfl, fun ε hε => ⟨1, one_pos, ?_⟩⟩
  rintro h hl -
  obtain ⟨a, b, rfl⟩ : ∃ a b, h = [a, b] := by
    match h, hl with
    | [a, b], _ => exact ⟨a, b, rfl⟩
  refine ⟨_, rfl, ?_⟩
  have : rowDot [2, 3] (rowAdd [1, 5] [a, b]) - rowDot [2, 3] [1, 5] - rowDot [2, 3] [a, b] = 0 := by
    simp [rowDot, rowAdd]; ring
  rw [this, abs_zero]
  have : (0 : ℚ) ≤ ([a, b].map abs).sum := by simp; positivity
  positivity

/-! ## C100: suggestions are at least as good as the samples -/

/-- All variables are continuous. -/
def AllCont (ks : List Kind) : Prop := ∀ k ∈ ks, ∃ lo hi, k = .continuous lo hi

theorem encodeRow_cont {ks : List Kind} (hk : AllCont ks) {z : Vec} (hl : ks.length = z.length) :
    encodeRow ks z = z := by
  induction ks generalizing z with
  | nil =>
    cases z with
    | nil => rfl
    | cons a z => simp at hl
  | cons k ks ih =>
    cases z with
    | nil => simp at hl
    | cons a z =>
      obtain ⟨lo, hi, rfl⟩ := hk k (by simp)
      have := ih (fun k' hk' => hk k' (by simp [hk'])) (z := z) (by simpa using hl)
      unfold encodeRow at this ⊢
      simp [encodeVal, this]

theorem width_cont {ks : List Kind} (hk : AllCont ks) : (ks.map width).sum = ks.length := by
  induction ks with
  | nil => rfl
  | cons k ks ih =>
    obtain ⟨lo, hi, rfl⟩ := hk k (by simp)
    simp [width, ih fun k' hk' => hk k' (by simp [hk'])]
    omega

/-- The box of a continuous variable. -/
def contBox : Kind → ℚ × ℚ
  | .continuous lo hi => (lo, hi)
  | _ => (0, 0)

theorem getBounds_cont {sp : Space} (hk : AllCont sp.kinds) :
    sp.getBounds = .ok (sp.kinds.map contBox) := by
  unfold Space.getBounds Space.kinds at *
  generalize sp.expanded = ex at *
  induction ex with
  | nil => rfl
  | cons v ex ih =>
    obtain ⟨lo, hi, hv⟩ := hk v.kind (by simp)
    have := ih fun k hk' => hk k (by simp only [List.map_cons, List.mem_cons]; exact .inr hk')
    cases hm : mapE (fun v : EVar => v.kind.getBounds) ex with
    | error e => rw [hm] at this; cases this
    | ok r =>
      rw [hm] at this
      simp only [Except.map, Except.ok.injEq] at this
      have hgb : v.kind.getBounds = .ok [(lo, hi)] := by rw [hv]; rfl
      have hcb : contBox v.kind = (lo, hi) := by rw [hv]; rfl
      simp only [mapE, hgb, hm, Except.map, List.flatten_cons, this, List.map_cons, hcb,
        List.singleton_append]

theorem idxModel_cont {config : List Desc} {cs : Option (List ConstrDict)} {sp : Space}
    (h : designSpace config cs = .ok sp) (hb : sp.hasBandit = false) (hk : AllCont sp.kinds)
    {v : EVar} (hv : v ∈ sp.expanded) : v.idxModel = [v.idxObj] := by
  obtain ⟨i, hi⟩ := List.getElem?_of_mem hv
  obtain ⟨h1, h2, h3⟩ := C07_layout h hb i v hi
  rw [← space_kinds_eq h] at h2 h3
  obtain ⟨lo, hi', hvk⟩ := hk v.kind (List.mem_of_getElem? h2)
  have hlt : i ≤ sp.kinds.length := (List.getElem?_eq_some_iff.1 h2).1.le
  rw [h3, hvk, h1, width_cont fun k hk' => hk k (List.mem_of_mem_take hk')]
  simp [width, Nat.min_eq_left hlt]

theorem noncontext_cont {config : List Desc} {cs : Option (List ConstrDict)} {sp : Space}
    (h : designSpace config cs = .ok sp) (hb : sp.hasBandit = false) (hk : AllCont sp.kinds)
    {context : Option Context} {c : Ctx} (hc : contextManager sp context = .ok c) :
    c.noncontextIndex = (List.range sp.kinds.length).filter (freePos c) := by
  obtain ⟨vs, es, hcok⟩ := contextManager_ok hc
  rw [hcok.free, modelDim_eq, width_cont hk]
  apply List.filter_congr
  intro i _
  have hvs : ∀ v ∈ vs, v.idxModel = [v.idxObj] := by
    intro v hv
    obtain ⟨nv, -, hf⟩ := forall₂_mem_right hcok.find hv
    exact idxModel_cont h hb hk (mem_of_find hf).1
  have : i ∈ c.contextIndex ↔ i ∈ c.contextIndexObj := by
    rw [hcok.idx, hcok.obj, List.mem_flatMap, List.mem_map]
    constructor
    · rintro ⟨v, hv, hi⟩
      rw [hvs v hv, List.mem_singleton] at hi
      exact ⟨v, hv, hi.symm⟩
    · rintro ⟨v, hv, hi⟩
      exact ⟨v, hv, by rw [hvs v hv, List.mem_singleton]; exact hi.symm⟩
  simp only [freePos, this]

theorem bounds_cont {config : List Desc} {cs : Option (List ConstrDict)} {sp : Space}
    (h : designSpace config cs = .ok sp) (hb : sp.hasBandit = false) (hk : AllCont sp.kinds)
    {context : Option Context} {c : Ctx} (hc : contextManager sp context = .ok c) :
    c.noncontextBounds = (keep (freePos c) 0 sp.kinds).map contBox := by
  have hn := noncontext_cont h hb hk hc
  have key : mapE (npGet (sp.kinds.map contBox)) c.noncontextIndex
      = .ok ((keep (freePos c) 0 sp.kinds).map contBox) := by
    rw [hn, ← keep_map]
    have := mapE_npGet_filter_range (freePos c) (sp.kinds.map contBox)
    rwa [List.length_map] at this
  unfold contextManager at hc
  simp only [getBounds_cont hk] at hc
  cases context with
  | none =>
    simp only [Except.ok.injEq] at hc
    subst hc
    simp only at key ⊢
    have : ∀ (p : Nat → Bool) (l : List Kind) s, (∀ j, p j = true) → keep p s l = l := by
      intro p l
      induction l with
      | nil => intro s _; rfl
      | cons a l ih => intro s hp; simp [keep, ih _ hp, hp]
    rw [this _ _ _ (fun j => by simp [freePos])]
  | some ctx =>
    simp only at hc
    cases hl : contextLoop sp ctx with
    | error e => simp [hl] at hc
    | ok t =>
      obtain ⟨im, io, vals⟩ := t
      simp only [hl] at hc
      cases hm : mapE (npGet (sp.kinds.map contBox)) ((List.range sp.modelDim).filter fun i => i ∉ im) with
      | error e => simp only [hm] at hc; cases hc
      | ok ncb =>
        simp only [hm, Except.ok.injEq] at hc
        subst hc
        simp only at key ⊢
        rw [hm] at key
        injection key

theorem inBox_iff {ks : List Kind} (hk : AllCont ks) (y : Vec) :
    InBox (ks.map contBox) y ↔ ObjDomain ks y := by
  unfold InBox ObjDomain
  rw [List.forall₂_map_left_iff]
  constructor
  · intro h
    induction h with
    | nil => exact .nil
    | @cons k a ks l h1 _ ih =>
      obtain ⟨lo, hi, rfl⟩ := hk k (by simp)
      exact .cons h1 (ih fun k' hk' => hk k' (by simp [hk']))
  · intro h
    induction h with
    | nil => exact .nil
    | @cons k a ks l h1 _ ih =>
      obtain ⟨lo, hi, rfl⟩ := hk k (by simp)
      exact .cons h1 (ih fun k' hk' => hk k' (by simp [hk']))

/-- What a local optimizer has to guarantee on a box: stay inside, know the value, do not get worse. -/
def Descends (opt : (Vec → Py ℚ) → Vec → Py Vec) (b : Bounds) : Prop :=
  ∀ g x y, InBox b x → opt g x = .ok y → InBox b y ∧ ∀ v0, g x = .ok v0 → ∃ v, g y = .ok v ∧ v ≤ v0

theorem allCont_keep {ks : List Kind} (hk : AllCont ks) (p : Nat → Bool) : AllCont (keep p 0 ks) :=
  fun k hk' => hk k ((keep_sublist p ks 0).subset hk')

/-- Started at a known value, the local search of a continuous space does not get worse. -/
theorem applyOptimizer_descends {config : List Desc} {cs : Option (List ConstrDict)} {sp : Space}
    (h : designSpace config cs = .ok sp) (hb : sp.hasBandit = false)
    (hs : ∀ k ∈ sp.kinds, Samplable k) (hvar : sp.kinds ≠ []) (hk : AllCont sp.kinds)
    {context : Option Context} (hg : ValidContext sp context) {c : Ctx}
    (hc : contextManager sp context = .ok c) {dup : Option DupMgr}
    {opt : (Vec → Py ℚ) → Vec → Py Vec} (hopt : Descends opt c.noncontextBounds) {f : Vec → Py ℚ}
    {x0 : Vec} (hz0 : ObjDomain sp.kinds x0) (hctx0 : HasContext sp context x0) {r : Vec × ℚ}
    (hr : applyOptimizer sp (some c) dup opt f x0 = .ok r) {v0 : ℚ} (hv0 : f x0 = .ok v0) :
    r.2 ≤ v0 := by
  have hx0e : encodeRow sp.kinds x0 = x0 := encodeRow_cont hk hz0.length_eq
  obtain ⟨xs, hxs, hexp⟩ := x0NoContext_expand h hb hg hc hz0 hctx0
  rw [hx0e] at hxs hexp
  have hd0 := isDup_encode h hb dup hz0
  rw [hx0e] at hd0
  have hxbox : InBox c.noncontextBounds xs := by
    rw [bounds_cont h hb hk hc, inBox_iff (allCont_keep hk _)]
    have h1 := mapE_npGet_filter_range (freePos c) x0
    rw [← hz0.length_eq, ← noncontext_cont h hb hk hc] at h1
    simp only [x0NoContext] at hxs
    rw [hxs] at h1
    injection h1 with h1
    rw [h1]
    exact keep_forall₂ _ hz0 0
  unfold applyOptimizer at hr
  simp only [hxs, hd0] at hr
  by_cases hin : InDup dup x0
  · simp [hin] at hr
  simp only [hin, decide_false] at hr
  cases ho : opt (fNoContext (some c) sp f) xs with
  | error e => simp [ho] at hr
  | ok y =>
    simp only [ho] at hr
    obtain ⟨hy, hval⟩ := hopt _ _ _ hxbox ho
    obtain ⟨v, hvy, hle⟩ := hval v0 (by simp only [fNoContext, hexp, hv0])
    rw [bounds_cont h hb hk hc, inBox_iff (allCont_keep hk _)] at hy
    obtain ⟨z, e1, e2, -, -⟩ := expand_encode h hb hg hc hy
    rw [encodeRow_cont (allCont_keep hk _) hy.length_eq, encodeRow_cont hk e2.length_eq] at e1
    have hround : sp.roundOptimum2d [z] = .ok [z] := by
      have hk' := space_kinds_eq h
      have := C04_round_fixed h hb (fun k hkk => samplable_nonEmpty (hs k (hk' ▸ hkk))) (hk' ▸ hvar)
        (encodeRow sp.kinds z) (hk' ▸ encodeRow_modelDomain e2)
      rw [encodeRow_cont hk e2.length_eq] at this
      simpa [Space.roundOptimum2d] using this
    have hd1 := isDup_encode h hb dup e2
    rw [encodeRow_cont hk e2.length_eq] at hd1
    simp only [fNoContext, e1] at hvy
    simp only [addContext, e1, hround, hd1] at hr
    by_cases hin1 : InDup dup z
    · simp only [hin1, decide_true, hv0, Except.ok.injEq] at hr
      rw [← hr]
    · simp only [hin1, decide_false, hvy, Except.ok.injEq] at hr
      rw [← hr]; exact hle

theorem argsort_head {argsort : List ℚ → List Nat} (ha : IsArgsort argsort) {s : List ℚ} (hs : s ≠ []) :
    ∃ i rest v, argsort s = i :: rest ∧ s[i]? = some v ∧ ∀ w ∈ s, v ≤ w := by
  obtain ⟨h1, h2⟩ := ha s
  cases hsr : argsort s with
  | nil =>
    rw [hsr] at h1
    have := h1.length_eq
    simp at this
    exact absurd (List.length_eq_zero_iff.1 this.symm) hs
  | cons i rest =>
    have hi : i < s.length := by
      have : i ∈ argsort s := by simp [hsr]
      exact List.mem_range.1 (h1.mem_iff.1 this)
    refine ⟨i, rest, s[i], rfl, List.getElem?_eq_getElem hi, ?_⟩
    intro w hw
    obtain ⟨j, hj⟩ := List.getElem?_of_mem hw
    have hjl := (List.getElem?_eq_some_iff.1 hj).1
    have hjm : j ∈ argsort s := h1.mem_iff.2 (List.mem_range.2 hjl)
    rw [hsr] at hjm h2
    rw [List.filterMap_cons, List.getElem?_eq_getElem hi] at h2
    simp only [List.pairwise_cons] at h2
    rcases List.mem_cons.1 hjm with rfl | hjr
    · rw [List.getElem?_eq_getElem hi] at hj
      injection hj with hj
      rw [hj]
    · exact h2.1 w (List.mem_filterMap.2 ⟨j, hjr, hj⟩)

/-- The suggestion of the acquisition optimizer and the random design it starts from (spaces of continuous variables). -/
theorem as_good_as_design {config : List Desc} {cs : Option (List ConstrDict)} {sp : Space}
    (h : designSpace config cs = .ok sp) (hb : sp.hasBandit = false)
    (hs : ∀ k ∈ kindsOf config, Samplable k) (hvar : kindsOf config ≠ [])
    (hk : AllCont (kindsOf config)) (context : Option Context) (hg : ValidContext sp context) (c : Ctx)
    (hc : contextManager sp context = .ok c) (dup : Option DupMgr) (op : AcqOptions)
    (hop : GoodOptions op) (hlogic : op.anchorLogic = "max_objective") (o : AcqOracle)
    (ho : GoodAcq o) (hopt : ∀ k, Descends (o.opt k) c.noncontextBounds) (f : Vec → Py ℚ) (r : Vec × ℚ)
    (hr : acqOptimize sp c dup op o f = .ok r) :
    ∃ (ds : List Desc) (sp' : Space) (Y Z : Mat), designSpace ds sp.constraints = .ok sp' ∧ sp'.hasBandit = false ∧
      sp'.kinds = keep (freePos c) 0 sp.kinds ∧
      initialDesign "random" sp' o.design op.numSamplesObjective = .ok Y ∧ Y.length = op.numSamplesObjective ∧
      List.Forall₂ (fun y z => ObjDomain (kindsOf config) z ∧ HasContext sp context z ∧ keep (freePos c) 0 z = y) Y Z ∧
      (∃ z ∈ Z, ¬ InDup dup z) ∧
      ∀ z ∈ Z, ¬ InDup dup z → ∃ v, f z = .ok v ∧ r.2 ≤ v := by
  rw [← space_kinds_eq h] at hs hvar hk ⊢
  obtain ⟨anchors, pts, i, h1, h2, h3, -, h4⟩ := C27_best_candidate sp c dup op o f r hr
  have h1' := h1
  unfold acqAnchors at h1
  rw [if_pos hlogic] at h1
  rcases anchorPoints_design h hb hs hg hc ho.unit (t := "random") (by simp) hop.nObj false dup
    op.numAnchor (objectiveScores_shape f) ho.argsort with ⟨e, he, -⟩ | ⟨ds, sp', m, Z, d1, d2, d3, d4, e1, e2, e3, e4⟩
  · rw [h1] at he; cases he
  simp only [Bool.false_eq_true, if_false] at e2
  have hall : ∃ z ∈ Z, ¬ InDup dup z := by
    by_contra hcon
    have := e3 fun z hz => by_contra fun hn => hcon ⟨z, hz, hn⟩
    rw [h1] at this; cases this
  have hZd : ∀ z ∈ Z, ObjDomain sp.kinds z ∧ HasContext sp context z := by
    intro z hz
    obtain ⟨r', -, hr'⟩ := forall₂_mem_right e2 hz
    exact ⟨hr'.1, hr'.2.1⟩
  refine ⟨ds, sp', m, Z, d1, d2, d3, d4, e1, e2, hall, ?_⟩
  rcases e4 hall with ⟨e, -, he⟩ | ⟨s, A, g1, g2, g3, g4, g5, g6⟩
  · rw [h1] at he; cases he
  rw [h1] at g3
  injection g3 with g3
  generalize hfr : Z.filter (fun z => !decide (InDup dup z)) = fresh at *
  have hfne : fresh ≠ [] := by
    obtain ⟨z, hz, hd⟩ := hall
    rw [← hfr]
    exact List.ne_nil_of_mem (List.mem_filter.2 ⟨hz, by simp [hd]⟩)
  have hsne : s ≠ [] := by
    rintro rfl
    exact hfne (List.length_eq_zero_iff.1 g2.symm)
  obtain ⟨i0, rest, v0, a1, a2, a3⟩ := argsort_head ho.argsort hsne
  -- the first anchor point is the best sample
  have hA0 : A[0]? = fresh[i0]? := by
    have := congrArg (fun l => l[0]?) g4
    rw [a1] at this
    obtain ⟨na, hna⟩ : ∃ na, op.numAnchor = na + 1 := ⟨op.numAnchor - 1, by have := hop.nAnchor; omega⟩
    rw [hna] at this
    simp only [List.take_succ_cons, List.map_cons, List.getElem?_map, List.getElem?_cons_zero] at this
    cases hA : A[0]? with
    | none => rw [hA] at this; simp at this
    | some z => rw [hA] at this; simpa using this
  have hi0 : i0 < fresh.length := by rw [← g2]; exact (List.getElem?_eq_some_iff.1 a2).1
  have hz0 : A[0]? = some fresh[i0] := by rw [hA0, List.getElem?_eq_getElem hi0]
  have hz0Z : fresh[i0] ∈ Z := by
    have : ∀ z ∈ fresh, z ∈ Z := fun z hz => by
      rw [← hfr] at hz
      exact (List.mem_filter.1 hz).1
    exact this _ (List.getElem_mem _)
  obtain ⟨hd0, hc0⟩ := hZd _ hz0Z
  have hanch : anchors[0]? = some fresh[i0] := by
    rw [g3, List.getElem?_map, hz0, Option.map_some, encodeRow_cont hk hd0.length_eq]
  have hmapE : ∀ (j : Nat) (z : Vec), fresh[j]? = some z → ∃ v, s[j]? = some v ∧ f z = .ok v := by
    intro j z hj
    have hj' := List.getElem?_eq_some_iff.1 hj
    have hzm : z ∈ Z := by
      have := List.mem_of_getElem? hj
      rw [← hfr] at this
      exact (List.mem_filter.1 this).1
    unfold objectiveScores at g1
    rw [mapE_eq_ok, List.forall₂_iff_get] at g1
    have := g1.2 j (by simpa using hj'.1) (by rw [g2]; exact hj'.1)
    simp only [List.get_eq_getElem, List.getElem_map, hj'.2,
      encodeRow_cont hk (hZd z hzm).1.length_eq] at this
    exact ⟨_, List.getElem?_eq_getElem (by rw [g2]; exact hj'.1), this⟩
  obtain ⟨v', b1, b2⟩ := hmapE i0 _ (List.getElem?_eq_getElem hi0)
  rw [a2] at b1
  injection b1 with b1
  subst b1
  obtain ⟨p, hp1, hp2⟩ := h3 0 _ hanch
  have hpv := applyOptimizer_descends h hb hs hvar hk hg hc (hopt 0) hd0 hc0 hp2 b2
  have hrp := (h4.2 0 p hp1).1
  intro z hz hd
  have hzf : z ∈ fresh := by rw [← hfr]; exact List.mem_filter.2 ⟨hz, by simp [hd]⟩
  obtain ⟨j, hj⟩ := List.getElem?_of_mem hzf
  obtain ⟨v, c1, c2⟩ := hmapE j z hj
  exact ⟨v, c2, hrp.trans (hpv.trans (a3 v (List.mem_of_getElem? c1)))⟩

/-- C100 (partial: spaces of continuous variables, see `C100_rounding_counterexample`). The suggestion
of the acquisition optimizer is at least as good as every location of the random design it starts from that is not
known, for every local optimizer that stays in the box and does not get worse. -/
theorem C100_as_good_as_samples_partial {config : List Desc} {cs : Option (List ConstrDict)} {sp : Space}
    (h : designSpace config cs = .ok sp) (hb : sp.hasBandit = false)
    (hs : ∀ k ∈ kindsOf config, Samplable k) (hvar : kindsOf config ≠ [])
    (hk : AllCont (kindsOf config)) (context : Option Context) (hg : ValidContext sp context) (c : Ctx)
    (hc : contextManager sp context = .ok c) (dup : Option DupMgr) (op : AcqOptions)
    (hop : GoodOptions op) (hlogic : op.anchorLogic = "max_objective") (o : AcqOracle)
    (ho : GoodAcq o) (hopt : ∀ k, Descends (o.opt k) c.noncontextBounds) (f : Vec → Py ℚ) (r : Vec × ℚ)
    (hr : acqOptimize sp c dup op o f = .ok r) :
    ∃ Z : Mat, FreeDesign sp c "random" o.design op.numSamplesObjective (Z.map (freePart c)) ∧
      Z.length = op.numSamplesObjective ∧
      (∀ z ∈ Z, ObjDomain (kindsOf config) z ∧ HasContext sp context z) ∧
      (∃ z ∈ Z, ¬ InDup dup z) ∧
      ∀ z ∈ Z, ¬ InDup dup z → ∃ v, f z = .ok v ∧ r.2 ≤ v := by
  obtain ⟨ds, sp', Y, Z, d1, -, d3, d4, h1, h2, h3, h4⟩ :=
    as_good_as_design h hb hs hvar hk context hg c hc dup op hop hlogic o ho hopt f r hr
  have hf : Z.map (freePart c) = Y := by
    rw [← space_kinds_eq h] at h2
    exact map_freePart h hb hc h2
  refine ⟨Z, hf ▸ freeDesign_of_keep h hb hc d1 d3 d4, h2.length_eq ▸ h1, fun z hz => ?_, h3, h4⟩
  obtain ⟨y, -, hy⟩ := forall₂_mem_right h2 hz
  exact ⟨hy.1, hy.2.1⟩

/-- L-BFGS with a total gradient descends, so C100 applies to the default optimizer. -/
theorem lbfgs_descends (s : Scipy) (hs : ScipyContract s) (b : Bounds) (fdf : Vec → Py (ℚ × Mat))
    (hg : ∀ x, ∃ v g gs, fdf x = .ok (v, g :: gs)) : Descends (lbfgsOpt s b fdf) b := by
  intro g x y hx hy
  unfold lbfgsOpt at hy
  cases hr : lbfgsOptimize s b g none (some fdf) x with
  | error e => rw [hr] at hy; cases hy
  | ok r =>
    rw [hr] at hy
    simp only [Except.map, Except.ok.injEq] at hy
    subst hy
    obtain ⟨h1, h2, h3⟩ := C98_lbfgs s hs b g none (some fdf) x hx (fun F hF => by
      cases hF; exact hg x) r hr
    exact ⟨h1, fun v0 hv0 => ⟨r.2, h2, h3 v0 hv0⟩⟩

/-- A discrete variable for the counterexample. -/
def exRoundKinds : List Desc := [{ name := some "a", type := some "discrete", domain := some (.flat [0, 1]) }]

/-- An acquisition with its minimum between the two values. -/
def exBetween (x : Vec) : Py ℚ :=
  match x with
  | [a] => if a = 3/5 then .ok (-1) else if a = 0 then .ok 0 else .ok 5
  | _ => .error .valueError

/-- External inputs: the optimizer goes to the minimum of `exBetween` in the box. -/
def exBetweenOracle : AcqOracle where
  design := exOracle
  argsort := exArgsort
  thompson X := .ok (X.map fun _ => 0)
  opt _ _ _ := .ok [3/5]

/-- C100 (negation). With a discrete variable the rounding of the optimum can make the suggestion
worse than a sample: the acquisition is 0 at the sampled value 0, and the suggestion is 1 with the
acquisition 5. -/
theorem C100_rounding_counterexample :
    ((designSpace exRoundKinds none).bind fun sp => (contextManager sp none).bind fun c =>
      (anchorSamples sp (some c) false "random" 4 exOracle).map fun X => (X, X.map exBetween))
      = .ok ([[0], [1], [0], [1]], [.ok 0, .ok 5, .ok 0, .ok 5]) ∧
    ((designSpace exRoundKinds none).bind fun sp => (contextManager sp none).bind fun c =>
      acqOptimize sp c none { numSamplesObjective := 4 } exBetweenOracle exBetween) = .ok ([1], 5) ∧
    (∀ k x, exBetweenOracle.opt k exBetween x = .ok [3/5]) ∧ exBetween [3/5] = .ok (-1) ∧
    ∀ x v, exBetween x = .ok v → -1 ≤ v := by
  refine ⟨by decide +kernel, by decide +kernel, fun _ _ => rfl, by decide +kernel, ?_⟩
  intro x v h
  unfold exBetween at h
  split at h
  · split_ifs at h <;> (injection h with h; subst h; norm_num)
  · cases h

/-- A gradient for the example. -/
def exSumGrad (x : Vec) : Py (ℚ × Mat) := .ok (x.sum, [x.map fun _ => 1])

/-- The default optimizer for the example. -/
def exSumOracle (b : Bounds) : AcqOracle :=
  { exBetweenOracle with opt := fun _ => lbfgsOpt exScipy b exSumGrad }

/-- A continuous space and the default optimizer: the optimizer descends (`lbfgs_descends` with the
contract shown above) and a suggestion is returned. -/
example : (∀ x, ∃ v g gs, exSumGrad x = .ok (v, g :: gs)) ∧
    ((designSpace [{ name := some "a", type := some "continuous", domain := some (.flat [-1, 2]) }]
      none).bind fun sp => (contextManager sp none).bind fun c =>
      acqOptimize sp c none { numSamplesObjective := 4 } (exSumOracle c.noncontextBounds)
        fun x => .ok x.sum) = .ok ([-1], -1) :=
  ⟨fun _ => ⟨_, _, _, rfl⟩, by decide +kernel⟩

end GPyOpt.Props
