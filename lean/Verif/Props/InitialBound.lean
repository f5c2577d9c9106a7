import Verif.Props.Whole
import Verif.Props.RandomSearch
import Verif.Props.ModelUse

/-!
# Property C151: the initial design bounds the error of the result
-/

namespace GPyOpt.Props

open GPyOpt Spec

/-- Sum of the distances of the coordinates. -/
def gap (x y : Vec) : ℚ := (List.zipWith (fun a b => |a - b|) x y).sum

/-- The function depends on the continuous variables only, and changes by at most `L` times the distance. -/
def SlopeIn (ks : List Kind) (L : ℚ) (g : Vec → ℚ) : Prop :=
  ∀ x y, ObjDomain ks x → ObjDomain ks y → |g x - g y| ≤ L * gap (contPart ks x) (contPart ks y)

/-- The sum of the ranges of the continuous variables. -/
def totalRange (ks : List Kind) : ℚ := ((ks.filterMap contBound).map fun b => b.2 - b.1).sum

theorem contPart_bounds {ks : List Kind} {x : Vec} (h : ObjDomain ks x) :
    List.Forall₂ (fun b v => b.1 ≤ v ∧ v ≤ b.2) (ks.filterMap contBound) (contPart ks x) := by
  unfold ObjDomain at h
  induction h with
  | nil => exact List.Forall₂.nil
  | @cons k v ks x hv _ ih =>
    cases k with
    | continuous lo hi =>
      simp only [List.filterMap_cons, contBound, contPart]
      exact List.Forall₂.cons hv ih
    | discrete vs => simpa [List.filterMap_cons, contBound, contPart] using ih
    | categorical l => simpa [List.filterMap_cons, contBound, contPart] using ih
    | bandit l => simpa [List.filterMap_cons, contBound, contPart] using ih

/-- A value of the range is at most half a step from a grid value. -/
theorem grid_near {lo hi v : ℚ} {m : Nat} (hm : 2 ≤ m) (h1 : lo ≤ v) (h2 : v ≤ hi) :
    ∃ i < m, |gridValue m (lo, hi) i - v| ≤ (hi - lo) / (2 * ((m : ℚ) - 1)) := by
  have hmq : (2 : ℚ) ≤ m := by exact_mod_cast hm
  have hm1 : (0 : ℚ) < (m : ℚ) - 1 := by linarith
  have hc : ((m - 1 : ℕ) : ℚ) = (m : ℚ) - 1 := by
    rw [Nat.cast_sub (by omega)]
    simp
  unfold gridValue
  simp only [hc]
  rcases eq_or_lt_of_le (h1.trans h2) with he | hlt
  · subst he
    exact ⟨0, by omega, by simp [le_antisymm h2 h1]⟩
  · have hd : 0 < hi - lo := by linarith
    obtain ⟨t, ht⟩ : ∃ t, t = (v - lo) * ((m : ℚ) - 1) / (hi - lo) := ⟨_, rfl⟩
    have hv : v = lo + t * (hi - lo) / ((m : ℚ) - 1) := by
      rw [ht]
      field_simp
      ring
    have ht0 : 0 ≤ t := by
      rw [ht]
      exact div_nonneg (mul_nonneg (by linarith) hm1.le) hd.le
    have ht1 : t ≤ (m : ℚ) - 1 := by
      rw [ht, div_le_iff₀ hd]
      nlinarith
    have hr0 : 0 ≤ round t := by
      rw [round_eq]
      exact Int.floor_nonneg.2 (by linarith)
    have hr1 : round t ≤ (m : ℤ) - 1 := by
      have : round t < (m : ℤ) := by
        rw [round_eq, Int.floor_lt]
        push_cast
        linarith
      omega
    refine ⟨(round t).toNat, by omega, ?_⟩
    have hcast : (((round t).toNat : ℕ) : ℚ) = ((round t : ℤ) : ℚ) := by
      exact_mod_cast Int.toNat_of_nonneg hr0
    have hdiff : lo + (((round t).toNat : ℕ) : ℚ) * (hi - lo) / ((m : ℚ) - 1) - v =
        (((round t : ℤ) : ℚ) - t) * ((hi - lo) / ((m : ℚ) - 1)) := by
      rw [hcast, hv]
      ring
    rw [hdiff, abs_mul, abs_of_nonneg (div_nonneg hd.le hm1.le), abs_sub_comm]
    calc |t - ((round t : ℤ) : ℚ)| * ((hi - lo) / ((m : ℚ) - 1))
        ≤ 1 / 2 * ((hi - lo) / ((m : ℚ) - 1)) :=
          mul_le_mul_of_nonneg_right (abs_sub_round t) (div_nonneg hd.le hm1.le)
      _ = (hi - lo) / (2 * ((m : ℚ) - 1)) := by
          field_simp

theorem grid_near_all {m : Nat} (hm : 2 ≤ m) {bs : List (ℚ × ℚ)} {x : Vec}
    (h : List.Forall₂ (fun b v => b.1 ≤ v ∧ v ≤ b.2) bs x) :
    ∃ c : List Nat, c.length = bs.length ∧ (∀ i ∈ c, i < m) ∧
      gap (List.zipWith (gridValue m) bs c) x ≤ (bs.map fun b => b.2 - b.1).sum / (2 * ((m : ℚ) - 1)) := by
  induction h with
  | nil => exact ⟨[], rfl, by simp, by simp [gap]⟩
  | @cons b v bs x hv _ ih =>
    obtain ⟨c, h1, h2, h3⟩ := ih
    obtain ⟨i, hi, hn⟩ := grid_near (lo := b.1) (hi := b.2) hm hv.1 hv.2
    refine ⟨i :: c, by simp [h1], ?_, ?_⟩
    · intro j hj
      rcases List.mem_cons.1 hj with rfl | hj
      · exact hi
      · exact h2 j hj
    · unfold gap at h3 ⊢
      simp only [List.zipWith_cons_cons, List.sum_cons, List.map_cons, add_div]
      exact add_le_add hn h3

theorem totalRange_nonneg {ks : List Kind} {x : Vec} (h : ObjDomain ks x) : 0 ≤ totalRange ks := by
  unfold totalRange
  have := contPart_bounds h
  generalize contPart ks x = y at this
  generalize ks.filterMap contBound = bs at this
  induction this with
  | nil => simp
  | cons hv _ ih =>
    simp only [List.map_cons, List.sum_cons]
    have := hv.1.trans hv.2
    linarith

/-- **C151 (grid).** A grid design of `n ≥ m ^ d` points, `m ≥ 2`, with `d` continuous variables: every location of the domain
has a point of the design whose continuous coordinates differ from its own by at most the sum of the half steps, which is
the sum of the ranges divided by `2 (m - 1)`. -/
theorem C151_grid_covers {config : List Desc} {sp : Space}
    (h : designSpace config none = .ok sp) (hb : sp.hasBandit = false)
    (hs : ∀ k ∈ kindsOf config, Samplable k) (o : DesignOracle)
    (hd : ((kindsOf config).filterMap contBound) ≠ []) (n m : Nat) (hm : 2 ≤ m)
    (hn : m ^ ((kindsOf config).filterMap contBound).length ≤ n) :
    ∃ M, initialDesign "grid" sp o n = .ok M ∧ (∀ row ∈ M, ObjDomain (kindsOf config) row) ∧
      ∀ x, ObjDomain (kindsOf config) x → ∃ row ∈ M,
        gap (contPart (kindsOf config) row) (contPart (kindsOf config) x) ≤
          totalRange (kindsOf config) / (2 * ((m : ℚ) - 1)) := by
  have hn0 : 0 < n := lt_of_lt_of_le (pow_pos (by omega) _) hn
  obtain ⟨M, m', coord, h1, h2, h3, h4, h5, h6, h7⟩ := C19_grid h hb hs o hd n hn0
  have hmm : m ≤ m' := h3 m hn
  refine ⟨M, h1, h5, fun x hx => ?_⟩
  obtain ⟨c, c1, c2, c3⟩ := grid_near_all (hm.trans hmm) (contPart_bounds hx)
  obtain ⟨r, ⟨hr, hc⟩, -⟩ := h6 c c1 c2
  have hrow : M[r]? = some M[r] := List.getElem?_eq_getElem hr
  obtain ⟨-, -, h8⟩ := h7 r _ hrow
  refine ⟨M[r], List.getElem_mem _, ?_⟩
  rw [h8, hc]
  refine c3.trans (div_le_div_of_nonneg_left (totalRange_nonneg hx) ?_ ?_)
  · have : (2 : ℚ) ≤ m := by exact_mod_cast hm
    linarith
  · have : (m : ℚ) ≤ m' := by exact_mod_cast hmm
    linarith

/-- The user's function returns a value for every location, always the same one. -/
def Computes (f : Nat → Vec → Py ℚ) (g : Vec → ℚ) : Prop := ∀ k x, f k x = .ok (g x)

/-- The value `v` misses `q` by at most `e`. -/
def Within (maximize : Bool) (e v q : ℚ) : Prop := if maximize then q - e ≤ v else v ≤ q + e

/-- What is reported is at least as good as every location of the initial design. -/
theorem reported_vs_design (a : BayesArgs) (f : Nat → Vec → Py ℚ) (g : Vec → ℚ) (hg : Computes f g) (hf : a.f = some f)
    (hX : a.X = none) {config : List Desc} {cs : Option (List ConstrDict)} {o : DesignOracle}
    {clock : Nat → ℚ} {w : World} {b : BayesObj}
    (hcon : bayesConstruct a config cs o (sequentialEvaluate (signed a.maximize f) clock) = (w, .ok b))
    (env : BOEnv) (hobj : env.obj = some (signed a.maximize f)) (ops : List Op) (ra : RunArgs) (fuel : Nat)
    (hc : AllComplete env (ops ++ [.run ra fuel]) b.state) :
    ∃ (M : Mat) (r : Results) (v : ℚ), designSpace config cs = .ok b.sp ∧
      initialDesign a.designType b.sp o a.numData = .ok M ∧
      (afterAll env (ops ++ [.run ra fuel]) b.state).results = some r ∧ v = g r.xOpt ∧ Stored a.maximize v r.fxOpt ∧
      ∀ row ∈ M, Better a.maximize v (g row) := by
  obtain ⟨Y, -, -, -, -, h3⟩ := C94_initial_data a f hf config cs o clock w b hcon
  obtain ⟨_, _, hsp, -, -⟩ := bayesConstruct_ok hcon
  obtain ⟨-, hp, r, i, v, hr, -, hv, hst, hbest⟩ := C139_reported_is_best a f hf (Or.inl hX) config cs o clock w b hcon env
    hobj ops ra fuel hc
  refine ⟨b.state.X, r, v, hsp, (h3 hX).1, hr, ?_, hst, fun row hrow => ?_⟩
  · rw [hg] at hv
    exact (Except.ok.inj hv).symm
  · obtain ⟨j, hj⟩ := List.getElem?_of_mem (hp.subset hrow)
    obtain ⟨v', h1, h2⟩ := hbest j row hj
    rw [hg] at h1
    rw [Except.ok.inj h1]
    exact h2

/-- **C151 (grid, result).** An object whose initial design is a grid of at least `m ^ d` points, `m ≥ 2`, and whose objective
depends on the `d` continuous variables with slope at most `L`. After any completed calls of which the last is a run, the
reported value misses the best value of the whole domain by at most `L` times the sum of the half steps of the grid.
Model, acquisition and evaluator do not matter. -/
theorem C151_grid_error {config : List Desc} {sp : Space}
    (h : designSpace config none = .ok sp) (hb : sp.hasBandit = false)
    (hs : ∀ k ∈ kindsOf config, Samplable k) (hd : ((kindsOf config).filterMap contBound) ≠ [])
    (a : BayesArgs) (f : Nat → Vec → Py ℚ) (g : Vec → ℚ) (hg : Computes f g) (hf : a.f = some f) (hX : a.X = none)
    (hgrid : a.designType = "grid") (m : Nat) (hm : 2 ≤ m)
    (hn : m ^ ((kindsOf config).filterMap contBound).length ≤ a.numData)
    (L : ℚ) (hL : 0 ≤ L) (hslope : SlopeIn (kindsOf config) L g) (o : DesignOracle) (clock : Nat → ℚ) (w : World) (b : BayesObj)
    (hcon : bayesConstruct a config none o (sequentialEvaluate (signed a.maximize f) clock) = (w, .ok b))
    (env : BOEnv) (hobj : env.obj = some (signed a.maximize f)) (ops : List Op) (ra : RunArgs) (fuel : Nat)
    (hc : AllComplete env (ops ++ [.run ra fuel]) b.state) :
    ∃ (r : Results) (v : ℚ), (afterAll env (ops ++ [.run ra fuel]) b.state).results = some r ∧ v = g r.xOpt ∧
      Stored a.maximize v r.fxOpt ∧
      ∀ x, ObjDomain (kindsOf config) x →
        Within a.maximize (L * (totalRange (kindsOf config) / (2 * ((m : ℚ) - 1)))) v (g x) := by
  obtain ⟨M, r, v, k1, k2, k3, k4, k5, k6⟩ := reported_vs_design a f g hg hf hX hcon env hobj ops ra fuel hc
  obtain rfl : sp = b.sp := Except.ok.inj (h.symm.trans k1)
  obtain ⟨M', e1, e2, e3⟩ := C151_grid_covers h hb hs o hd a.numData m hm hn
  rw [hgrid] at k2
  obtain rfl : M' = M := Except.ok.inj (e1.symm.trans k2)
  refine ⟨r, v, k3, k4, k5, fun x hx => ?_⟩
  obtain ⟨row, hrow, hgap⟩ := e3 x hx
  have h1 := k6 row hrow
  have h2 := (hslope row x (e2 row hrow) hx).trans (mul_le_mul_of_nonneg_left hgap hL)
  rw [abs_le] at h2
  generalize L * (totalRange (kindsOf config) / (2 * ((m : ℚ) - 1))) = e at h2 ⊢
  unfold Better at h1
  unfold Within
  obtain ⟨h3, h4⟩ := h2
  split_ifs at h1 ⊢ with hmax <;> linarith

/-- **C151 (Latin, one variable).** With one continuous variable of range `[lo, hi)`, every location has a point of the Latin
design of `n` points within `(hi - lo) / n`. -/
theorem C151_latin_covers {config : List Desc} {sp : Space}
    (h : designSpace config none = .ok sp) (hb : sp.hasBandit = false)
    (hs : ∀ k ∈ kindsOf config, Samplable k) (o : DesignOracle)
    (hl : UnitPts o.lhs) (hsob : UnitPts o.sobol) (n : Nat) (hn : 0 < n) (hlhs : LatinHypercube n o.lhs) (lo hi : ℚ)
    (hlt : lo < hi) (hk : kindsOf config = [.continuous lo hi]) :
    ∃ M, initialDesign "latin" sp o n = .ok M ∧
      ∀ x, lo ≤ x → x ≤ hi → ∃ row ∈ M, ∃ v, row = [v] ∧ |v - x| ≤ (hi - lo) / n := by
  obtain ⟨M, h1, h2, h3⟩ := C76_latin_stratified h hb hs o hl hsob n hlhs
  obtain ⟨M', e1, -, e3, -⟩ := C17_latin_sobol h hb hs o hl hsob n ("latin", o.lhs) (by simp)
  obtain rfl : M' = M := Except.ok.inj (e1.symm.trans h1)
  refine ⟨M', h1, fun x hx1 hx2 => ?_⟩
  have hnq : (0 : ℚ) < n := by exact_mod_cast hn
  have hd : 0 < (hi - lo) / n := div_pos (by linarith) hnq
  -- the slice of `x`; the end of the range belongs to the last slice
  obtain ⟨c, hc, hc1, hc2⟩ : ∃ c : Nat, c < n ∧ lo + c * ((hi - lo) / n) ≤ x ∧ x ≤ lo + (c + 1) * ((hi - lo) / n) := by
    rcases eq_or_lt_of_le hx2 with he | hlt2
    · refine ⟨n - 1, by omega, ?_, ?_⟩ <;>
      · rw [Nat.cast_sub (by omega : 1 ≤ n), he]
        have : (n : ℚ) * ((hi - lo) / n) = hi - lo := by field_simp
        push_cast
        nlinarith
    · have hq : 0 ≤ (x - lo) / ((hi - lo) / n) := div_nonneg (by linarith) hd.le
      refine ⟨⌊(x - lo) / ((hi - lo) / n)⌋₊, ?_, ?_, ?_⟩
      · rw [Nat.floor_lt hq, div_lt_iff₀ hd]
        have : (n : ℚ) * ((hi - lo) / n) = hi - lo := by field_simp
        linarith
      · have := Nat.floor_le hq
        rw [le_div_iff₀ hd] at this
        linarith
      · have := (Nat.lt_floor_add_one ((x - lo) / ((hi - lo) / n))).le
        rw [div_le_iff₀ hd] at this
        linarith
  obtain ⟨r, ⟨row, v, hr, hv, hv1, hv2⟩, -⟩ := h3 0 lo hi (by simp [hk, contBound]) hlt c hc
  have hmem := List.mem_of_getElem? hr
  have hrow : row = [v] := by
    have := e3 row hmem
    rw [hk] at this hv
    unfold ObjDomain at this
    cases this with
    | cons _ ht =>
      cases ht
      simpa [contPart] using hv
  refine ⟨row, hmem, v, hrow, ?_⟩
  rw [abs_le]
  constructor <;> linarith

/-- **C151 (Latin, result).** One continuous variable, and an objective of slope at most `L`: with a Latin design of `n` points
the reported value misses the best value by at most `L (hi - lo) / n`. -/
theorem C151_latin_error {config : List Desc} {sp : Space}
    (h : designSpace config none = .ok sp) (hb : sp.hasBandit = false)
    (hs : ∀ k ∈ kindsOf config, Samplable k) (lo hi : ℚ) (hlt : lo < hi) (hk : kindsOf config = [.continuous lo hi])
    (a : BayesArgs) (f : Nat → Vec → Py ℚ) (g : Vec → ℚ) (hg : Computes f g) (hf : a.f = some f) (hX : a.X = none)
    (hlatin : a.designType = "latin") (hn : 0 < a.numData)
    (L : ℚ) (hL : 0 ≤ L) (hslope : ∀ x y, lo ≤ x → x ≤ hi → lo ≤ y → y ≤ hi → |g [x] - g [y]| ≤ L * |x - y|)
    (o : DesignOracle) (hl : UnitPts o.lhs) (hsob : UnitPts o.sobol) (hlhs : LatinHypercube a.numData o.lhs)
    (clock : Nat → ℚ) (w : World) (b : BayesObj)
    (hcon : bayesConstruct a config none o (sequentialEvaluate (signed a.maximize f) clock) = (w, .ok b))
    (env : BOEnv) (hobj : env.obj = some (signed a.maximize f)) (ops : List Op) (ra : RunArgs) (fuel : Nat)
    (hc : AllComplete env (ops ++ [.run ra fuel]) b.state) :
    ∃ (r : Results) (v : ℚ), (afterAll env (ops ++ [.run ra fuel]) b.state).results = some r ∧ v = g r.xOpt ∧
      Stored a.maximize v r.fxOpt ∧
      ∀ x, lo ≤ x → x ≤ hi → Within a.maximize (L * ((hi - lo) / a.numData)) v (g [x]) := by
  obtain ⟨M, r, v, k1, k2, k3, k4, k5, k6⟩ := reported_vs_design a f g hg hf hX hcon env hobj ops ra fuel hc
  obtain rfl : sp = b.sp := Except.ok.inj (h.symm.trans k1)
  obtain ⟨M', e1, e3⟩ := C151_latin_covers h hb hs o hl hsob a.numData hn hlhs lo hi hlt hk
  obtain ⟨M'', e1', -, e2, -⟩ := C17_latin_sobol h hb hs o hl hsob a.numData ("latin", o.lhs) (by simp)
  rw [hlatin] at k2
  obtain rfl : M' = M := Except.ok.inj (e1.symm.trans k2)
  obtain rfl : M'' = M' := Except.ok.inj (e1'.symm.trans k2)
  refine ⟨r, v, k3, k4, k5, fun x hx1 hx2 => ?_⟩
  obtain ⟨row, hrow, u, rfl, hgap⟩ := e3 x hx1 hx2
  have hu := e2 _ hrow
  rw [hk] at hu
  obtain ⟨hu1, hu2⟩ : lo ≤ u ∧ u ≤ hi := (List.forall₂_cons.1 hu).1
  have h1 := k6 _ hrow
  have h2 := (hslope u x hu1 hu2 hx1 hx2).trans (mul_le_mul_of_nonneg_left hgap hL)
  rw [abs_le] at h2
  generalize L * ((hi - lo) / (a.numData : ℚ)) = e at h2 ⊢
  unfold Better at h1
  unfold Within
  obtain ⟨h3, h4⟩ := h2
  split_ifs at h1 ⊢ with hmax <;> linarith

open Classical in
/-- The rounds, the first `m` accepted entries of which are not in `G`. -/
theorem card_rounds {Ω : Type} [Fintype Ω] (F G : Ω → Prop) (R N m : Nat)
    (A : (Fin R → Fin N → Ω) → Prop)
    (hA : ∀ ω, A ω → m ≤ ((List.ofFn fun i => List.ofFn (ω i)).flatten.filter F).length ∧
      ∀ x ∈ ((List.ofFn fun i => List.ofFn (ω i)).flatten.filter F).take m, ¬ G x) :
    ((Finset.univ.filter A).card : ℝ) / Fintype.card (Fin R → Fin N → Ω) ≤
      (1 - ((Finset.univ.filter fun x => F x ∧ G x).card : ℝ) / (Finset.univ.filter F).card) ^ m := by
  have h := card_iterations F G 1 R N m (fun ω => A (ω 0)) (fun ω hω k => by
    rw [Subsingleton.elim k 0]
    exact hA _ hω)
  rw [one_mul] at h
  refine le_trans (le_of_eq ?_) h
  congr 2
  · refine Finset.card_bij (fun w _ => fun _ => w) ?_ ?_ ?_
    · intro w hw
      rw [Finset.mem_filter_univ] at hw ⊢
      exact hw
    · intro w _ w' _ e
      exact congrFun e 0
    · intro ω hω
      rw [Finset.mem_filter_univ] at hω
      refine ⟨ω 0, (Finset.mem_filter_univ _).2 hω, ?_⟩
      funext k
      rw [Subsingleton.elim k 0]
  · exact (Fintype.card_congr (Equiv.funUnique (Fin 1) (Fin R → Fin N → Ω))).symm

open Classical in
/-- **C151 (random).** An object whose initial design is random, with uniform and independent draws (`R` rounds of
`n = initial_design_numdata` rows). Let `γ` be the share, among the locations of the domain that satisfy the constraints, of
those where the objective is at least as good as `q`. Then the share of draws for which the object is made, its calls
complete, and the last run reports a value that is not as good as `q`, is at most `(1 - γ) ^ n`. Model, acquisition,
evaluator and all later randomness may be anything and may depend on the draws. -/
theorem C151_random_error {config : List Desc} {cs : Option (List ConstrDict)} {sp : Space}
    (h : designSpace config cs = .ok sp) (hb : sp.hasBandit = false)
    (hs : ∀ k ∈ kindsOf config, Samplable k) (hev : ∀ l, cs = some l → Evaluable sp.kinds.length l)
    (a : BayesArgs) (f : Nat → Vec → Py ℚ) (g : Vec → ℚ) (hg : Computes f g) (hf : a.f = some f) (hX : a.X = none)
    (hrandom : a.designType = "random") {M R : Nat} (hR : 0 < R) (junk : Nat → Nat → ℚ) (clock : Nat → ℚ)
    (env : (Fin R → Fin a.numData → RawRow M sp.kinds) → BOEnv) (hobj : ∀ ω, (env ω).obj = some (signed a.maximize f))
    (ops : List Op) (ra : RunArgs) (fuel : Nat) (q : ℚ) :
    ((Finset.univ.filter fun ω : Fin R → Fin a.numData → RawRow M sp.kinds =>
      ∃ w b r, bayesConstruct a config cs (oracleOf junk ω) (sequentialEvaluate (signed a.maximize f) clock) = (w, .ok b) ∧
        AllComplete (env ω) (ops ++ [.run ra fuel]) b.state ∧
        (afterAll (env ω) (ops ++ [.run ra fuel]) b.state).results = some r ∧
        ¬ ∃ v, Stored a.maximize v r.fxOpt ∧ Better a.maximize v q).card : ℝ) /
        Fintype.card (Fin R → Fin a.numData → RawRow M sp.kinds) ≤
      (1 - targetRatio M sp.kinds cs fun x => Better a.maximize (g x) q) ^ a.numData := by
  refine card_rounds (fun ρ : RawRow M sp.kinds => Allowed cs (rawRow ρ))
    (fun ρ => Better a.maximize (g (rawRow ρ)) q) R a.numData a.numData _ ?_
  rintro ω ⟨w, b, r, hcon, hc, hr, hbad⟩
  obtain ⟨D, r', v, k1, k2, k3, -, k5, k6⟩ := reported_vs_design a f g hg hf hX hcon (env ω) (hobj ω) ops ra fuel hc
  obtain rfl : sp = b.sp := Except.ok.inj (h.symm.trans k1)
  obtain rfl : r' = r := Option.some.inj (k3.symm.trans hr)
  rw [hrandom] at k2
  have hpre := design_accepted hR h hb rfl hev junk ω k2
  have hu := (unitOracle_oracleOf junk ω).1
  have hlen : D.length = a.numData := by
    cases cs with
    | none =>
      obtain ⟨D', d1, d2, -⟩ := C15_random_design h hb hs (oracleOf junk ω) hu a.numData
      rw [← Except.ok.inj (d1.symm.trans k2)]
      exact d2
    | some l => exact (C16_constrained_design h hb hs (oracleOf junk ω) hu a.numData D k2).1
  generalize (List.ofFn fun i => List.ofFn (ω i)).flatten.filter (fun ρ => decide (Allowed cs (rawRow ρ))) = l at hpre ⊢
  have hl := hpre.length_le
  rw [hlen, List.length_map] at hl
  refine ⟨hl, fun ρ hρ hGρ => hbad ⟨v, k5, ?_⟩⟩
  obtain ⟨t, ht⟩ := hpre
  have htake : D = (l.take a.numData).map rawRow := by
    rw [List.map_take, ← ht, List.take_append_of_le_length (by omega), List.take_of_length_le (by omega)]
  have hmem : rawRow ρ ∈ D := by
    rw [htake]
    exact List.mem_map_of_mem hρ
  have h4 := k6 _ hmem
  unfold Better at h4 hGρ ⊢
  split_ifs at h4 hGρ ⊢ with hmax
  · exact hGρ.trans h4
  · exact h4.trans hGρ

/-- **C151 (negation, grid).** Fewer than `2 ^ d` points make a grid of a single point, the lower corner, however many were
asked for: then there is no bound of this kind. -/
theorem C151_single_point_counterexample {config : List Desc} {sp : Space}
    (h : designSpace config none = .ok sp) (hb : sp.hasBandit = false)
    (hs : ∀ k ∈ kindsOf config, Samplable k) (o : DesignOracle)
    (hd : ((kindsOf config).filterMap contBound) ≠ []) (n : Nat) (hn : 0 < n)
    (hn2 : n < 2 ^ ((kindsOf config).filterMap contBound).length) :
    ∃ row, initialDesign "grid" sp o n = .ok [row] ∧
      contPart (kindsOf config) row = ((kindsOf config).filterMap contBound).map Prod.fst := by
  obtain ⟨M, m, coord, h1, h2, h3, h4, -, -, h7⟩ := C19_grid h hb hs o hd n hn
  have hm1 : 1 ≤ m := h3 1 (by rw [one_pow]; exact hn)
  have hm2 : m < 2 := by
    by_contra hcon
    exact absurd ((Nat.pow_le_pow_left (not_lt.1 hcon) _).trans h2) (not_le.2 hn2)
  obtain rfl : m = 1 := by omega
  rw [one_pow] at h4
  obtain ⟨row, rfl⟩ := List.length_eq_one_iff.1 h4
  obtain ⟨k1, k2, k3⟩ := h7 0 row rfl
  refine ⟨row, h1, ?_⟩
  rw [k3]
  apply List.ext_getElem
  · simp [k1]
  · intro i h5 h6
    have : (coord 0)[i]'(by simp at h5; omega) = 0 := by
      have := k2 _ (List.getElem_mem (l := coord 0) (n := i) (by simp at h5; omega))
      omega
    simp [gridValue, this]

/-- The hypotheses of `C151_grid_error` are met: a grid of nine points for the two continuous variables of `exConfig`. -/
example : SlopeIn (kindsOf exConfig) 1 fun x => (x.take 2).sum := by
  intro x y hx hy
  rw [exConfig_kinds] at hx hy ⊢
  unfold ObjDomain at hx hy
  obtain ⟨a, x1, -, hx1, rfl⟩ := List.forall₂_cons_left_iff.1 hx
  obtain ⟨b, x2, -, hx2, rfl⟩ := List.forall₂_cons_left_iff.1 hx1
  obtain ⟨c, x3, -, hx3, rfl⟩ := List.forall₂_cons_left_iff.1 hx2
  obtain ⟨d, x4, -, hx4, rfl⟩ := List.forall₂_cons_left_iff.1 hx3
  cases hx4
  obtain ⟨a', y1, -, hy1, rfl⟩ := List.forall₂_cons_left_iff.1 hy
  obtain ⟨b', y2, -, hy2, rfl⟩ := List.forall₂_cons_left_iff.1 hy1
  obtain ⟨c', y3, -, hy3, rfl⟩ := List.forall₂_cons_left_iff.1 hy2
  obtain ⟨d', y4, -, hy4, rfl⟩ := List.forall₂_cons_left_iff.1 hy3
  cases hy4
  have h1 := abs_add_le (a - a') (b - b')
  have h2 : a + b - (a' + b') = a - a' + (b - b') := by ring
  simpa [contPart, gap, h2] using h1

example : (match (bayesConstruct { exArgs with
          designType := "grid"
          numData := 10
          f := some fun _ x => .ok (x.take 2).sum } exConfig none exOracle
        (sequentialEvaluate (signed false fun _ x => .ok (x.take 2).sum) fun n => n)).2, designSpace exConfig none with
      | .ok b, .ok sp =>
        let env : BOEnv := { exFull sp with obj := some (signed false fun _ x => .ok (x.take 2).sum) }
        let r := runOptimization env { maxIter := some (.fin 1) } 10 b.state
        some (b.state.X.length, r.2, r.1.results.map fun (q : Results) => q.fxOpt)
      | _, _ => none)
    = some (9, .done .limit, some (-2)) := by
  decide +kernel

end GPyOpt.Props
