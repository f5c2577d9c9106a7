import Verif.Lemmas.Grid
import Verif.Props.Space

/-!
# Properties C15–C20: experiment designs

The random sources are arbitrary (`DesignOracle`); the only assumption is that uniform numbers
and unit-cube points are in `[0,1]`.
-/

namespace GPyOpt.Props

open GPyOpt Spec

/-! ## C15: random design -/

/-- C15. The random design of an unconstrained space returns the requested number of rows, all in
the domain. -/
theorem C15_random_design {config : List Desc} {sp : Space}
    (h : designSpace config none = .ok sp) (hb : sp.hasBandit = false)
    (hs : ∀ k ∈ kindsOf config, Samplable k) (o : DesignOracle) (hu : ∀ i, UnitDraw (o.draws i))
    (n : Nat) :
    ∃ m, initialDesign "random" sp o n = .ok m ∧ m.length = n ∧
      ∀ row ∈ m, ObjDomain (kindsOf config) row := by
  obtain ⟨_, _, _, _, _, _, hc⟩ := designSpace_ok h
  rw [← space_kinds_eq h] at *
  obtain ⟨m, h1, h2, h3⟩ := randomNoConstr_ok h hb hs (o.draws 0) (hu 0) n
  refine ⟨m, ?_, h2, h3⟩
  simpa [initialDesign, randomDesign, Space.hasConstraints, hc] using h1

/-- a random source -/
def exOracle : DesignOracle where
  draws i := { junk := fun _ _ => 99, choice := fun v r => v + r + i, unif := fun k r => 1 / (k + r + i + 2) }
  lhs r k := (r + k : ℕ) / (r + k + 1)
  sobol r k := 1 / (r + k + 1)
  fuel := 5

example : ∀ k ∈ kindsOf exConfig, Samplable k := by
  rw [exConfig_kinds]
  intro k hk
  simp only [List.mem_cons, List.not_mem_nil, or_false] at hk
  rcases hk with rfl | rfl | rfl | rfl
  · show (-1 : ℚ) ≤ 1; norm_num
  · show (-1 : ℚ) ≤ 1; norm_num
  · simp [Samplable]
  · refine ⟨by simp, ?_⟩
    intro l hl
    simp only [List.mem_cons, List.not_mem_nil, or_false] at hl
    rcases hl with rfl | rfl | rfl
    · exact ⟨0, by simp, by norm_num⟩
    · exact ⟨1, by simp, by norm_num⟩
    · exact ⟨2, by simp, by norm_num⟩

example : ∀ i, UnitDraw (exOracle.draws i) := by
  intro i k r
  simp only [exOracle]
  constructor
  · positivity
  · rw [div_le_one (by positivity)]
    have : (0 : ℚ) ≤ (k : ℚ) + r + i := by positivity
    linarith

example : ((designSpace exConfig none).bind fun sp => initialDesign "random" sp exOracle 2)
    = .ok [[0, -1/3, 7, 0], [-1/3, -1/2, 3, 1]] := by decide +kernel

/-! ## C16: constrained random design -/

theorem selectValid_mem {m : Mat} {w : List ℚ} {row : Vec} (h : row ∈ selectValid m w) :
    ∃ i : Nat, m[i]? = some row ∧ w[i]? = some 1 := by
  unfold selectValid at h
  rw [List.mem_filterMap] at h
  obtain ⟨⟨r, a⟩, hp, he⟩ := h
  obtain ⟨i, hi⟩ := List.getElem?_of_mem hp
  have h2 := List.getElem?_zip_eq_some.1 hi
  split_ifs at he with h3
  · cases he
    simp only at h3
    exact ⟨i, h2.1, h3 ▸ h2.2⟩

theorem mem_selectValid {m : Mat} {w : List ℚ} {row : Vec} {i : Nat} (h1 : m[i]? = some row)
    (h2 : w[i]? = some 1) : row ∈ selectValid m w := by
  unfold selectValid
  rw [List.mem_filterMap]
  exact ⟨(row, 1), List.mem_of_getElem? (List.getElem?_zip_eq_some.2 ⟨h1, h2⟩), by simp⟩

theorem constrLoop_safe {config : List Desc} {cs : List ConstrDict} {sp : Space}
    (h : designSpace config (some cs) = .ok sp) (hb : sp.hasBandit = false)
    (hs : ∀ k ∈ sp.kinds, Samplable k) (ds : Nat → Draw) (hu : ∀ i, UnitDraw (ds i)) (n : Nat) :
    ∀ (fuel round : Nat) (acc m : Mat),
      (∀ row ∈ acc, ObjDomain sp.kinds row ∧ Feasible cs row) →
      constrLoop sp n ds fuel round acc = .ok m →
      m.length = n ∧ ∀ row ∈ m, ObjDomain sp.kinds row ∧ Feasible cs row := by
  intro fuel
  induction fuel with
  | zero =>
    intro round acc m hacc hm
    unfold constrLoop at hm
    split_ifs at hm with hlt
    cases hm
    refine ⟨by simp; omega, fun row hr => hacc row (List.mem_of_mem_take hr)⟩
  | succ fuel ih =>
    intro round acc m hacc hm
    unfold constrLoop at hm
    split_ifs at hm with hlt
    · obtain ⟨dom, h1, _, h3⟩ := randomNoConstr_ok h hb hs (ds round) (hu round) n
      simp only [h1] at hm
      cases hw : sp.indicatorConstraints dom with
      | error e => simp [hw] at hm
      | ok w =>
        simp only [hw] at hm
        refine ih (round + 1) _ m ?_ hm
        intro row hr
        rcases List.mem_append.1 hr with hr | hr
        · exact hacc row hr
        · obtain ⟨i, hi, hi1⟩ := selectValid_mem hr
          refine ⟨h3 row (List.mem_of_getElem? hi), ?_⟩
          rcases (C11_indicator h dom w hw).2 i row hi with ⟨_, h5⟩ | ⟨h5, _⟩
          · exact h5
          · rw [hi1] at h5; norm_num at h5
    · cases hm
      refine ⟨by simp; omega, fun row hr => hacc row (List.mem_of_mem_take hr)⟩

/-- C16. Whenever the constrained random design returns, it returns the requested number of rows,
all in the domain and satisfying every constraint (evaluated on the objective row). -/
theorem C16_constrained_design {config : List Desc} {cs : List ConstrDict} {sp : Space}
    (h : designSpace config (some cs) = .ok sp) (hb : sp.hasBandit = false)
    (hs : ∀ k ∈ kindsOf config, Samplable k) (o : DesignOracle) (hu : ∀ i, UnitDraw (o.draws i))
    (n : Nat) (m : Mat) (hm : initialDesign "random" sp o n = .ok m) :
    m.length = n ∧ ∀ row ∈ m, ObjDomain (kindsOf config) row ∧ Feasible cs row := by
  obtain ⟨_, _, _, _, _, _, hc⟩ := designSpace_ok h
  rw [← space_kinds_eq h] at *
  have : constrLoop sp n o.draws o.fuel 0 [] = .ok m := by
    simpa [initialDesign, randomDesign, Space.hasConstraints, hc] using hm
  exact constrLoop_safe h hb hs o.draws hu n _ _ _ _ (by simp) this

/-- The rows sampled in round `i`. -/
def SampledIn (sp : Space) (o : DesignOracle) (n i : Nat) (row : Vec) : Prop :=
  ∃ dom, randomNoConstr sp (o.draws i) n = .ok dom ∧ row ∈ dom

/-- all constraints can be evaluated at rows of `d` values -/
def Evaluable (d : Nat) (cs : List ConstrDict) : Prop :=
  ∀ c ∈ cs, ∃ f, constraintOf c = some f ∧ ∀ r : Vec, r.length = d → ∃ v, f r = .ok v

theorem indicator_total {config : List Desc} {cs : List ConstrDict} {sp : Space}
    (h : designSpace config (some cs) = .ok sp) {d : Nat} (hev : Evaluable d cs) (X : Mat)
    (hX : ∀ r ∈ X, r.length = d) : ∃ w, sp.indicatorConstraints X = .ok w := by
  obtain ⟨_, _, _, _, _, _, hcs⟩ := designSpace_ok h
  simp only [Space.indicatorConstraints, hcs, Option.map_some]
  apply applyConstrs_total
  intro c' hc'
  obtain ⟨c, hcm, rfl⟩ := List.mem_map.1 hc'
  rw [fixConstr_constraint]
  obtain ⟨f, h1, h2⟩ := hev c hcm
  exact ⟨f, h1, fun r hr => h2 r (hX r hr)⟩

/-- C16. If no sampled row ever satisfies the constraints, the design does not return, however
many rounds are made. -/
theorem C16_infeasible_never_returns {config : List Desc} {cs : List ConstrDict} {sp : Space}
    (h : designSpace config (some cs) = .ok sp) (hb : sp.hasBandit = false)
    (hs : ∀ k ∈ kindsOf config, Samplable k) (o : DesignOracle) (hu : ∀ i, UnitDraw (o.draws i))
    (n : Nat) (hn : 0 < n) (hev : Evaluable sp.kinds.length cs)
    (hinf : ∀ i row, SampledIn sp o n i row → ¬ Feasible cs row) :
    ∀ fuel, initialDesign "random" sp { o with fuel := fuel } n = .error .outOfFuel := by
  intro fuel
  obtain ⟨_, _, _, _, _, _, hc⟩ := designSpace_ok h
  rw [← space_kinds_eq h] at *
  have key : ∀ fuel round, constrLoop sp n o.draws fuel round [] = .error .outOfFuel := by
    intro fuel
    induction fuel with
    | zero => intro round; unfold constrLoop; simp [hn]
    | succ fuel ih =>
      intro round
      unfold constrLoop
      obtain ⟨dom, h1, _, h3⟩ := randomNoConstr_ok h hb hs (o.draws round) (hu round) n
      obtain ⟨w, hw⟩ := indicator_total h hev dom (fun r hr => (h3 r hr).length_eq.symm)
      have : selectValid dom w = [] := by
        rw [List.eq_nil_iff_forall_not_mem]
        intro row hr
        obtain ⟨i, hi, hi1⟩ := selectValid_mem hr
        rcases (C11_indicator h dom w hw).2 i row hi with ⟨_, h5⟩ | ⟨h5, _⟩
        · exact hinf round row ⟨dom, h1, List.mem_of_getElem? hi⟩ h5
        · rw [hi1] at h5; norm_num at h5
      simp [hn, h1, hw, this, ih]
  simpa [initialDesign, randomDesign, Space.hasConstraints, hc] using key fuel 0

/-- C16. If feasible rows keep being sampled (after every round there is a later one containing
one), the design returns after finitely many rounds. -/
theorem C16_feasible_returns {config : List Desc} {cs : List ConstrDict} {sp : Space}
    (h : designSpace config (some cs) = .ok sp) (hb : sp.hasBandit = false)
    (hs : ∀ k ∈ kindsOf config, Samplable k) (o : DesignOracle) (hu : ∀ i, UnitDraw (o.draws i))
    (n : Nat) (hev : Evaluable sp.kinds.length cs)
    (hfeas : ∀ i, ∃ j ≥ i, ∃ row, SampledIn sp o n j row ∧ Feasible cs row) :
    ∃ fuel m, initialDesign "random" sp { o with fuel := fuel } n = .ok m := by
  obtain ⟨_, _, _, _, _, _, hc⟩ := designSpace_ok h
  rw [← space_kinds_eq h] at *
  have step : ∀ round (acc : Mat), acc.length < n → ∃ new : Mat, ((∃ row, SampledIn sp o n round row ∧
      Feasible cs row) → 0 < new.length) ∧ ∀ fuel, constrLoop sp n o.draws (fuel + 1) round acc
        = constrLoop sp n o.draws fuel (round + 1) (acc ++ new) := by
    intro round acc hlt
    obtain ⟨dom, h1, _, h3⟩ := randomNoConstr_ok h hb hs (o.draws round) (hu round) n
    obtain ⟨w, hw⟩ := indicator_total h hev dom (fun r hr => (h3 r hr).length_eq.symm)
    refine ⟨selectValid dom w, ?_, ?_⟩
    · rintro ⟨row, ⟨dom', hd', hr⟩, hf⟩
      rw [h1] at hd'
      cases hd'
      obtain ⟨i, hi⟩ := List.getElem?_of_mem hr
      rcases (C11_indicator h dom w hw).2 i row hi with ⟨h5, _⟩ | ⟨_, c, hcm, f, v, hfc, hv, hpos⟩
      · exact List.length_pos_of_mem (mem_selectValid hi h5)
      · obtain ⟨f', v', hf', hv', hle⟩ := hf c hcm
        rw [hfc] at hf'
        cases hf'
        rw [hv] at hv'
        cases hv'
        exact absurd hpos (not_lt.2 hle)
    · intro fuel
      conv_lhs => unfold constrLoop
      simp [hlt, h1, hw]
  have done : ∀ fuel round (acc : Mat), ¬ acc.length < n → constrLoop sp n o.draws fuel round acc
      = .ok (acc.take n) := by
    intro fuel round acc hn
    unfold constrLoop
    simp [hn]
  have key : ∀ missing round (acc : Mat), n ≤ acc.length + missing →
      ∃ fuel m, constrLoop sp n o.draws fuel round acc = .ok m := by
    intro missing
    induction missing with
    | zero => intro round acc hle; exact ⟨0, _, done _ _ _ (by omega)⟩
    | succ missing ih =>
      intro round acc hle
      obtain ⟨j, hj, hrow⟩ := hfeas round
      obtain ⟨t, rfl⟩ : ∃ t, j = round + t := ⟨j - round, by omega⟩
      clear hj
      induction t generalizing round acc with
      | zero =>
        by_cases hlt : acc.length < n
        · obtain ⟨new, hnew, hstep⟩ := step round acc hlt
          have := hnew hrow
          obtain ⟨fuel, m, hm⟩ := ih (round + 1) (acc ++ new) (by simp; omega)
          exact ⟨fuel + 1, m, by rw [hstep, hm]⟩
        · exact ⟨0, _, done _ _ _ hlt⟩
      | succ t iht =>
        by_cases hlt : acc.length < n
        · obtain ⟨new, _, hstep⟩ := step round acc hlt
          obtain ⟨fuel, m, hm⟩ := iht (round + 1) (acc ++ new) (by simp; omega)
            (by rw [show round + 1 + t = round + (t + 1) by omega]; exact hrow)
          exact ⟨fuel + 1, m, by rw [hstep, hm]⟩
        · exact ⟨0, _, done _ _ _ hlt⟩
  obtain ⟨fuel, m, hm⟩ := key n 0 [] (by simp)
  exact ⟨fuel, m, by simpa [initialDesign, randomDesign, Space.hasConstraints, hc] using hm⟩

/-- the constraint `x[:,0] <= 0` rejects the first sample and the design draws again -/
example : ((designSpace exConfig (some [{ constraint := some fun r => npGet r 0 }])).bind
    fun sp => initialDesign "random" sp exOracle 2) = .ok [[0, -1/3, 7, 0], [-1/3, -1/2, 3, 1]] ∧
  ((designSpace exConfig (some [{ constraint := some fun r => (npGet r 0).map (· + 1/5) }])).bind
    fun sp => initialDesign "random" sp exOracle 2)
      = .ok [[-1/3, -1/2, 3, 1], [-1/3, -1/2, 3, 1]] := by decide +kernel

/-- a constraint on the second variable: it can be evaluated at rows of two values, and not at shorter ones -/
example : Evaluable 2 [{ constraint := some fun r => npGet r 1 }] ∧ ¬ Evaluable 1 [{ constraint := some fun r => npGet r 1 }] := by
  constructor
  · intro c hc
    simp only [List.mem_cons, List.not_mem_nil, or_false] at hc
    subst hc
    refine ⟨_, rfl, fun r hr => ⟨r[1], npGet_ok.2 (List.getElem?_eq_getElem (by omega))⟩⟩
  · intro hev
    obtain ⟨f, hf, hv⟩ := hev _ (List.mem_cons_self)
    cases hf
    obtain ⟨v, hv⟩ := hv [0] rfl
    simp [npGet] at hv

/-! ## C17: Latin and Sobol designs -/

/-- Points of the unit cube. -/
def UnitPts (u : Nat → Nat → ℚ) : Prop := ∀ r k, 0 ≤ u r k ∧ u r k ≤ 1

/-- C17. Latin and Sobol designs return the requested number of in-domain rows; coordinate `k` of
the continuous part of row `r` is the point of the `k`-th interval at fraction `u r k`. Spaces
with constraints are refused. -/
theorem C17_latin_sobol {config : List Desc} {sp : Space}
    (h : designSpace config none = .ok sp) (hb : sp.hasBandit = false)
    (hs : ∀ k ∈ kindsOf config, Samplable k) (o : DesignOracle)
    (hl : UnitPts o.lhs) (hsob : UnitPts o.sobol) (n : Nat) :
    ∀ nu ∈ [("latin", o.lhs), ("sobol", o.sobol)],
      ∃ m, initialDesign nu.1 sp o n = .ok m ∧ m.length = n ∧
        (∀ row ∈ m, ObjDomain (kindsOf config) row) ∧
        ∀ (r k : Nat) (row : Vec) (b : ℚ × ℚ), m[r]? = some row →
          ((kindsOf config).filterMap contBound)[k]? = some b →
          (contPart (kindsOf config) row)[k]? = some (b.1 + nu.2 r k * (b.2 - b.1)) := by
  obtain ⟨_, _, _, _, _, _, hc⟩ := designSpace_ok h
  rw [← space_kinds_eq h] at *
  have gen : ∀ (u : Nat → Nat → ℚ), UnitPts u → ∃ m,
      mapE (designRow sp (o.draws 0) fun r => sp.getContinuousBounds.mapIdx fun k b =>
        b.1 + u r k * (b.2 - b.1)) (List.range n) = .ok m ∧ m.length = n ∧
        (∀ row ∈ m, ObjDomain sp.kinds row) ∧
        ∀ (r k : Nat) (row : Vec) (b : ℚ × ℚ), m[r]? = some row →
          (sp.kinds.filterMap contBound)[k]? = some b →
          (contPart sp.kinds row)[k]? = some (b.1 + u r k * (b.2 - b.1)) := by
    intro u hu
    obtain ⟨m, h1, h2, h3⟩ := designMat_ok h hb hs (o.draws 0)
      (fun r => sp.getContinuousBounds.mapIdx fun k b => b.1 + u r k * (b.2 - b.1)) n (by
        intro r _
        have := uniformRow_mem (u r) (hu r) _ (contBounds_le h hb hs)
        simpa only [mul_comm] using this)
    refine ⟨m, h1, h2, ?_, ?_⟩
    · intro row hr
      obtain ⟨i, hi⟩ := List.getElem?_of_mem hr
      exact (h3 i row hi).1
    · intro r k row b hrow hk
      rw [(h3 r row hrow).2, List.getElem?_mapIdx, getContinuousBounds_eq h hb, hk]
      rfl
  intro nu hnu
  simp only [List.mem_cons, List.not_mem_nil, or_false] at hnu
  rcases hnu with rfl | rfl
  · obtain ⟨m, h1, h2⟩ := gen o.lhs hl
    exact ⟨m, by simpa [initialDesign, latinDesign, Space.hasConstraints, hc] using h1, h2⟩
  · obtain ⟨m, h1, h2⟩ := gen o.sobol hsob
    refine ⟨m, ?_, h2⟩
    have : initialDesign "sobol" sp o n = mapE (designRow sp (o.draws 0) fun r =>
        sp.getContinuousBounds.mapIdx fun k b => o.sobol r k * (b.2 - b.1) + b.1) (List.range n) := by
      simp [initialDesign, sobolDesign, Space.hasConstraints, hc]
    rw [this, ← h1]
    simp only [add_comm]

/-- C17. Constrained spaces are refused by the Latin, Sobol and grid designs. -/
theorem C17_constraints_refused {config : List Desc} {cs : List ConstrDict} {sp : Space}
    (h : designSpace config (some cs) = .ok sp) (o : DesignOracle) (n : Nat) :
    ∀ name ∈ ["latin", "sobol", "grid"], initialDesign name sp o n = .error .invalidConfig := by
  obtain ⟨_, _, _, _, _, _, hc⟩ := designSpace_ok h
  intro name hname
  simp only [List.mem_cons, List.not_mem_nil, or_false] at hname
  rcases hname with rfl | rfl | rfl <;>
    simp [initialDesign, latinDesign, sobolDesign, gridDesign, Space.hasConstraints, hc]

example : UnitPts exOracle.lhs ∧ UnitPts exOracle.sobol := by
  constructor <;> intro r k <;> simp only [exOracle]
  · refine ⟨by positivity, ?_⟩
    rw [div_le_one (by positivity)]
    push_cast
    linarith
  · refine ⟨by positivity, ?_⟩
    rw [div_le_one (by positivity)]
    have : (0 : ℚ) ≤ (r : ℚ) + k := by positivity
    linarith

example : ((designSpace exConfig none).bind fun sp => initialDesign "latin" sp exOracle 2)
    = .ok [[-1, 0, 7, 0], [0, 1/3, 3, 1]] := by decide +kernel

/-! ## C18: integer root -/

/-- C18. For positive arguments `iroot` terminates with the greatest integer whose `k`-th power is
at most `n`. -/
theorem C18_iroot (k n : Nat) (hk : 0 < k) (hn : 0 < n) :
    ∃ m, iroot k n = .ok m ∧ m ^ k ≤ n ∧ ∀ j, j ^ k ≤ n → j ≤ m := by
  obtain ⟨m, h1, h2, h3⟩ := iroot_spec k n hk hn
  refine ⟨m, h1, h2, ?_⟩
  intro j hj
  by_contra hlt
  have : (m + 1) ^ k ≤ j ^ k := Nat.pow_le_pow_left (by omega) k
  omega

/-- C18. Outside these arguments: no continuous dimension, or no data over at least two
dimensions, is a division by zero. -/
theorem C18_iroot_zero (n k : Nat) (hk : 2 ≤ k) :
    iroot 0 n = .error .zeroDivision ∧ iroot k 0 = .error .zeroDivision := by
  unfold iroot
  constructor
  · rw [irootLoop]; simp
  · rw [irootLoop]
    have : k ≠ 0 := by omega
    simp [hk, this]

example : iroot 3 30 = .ok 3 := by
  obtain ⟨m, h1, h2, h3⟩ := C18_iroot 3 30 (by omega) (by omega)
  have : 3 ≤ m := h3 3 (by norm_num)
  have : m < 4 := by
    by_contra hc
    have : 4 ^ 3 ≤ m ^ 3 := Nat.pow_le_pow_left (by omega) 3
    omega
  rw [h1]
  congr 1
  omega

/-! ## C19: grid design -/

/-- Value number `i` of `m` equally spaced values from `lo` to `hi` (just `lo` if `m = 1`). -/
def gridValue (m : Nat) (b : ℚ × ℚ) (i : Nat) : ℚ := b.1 + i * (b.2 - b.1) / (m - 1 : ℕ)

theorem linspaceAt_eq (m i : Nat) (b : ℚ × ℚ) :
    linspaceAt b.1 b.2 m i = gridValue m b i := by
  unfold linspaceAt gridValue
  split_ifs with h
  · have : m - 1 = 0 := by omega
    simp [this]
  · rw [Nat.cast_sub (by omega : 1 ≤ m)]
    push_cast
    ring

/-- C19. With `d ≥ 1` continuous variables and `n ≥ 1`, the grid design has `m ^ d` rows, where
`m` is the greatest integer with `m ^ d ≤ n`. All rows are in the domain. There is a numbering of
the rows by grid coordinates (`d` numbers below `m`) such that every combination of coordinates
belongs to exactly one row, and the continuous part of a row consists of the equally spaced values
selected by its coordinates. -/
theorem C19_grid {config : List Desc} {sp : Space}
    (h : designSpace config none = .ok sp) (hb : sp.hasBandit = false)
    (hs : ∀ k ∈ kindsOf config, Samplable k) (o : DesignOracle)
    (hd : ((kindsOf config).filterMap contBound) ≠ []) (n : Nat) (hn : 0 < n) :
    ∃ (M : Mat) (m : Nat) (coord : Nat → List Nat),
      initialDesign "grid" sp o n = .ok M ∧
      m ^ ((kindsOf config).filterMap contBound).length ≤ n ∧
      (∀ j, j ^ ((kindsOf config).filterMap contBound).length ≤ n → j ≤ m) ∧
      M.length = m ^ ((kindsOf config).filterMap contBound).length ∧
      (∀ row ∈ M, ObjDomain (kindsOf config) row) ∧
      (∀ c : List Nat, c.length = ((kindsOf config).filterMap contBound).length → (∀ i ∈ c, i < m) →
        ∃! r, r < M.length ∧ coord r = c) ∧
      ∀ r row, M[r]? = some row →
        (coord r).length = ((kindsOf config).filterMap contBound).length ∧ (∀ i ∈ coord r, i < m) ∧
        contPart (kindsOf config) row
          = List.zipWith (gridValue m) ((kindsOf config).filterMap contBound) (coord r) := by
  obtain ⟨_, _, _, _, _, _, hc⟩ := designSpace_ok h
  rw [← space_kinds_eq h] at *
  have hbd := getContinuousBounds_eq h hb
  set bs := sp.kinds.filterMap contBound with hbs
  have hdl : (contPos 0 sp.kinds).length = bs.length := by
    have : ∀ (ks : List Kind) s, (contPos s ks).length = (ks.filterMap contBound).length := by
      intro ks
      induction ks with
      | nil => intro s; rfl
      | cons k ks ih =>
        intro s
        rw [List.filterMap_cons]
        cases k <;> simp [contPos, Kind.isContinuous, contBound, ih]
    exact this _ 0
  have hpos : 0 < bs.length := List.length_pos_iff.2 hd
  obtain ⟨m, hm1, hm2, hm3⟩ := C18_iroot bs.length n hpos hn
  have hm0 : 0 < m := hm3 1 (by rw [one_pow]; exact hn)
  obtain ⟨M, hM1, hM2, hM3⟩ := designMat_ok h hb hs (o.draws 0)
    (fun r => multigridRow sp.getContinuousBounds m r) (m ^ bs.length) (by
      intro r hr
      rw [hbd, multigridRow_eq bs hd m r hr, List.forall₂_iff_get]
      have hgl : (gridCode m bs.length r).length = bs.length := by
        rw [gridCode, swap2_length, digits_length]
      refine ⟨by simp [hgl], ?_⟩
      intro i h1 h2
      simp only [List.get_eq_getElem, List.getElem_zipWith]
      apply linspaceAt_mem
      · have := contBounds_le h hb hs
        rw [hbd] at this
        exact this _ (List.getElem_mem _)
      · exact digits_lt m hm0 _ r _ ((mem_swap2 _ _).1 (List.getElem_mem _)))
  refine ⟨M, m, gridCode m bs.length, ?_, hm2, hm3, hM2, ?_, ?_, ?_⟩
  · simpa [initialDesign, gridDesign, Space.hasConstraints, hc, getContinuousDims_eq h hb, hdl, hm1]
      using hM1
  · intro row hr
    obtain ⟨i, hi⟩ := List.getElem?_of_mem hr
    exact (hM3 i row hi).1
  · intro c hcl hcm
    obtain ⟨r, hr, hrd⟩ := digits_exists m (swap2 c) (fun i hi => hcm i ((mem_swap2 _ _).1 hi))
    rw [swap2_length, hcl] at hr hrd
    refine ⟨r, ⟨by rw [hM2]; exact hr, ?_⟩, ?_⟩
    · show swap2 (digits m bs.length r) = c
      rw [hrd, swap2_swap2]
    · rintro r' ⟨hr', hr''⟩
      rw [hM2] at hr'
      refine digits_inj m bs.length r' r hr' hr ?_
      rw [hrd, ← hr'']
      exact (swap2_swap2 _).symm
  · intro r row hrow
    have hr : r < m ^ bs.length := by rw [← hM2]; exact (List.getElem?_eq_some_iff.1 hrow).1
    refine ⟨by rw [gridCode, swap2_length, digits_length], ?_, ?_⟩
    · intro i hi
      exact digits_lt m hm0 _ r i ((mem_swap2 _ _).1 hi)
    · rw [(hM3 r row hrow).2, hbd, multigridRow_eq bs hd m r hr]
      congr 1
      funext b i
      exact linspaceAt_eq m i b

example : ((kindsOf exConfig).filterMap contBound) ≠ [] := by
  rw [exConfig_kinds]; simp [contBound]

/-! ## C20: bandit spaces -/

/-- C20 (partial: one bandit variable whose `dimensionality` is not given explicitly; the claim
for several bandits is false, see `C20_bandit_counterexample`). Every row of every design is an
arm. -/
theorem C20_bandit_partial (name : Option String) (arms : Mat) {sp : Space}
    (h : designSpace [{ name := name, type := some "bandit", domain := some (.rows arms) }] none = .ok sp)
    (o : DesignOracle) (n : Nat) :
    ∀ des ∈ ["random", "latin", "sobol"],
      ∃ m, initialDesign des sp o n = .ok m ∧ m.length = n ∧ ∀ row ∈ m, row ∈ arms := by
  obtain ⟨hne, hw, v, w, hex, hvk, hvars, hwk, hwd, hcs⟩ : arms ≠ [] ∧
      (∀ b ∈ arms, b.length = armDim arms) ∧ ∃ (v : EVar) (w : Var), sp.expanded = [v] ∧
      v.kind = .bandit arms ∧ sp.vars = [w] ∧ w.kind = .bandit arms ∧
      w.dimensionality = armDim arms ∧ sp.constraints = none := by
    cases arms with
    | nil => simp [designSpace, translateSpace, translateFrom, createVariable] at h
    | cons a as =>
      by_cases hall : as.all (fun b => b.length == a.length) = true
      · refine ⟨by simp, ?_, ?_⟩
        · intro b hb
          rcases List.mem_cons.1 hb with rfl | hb
          · rfl
          · simpa [armDim] using List.all_eq_true.1 hall b hb
        · simp only [designSpace, translateSpace, translateFrom, createVariable, Option.getD_some,
            expandConfig, mapE, expandDesc, if_pos hall] at h
          generalize name.getD ("var_" ++ toString 0) = nm at h
          simp [Kind.isBandit, Var.expand, computeIndices] at h
          subst h
          exact ⟨_, _, rfl, rfl, rfl, rfl, rfl, rfl⟩
      · exfalso
        simp only [designSpace, translateSpace, translateFrom, createVariable, Option.getD_some,
          if_neg hall] at h
        simp at h
  have scat : ∀ (as' row' pre : Vec), as'.length = row'.length →
      scatter ((List.range as'.length).map (pre.length + ·)) as' (pre ++ row') = .ok (pre ++ as') := by
    intro as'
    induction as' with
    | nil =>
      intro row' pre hl
      cases row' with
      | nil => rfl
      | cons _ _ => simp at hl
    | cons x xs ih =>
      intro row' pre hl
      cases row' with
      | nil => simp at hl
      | cons y row' =>
        rw [List.length_cons, List.range_succ_eq_map, List.map_cons, scatter, Nat.add_zero,
          setCol_append]
        have := ih row' (pre ++ [x]) (by simpa using hl)
        rw [List.map_map]
        simp only [List.append_assoc, List.cons_append, List.nil_append, List.length_append,
          List.length_cons, List.length_nil] at this
        rw [← this]
        simp only
        congr 1
        apply List.map_congr_left
        intro i _
        simp
        omega
  have key : ∀ (d : Draw) (design : Nat → Vec) (r : Nat), ∃ row ∈ arms,
      designRow sp d design r = .ok row := by
    intro d design r
    obtain ⟨b, hb, hch⟩ := chooseFrom_ok hne (d.choice 0 r)
    refine ⟨b, hb, ?_⟩
    have hl := hw b hb
    have := scat b ((List.range (armDim arms)).map (d.junk r)) [] (by simp [hl])
    simp only [List.length_nil, List.nil_append, hl] at this
    simp only [designRow, hex, fillRow, hvk, hch, emptyRow, Space.dimensionality, hvars, List.map_cons,
      List.map_nil, List.sum_cons, List.sum_nil, Nat.add_zero, hwd, this]
    simp [putContinuous, Space.hasContinuous, hvars, hwk, Kind.isContinuous]
  have fin : ∀ (d : Draw) (design : Nat → Vec), ∃ m, mapE (designRow sp d design) (List.range n)
      = .ok m ∧ m.length = n ∧ ∀ row ∈ m, row ∈ arms := by
    intro d design
    obtain ⟨m, hm⟩ := mapE_total (l := List.range n) fun r _ => (key d design r).imp fun _ h => h.2
    refine ⟨m, hm, by rw [mapE_length hm, List.length_range], ?_⟩
    intro row hrow
    obtain ⟨r, _, hr⟩ := mapE_ok_mem hm hrow
    obtain ⟨row', hr1, hr2⟩ := key d design r
    rw [hr] at hr2
    cases hr2
    exact hr1
  intro des hdes
  simp only [List.mem_cons, List.not_mem_nil, or_false] at hdes
  rcases hdes with rfl | rfl | rfl
  · simpa [initialDesign, randomDesign, randomNoConstr, Space.hasConstraints, hcs] using fin _ _
  · simpa [initialDesign, latinDesign, Space.hasConstraints, hcs] using fin _ _
  · simpa [initialDesign, sobolDesign, Space.hasConstraints, hcs] using fin _ _

/-- two bandit variables with arms of width two -/
def exBandit2 : List Desc :=
  [ { name := some "a", type := some "bandit", domain := some (.rows [[1, 2], [3, 4]]) },
    { name := some "b", type := some "bandit", domain := some (.rows [[5, 6], [7, 8]]) } ]

/-- C20 is false for several bandits: the second bandit overwrites the columns of the first one,
and the last column keeps the uninitialised content of `np.empty`. -/
theorem C20_bandit_counterexample :
    ((designSpace exBandit2 none).bind fun sp => initialDesign "random" sp exOracle 2)
      = .ok [[1, 7, 8, 99], [3, 5, 6, 99]] := by decide +kernel

example : ((designSpace [{ type := some "bandit", domain := some (.rows [[1, 2], [3, 4]]) }] none).bind
    fun sp => initialDesign "random" sp exOracle 2) = .ok [[1, 2], [3, 4]] := by decide +kernel

end GPyOpt.Props
