import Verif.Model.Float
import Verif.Lemmas.Float
import Verif.Props.Design
import Mathlib.Tactic.Linarith
import Mathlib.Tactic.Positivity

/-!
# Properties C128–C130: floating-point arithmetic

The claims hold for every number `p` of binary digits and for every rounding to a nearest number, whatever it does with ties.
-/

namespace GPyOpt.Props

open GPyOpt Spec

variable {p : ℕ} {rd : ℚ → ℚ}

/-! ## C128: experiment designs -/

/-- The numbers of the standard library: floating-point numbers in `[0, 1)`. -/
def FloatUnit (p : ℕ) (u : ℚ) : Prop := IsFloat p u ∧ 0 ≤ u ∧ u < 1

/-- The bounds of the continuous variables are floating-point numbers in the right order. -/
def FloatBounds (p : ℕ) (bs : List (ℚ × ℚ)) : Prop := ∀ b ∈ bs, IsFloat p b.1 ∧ IsFloat p b.2 ∧ b.1 ≤ b.2

/-- Everything the designs obtain from outside consists of floating-point numbers in `[0, 1)`. -/
def FloatOracle (p : ℕ) (o : DesignOracle) : Prop :=
  (∀ i k r, FloatUnit p ((o.draws i).unif k r)) ∧ (∀ r k, FloatUnit p (o.lhs r k)) ∧ ∀ r k, FloatUnit p (o.sobol r k)

/-- `u'` selects nearly the same point of the interval `b` as `u`. -/
def Near (p : ℕ) (b : ℚ × ℚ) (u u' : ℚ) : Prop :=
  |(b.2 - b.1) * u' - (b.2 - b.1) * u| ≤ (3 * (b.2 - b.1) + max |b.1| |b.2|) * (2 : ℚ) ^ (-(p : ℤ))

/-- The fraction of the interval at which the computed point lies. -/
def effU (rd : ℚ → ℚ) (b : ℚ × ℚ) (u : ℚ) : ℚ := if b.2 = b.1 then 0 else (flAffine rd b.1 b.2 u - b.1) / (b.2 - b.1)

/-- The fraction for dimension `k`. -/
def effAt (rd : ℚ → ℚ) (bs : List (ℚ × ℚ)) (k : Nat) (u : ℚ) : ℚ := match bs[k]? with
  | some b => effU rd b u
  | none => 0

/-- The numbers with which exact arithmetic gives the same designs. -/
def effOracle (rd : ℚ → ℚ) (bs : List (ℚ × ℚ)) (o : DesignOracle) : DesignOracle where
  draws i := { junk := (o.draws i).junk, choice := (o.draws i).choice, unif := fun k r => effAt rd bs k ((o.draws i).unif k r) }
  lhs r k := effAt rd bs k (o.lhs r k)
  sobol r k := effAt rd bs k (o.sobol r k)
  fuel := o.fuel

theorem flAffine_mem (H : RoundsToNearest p rd) (hp : 1 ≤ p) {b : ℚ × ℚ} (h : IsFloat p b.1 ∧ IsFloat p b.2 ∧ b.1 ≤ b.2) {u : ℚ}
    (hu : FloatUnit p u) : b.1 ≤ flAffine rd b.1 b.2 u ∧ flAffine rd b.1 b.2 u ≤ b.2 :=
  rd_affine H hp h.1 h.2.1 h.2.2 hu.1 hu.2.1 hu.2.2

theorem effU_mem (H : RoundsToNearest p rd) (hp : 1 ≤ p) {b : ℚ × ℚ} (h : IsFloat p b.1 ∧ IsFloat p b.2 ∧ b.1 ≤ b.2) {u : ℚ}
    (hu : FloatUnit p u) : 0 ≤ effU rd b u ∧ effU rd b u ≤ 1 := by
  obtain ⟨h1, h2⟩ := flAffine_mem H hp h hu
  unfold effU
  split_ifs with he
  · norm_num
  · have hlt : b.1 < b.2 := lt_of_le_of_ne h.2.2 (Ne.symm he)
    constructor
    · exact div_nonneg (by linarith) (by linarith)
    · rw [div_le_one (by linarith)]
      linarith

theorem effU_eq (H : RoundsToNearest p rd) (hp : 1 ≤ p) {b : ℚ × ℚ} (h : IsFloat p b.1 ∧ IsFloat p b.2 ∧ b.1 ≤ b.2) {u : ℚ}
    (hu : FloatUnit p u) : b.1 + (b.2 - b.1) * effU rd b u = flAffine rd b.1 b.2 u := by
  obtain ⟨h1, h2⟩ := flAffine_mem H hp h hu
  unfold effU
  split_ifs with he
  · linarith
  · rw [mul_div_cancel₀ _ (sub_ne_zero.2 he)]
    ring

/-- Relative error of the rounding, for non-negative numbers. -/
theorem rd_rel (H : RoundsToNearest p rd) (hp : 1 ≤ p) {x : ℚ} (h : 0 ≤ x) : |rd x - x| ≤ x * (2 : ℚ) ^ (-(p : ℤ)) := by
  rcases h.eq_or_lt with rfl | h
  · simp [rd_zero H]
  · exact rd_error H hp h

theorem neg_nearest (H : RoundsToNearest p rd) : RoundsToNearest p fun x => -rd (-x) where
  isFloat x := (H.isFloat _).neg
  nearest x y hy := by
    have := H.nearest (-x) (-y) hy.neg
    rw [show -rd (-x) - x = -(rd (-x) - -x) by ring, show y - x = -(-y - -x) by ring, abs_neg, abs_neg]
    exact this

/-- Relative error of the rounding. -/
theorem rd_rel_abs (H : RoundsToNearest p rd) (hp : 1 ≤ p) (x : ℚ) : |rd x - x| ≤ |x| * (2 : ℚ) ^ (-(p : ℤ)) := by
  rcases le_total 0 x with h | h
  · rw [abs_of_nonneg h]; exact rd_rel H hp h
  · have := rd_rel (neg_nearest H) hp (x := -x) (by linarith)
    rw [neg_neg, show -rd x - -x = -(rd x - x) by ring, abs_neg] at this
    rwa [abs_of_nonpos h]

theorem eps_pos (p : ℕ) : (0 : ℚ) < (2 : ℚ) ^ (-(p : ℤ)) := zpow_pos (by norm_num) _

theorem eps_le (hp : 2 ≤ p) : (2 : ℚ) ^ (-(p : ℤ)) ≤ 1 / 4 := by
  have := zpow_le_zpow_right₀ (by norm_num : (1 : ℚ) ≤ 2) (show -(p : ℤ) ≤ -2 by omega)
  norm_num at this ⊢
  exact this

theorem effU_near (H : RoundsToNearest p rd) (hp : 2 ≤ p) {b : ℚ × ℚ} (h : IsFloat p b.1 ∧ IsFloat p b.2 ∧ b.1 ≤ b.2) {u : ℚ}
    (hu : FloatUnit p u) : Near p b u (effU rd b u) := by
  have he := effU_eq H (by omega) h hu
  have hε := eps_pos p
  have hε4 := eps_le hp
  obtain ⟨_, hu0, hu1⟩ := hu
  have hD : 0 ≤ b.2 - b.1 := by linarith [h.2.2]
  unfold Near
  set ε := (2 : ℚ) ^ (-(p : ℤ)) with hεd
  have e1 := abs_le.1 (rd_rel H (by omega) hD)
  have hR0 := rd_nonneg H hD
  set R := rd (b.2 - b.1) with hR
  have hR2 : u * R ≤ R := by nlinarith
  have e2 := abs_le.1 (rd_rel H (by omega) (mul_nonneg hu0 hR0))
  have hP0 := rd_nonneg H (mul_nonneg hu0 hR0)
  have hP1 : rd (u * R) ≤ R := rd_le H (H.isFloat _) hR2
  have hF : flAffine rd b.1 b.2 u = rd (b.1 + rd (u * R)) := rfl
  set P := rd (u * R) with hP
  have e3 := abs_le.1 (rd_rel_abs H (by omega) (b.1 + P))
  rw [← hεd] at e1 e2 e3
  rw [← hF, ← he] at e3
  have hM : |b.1 + P| ≤ max |b.1| |b.2| + (b.2 - b.1) * ε := by
    have h1 := neg_abs_le b.1
    have h2 := le_abs_self b.2
    have h3 := le_max_left |b.1| |b.2|
    have h4 := le_max_right |b.1| |b.2|
    rw [abs_le]
    constructor <;> nlinarith
  have hMε := mul_le_mul_of_nonneg_right hM hε.le
  have k1 : u * (b.2 - b.1) * ε ≤ (b.2 - b.1) * ε := by
    have : u * (b.2 - b.1) ≤ b.2 - b.1 := by nlinarith
    exact mul_le_mul_of_nonneg_right this hε.le
  have k2 : u * R * ε ≤ (b.2 - b.1) * ε + (b.2 - b.1) * ε * ε := by
    have := mul_le_mul_of_nonneg_right (hR2.trans (by linarith [e1.2] : R ≤ (b.2 - b.1) + (b.2 - b.1) * ε)) hε.le
    linarith
  have k3 : (b.2 - b.1) * ε * ε ≤ (b.2 - b.1) * ε * (1 / 4) := mul_le_mul_of_nonneg_left hε4 (by positivity)
  have k4 : u * R ≤ u * (b.2 - b.1) + u * (b.2 - b.1) * ε := by
    have := mul_le_mul_of_nonneg_left e1.2 hu0
    linarith
  have k5 : u * (b.2 - b.1) - u * (b.2 - b.1) * ε ≤ u * R := by
    have := mul_le_mul_of_nonneg_left e1.1 hu0
    linarith
  have k6 : 0 ≤ (b.2 - b.1) * ε := by positivity
  rw [abs_le]
  constructor <;> nlinarith [e2.1, e2.2, e3.1, e3.2]

theorem effAt_near (H : RoundsToNearest p rd) (hp : 2 ≤ p) {bs : List (ℚ × ℚ)} (hbs : FloatBounds p bs) {k : Nat} {b : ℚ × ℚ}
    (hk : bs[k]? = some b) {u : ℚ} (hu : FloatUnit p u) : Near p b u (effAt rd bs k u) := by
  unfold effAt
  rw [hk]
  exact effU_near H hp (hbs b (List.mem_of_getElem? hk)) hu

theorem effAt_mem (H : RoundsToNearest p rd) (hp : 1 ≤ p) {bs : List (ℚ × ℚ)} (hbs : FloatBounds p bs) (k : Nat)
    {u : ℚ} (hu : FloatUnit p u) : 0 ≤ effAt rd bs k u ∧ effAt rd bs k u ≤ 1 := by
  unfold effAt
  cases hk : bs[k]? with
  | none => simp
  | some b => exact effU_mem H hp (hbs b (List.mem_of_getElem? hk)) hu

theorem flRow_eq (H : RoundsToNearest p rd) (hp : 1 ≤ p) {bs : List (ℚ × ℚ)} (hbs : FloatBounds p bs) (u : Nat → ℚ)
    (hu : ∀ k, FloatUnit p (u k)) : flRow rd u bs = bs.mapIdx fun k b => b.1 + (b.2 - b.1) * effAt rd bs k (u k) := by
  unfold flRow
  apply List.ext_getElem (by simp)
  intro k h1 h2
  have hk : k < bs.length := by simpa using h1
  simp only [List.getElem_mapIdx]
  unfold effAt
  rw [List.getElem?_eq_getElem hk]
  exact (effU_eq H hp (hbs _ (List.getElem_mem hk)) (hu k)).symm

theorem designRow_draw (sp : Space) (d d' : Draw) (hj : d.junk = d'.junk) (hc : d.choice = d'.choice) (des : Nat → Vec) :
    designRow sp d des = designRow sp d' des := by
  have hf : ∀ (r : Nat) (vs : List EVar) (idx : Nat) (row : Vec), fillRow d r idx vs row = fillRow d' r idx vs row := by
    intro r vs
    induction vs with
    | nil => intro idx row; rfl
    | cons v vs ih =>
      intro idx row
      unfold fillRow
      simp only [ih, hc]
  funext r
  unfold designRow emptyRow
  rw [hf, hj]

/-- C128. Random, Latin and Sobol designs in floating-point arithmetic are the designs of exact arithmetic for other numbers of
the unit interval, close to the ones drawn: all claims on the designs (numbers of rows, domain, constraints) carry over. -/
theorem C128_designs {config : List Desc} {cs : Option (List ConstrDict)} {sp : Space}
    (h : designSpace config cs = .ok sp) (hb : sp.hasBandit = false) (hp : 2 ≤ p) (H : RoundsToNearest p rd)
    (hbs : FloatBounds p ((kindsOf config).filterMap contBound)) (o : DesignOracle) (ho : FloatOracle p o) :
    ∃ o' : DesignOracle, (∀ i, UnitDraw (o'.draws i)) ∧ UnitPts o'.lhs ∧ UnitPts o'.sobol ∧ o'.fuel = o.fuel ∧
      (∀ i, (o'.draws i).choice = (o.draws i).choice) ∧
      (∀ (k : Nat) (b : ℚ × ℚ), ((kindsOf config).filterMap contBound)[k]? = some b →
        (∀ i r, Near p b ((o.draws i).unif k r) ((o'.draws i).unif k r)) ∧ (∀ r, Near p b (o.lhs r k) (o'.lhs r k)) ∧
        ∀ r, Near p b (o.sobol r k) (o'.sobol r k)) ∧
      ∀ name ∈ ["random", "latin", "sobol"], ∀ n, flInitialDesign rd name sp o n = initialDesign name sp o' n := by
  rw [← space_kinds_eq h, ← getContinuousBounds_eq h hb] at *
  have hp1 : 1 ≤ p := by omega
  set bs := sp.getContinuousBounds with hbsd
  obtain ⟨ho1, ho2, ho3⟩ := ho
  refine ⟨effOracle rd bs o, fun i k r => effAt_mem H hp1 hbs k (ho1 i k r), fun r k => effAt_mem H hp1 hbs k (ho2 r k),
    fun r k => effAt_mem H hp1 hbs k (ho3 r k), rfl, fun _ => rfl, ?_, ?_⟩
  · intro k b hk
    exact ⟨fun i r => effAt_near H hp hbs hk (ho1 i k r), fun r => effAt_near H hp hbs hk (ho2 r k),
      fun r => effAt_near H hp hbs hk (ho3 r k)⟩
  have hrand : ∀ i n, flRandomNoConstr rd sp (o.draws i) n = randomNoConstr sp ((effOracle rd bs o).draws i) n := by
    intro i n
    unfold flRandomNoConstr randomNoConstr
    rw [designRow_draw sp (o.draws i) ((effOracle rd bs o).draws i) rfl rfl]
    congr 2
    funext r
    rw [← hbsd, flRow_eq H hp1 hbs _ fun k => ho1 i k r]
    rfl
  have hloop : ∀ n fuel round samples, flConstrLoop rd sp n o.draws fuel round samples
      = constrLoop sp n (effOracle rd bs o).draws fuel round samples := by
    intro n fuel
    induction fuel with
    | zero => intro round samples; unfold flConstrLoop constrLoop; rfl
    | succ fuel ih =>
      intro round samples
      unfold flConstrLoop constrLoop
      simp only [hrand, ih]
      rfl
  intro name hname n
  simp only [List.mem_cons, List.not_mem_nil, or_false] at hname
  rcases hname with rfl | rfl | rfl
  · simp only [flInitialDesign, initialDesign, if_true, randomDesign, hloop, hrand]
    rfl
  · have : (fun r => flRow rd (o.lhs r) bs) = fun r => bs.mapIdx fun k b => b.1 + (effOracle rd bs o).lhs r k * (b.2 - b.1) := by
      funext r
      rw [flRow_eq H hp1 hbs _ fun k => ho2 r k]
      simp only [mul_comm]
      rfl
    simp only [flInitialDesign, initialDesign, latinDesign, String.reduceEq, if_false, if_true, ← hbsd, this,
      designRow_draw sp (o.draws 0) ((effOracle rd bs o).draws 0) rfl rfl]
  · have : (fun r => flRow rd (o.sobol r) bs) = fun r => bs.mapIdx fun k b => (effOracle rd bs o).sobol r k * (b.2 - b.1) + b.1 := by
      funext r
      rw [flRow_eq H hp1 hbs _ fun k => ho3 r k]
      simp only [mul_comm, add_comm]
      rfl
    simp only [flInitialDesign, initialDesign, sobolDesign, String.reduceEq, if_false, if_true, ← hbsd, this,
      designRow_draw sp (o.draws 0) ((effOracle rd bs o).draws 0) rfl rfl]

/-- The values of a grid along one interval: from end to end, in order, in the interval, close to equal spacing. -/
structure GridValues (p m : Nat) (b : ℚ × ℚ) (val : Nat → ℚ) : Prop where
  first : val 0 = b.1
  last : 2 ≤ m → val (m - 1) = b.2
  mem : ∀ i < m, b.1 ≤ val i ∧ val i ≤ b.2
  mono : ∀ i j, i ≤ j → j < m → val i ≤ val j
  near : ∀ i < m, |val i - gridValue m b i| ≤ (5 * (b.2 - b.1) + max |b.1| |b.2|) * (2 : ℚ) ^ (-(p : ℤ))

/-- The computed multiple of the computed step. -/
theorem offset_bounds (H : RoundsToNearest p rd) (hp : 2 ≤ p) {W M x : ℚ} (hW : 0 ≤ W) (hM : 1 ≤ M) (hx0 : 0 ≤ x)
    (hxM : x ≤ M - 1) (hMε : M * (4 * (2 : ℚ) ^ (-(p : ℤ))) ≤ 1) :
    0 ≤ x * (W / M) ∧ x * (W / M) ≤ W * (1 - 4 * (2 : ℚ) ^ (-(p : ℤ))) ∧ 0 ≤ rd (x * rd (rd W / M)) ∧
      |rd (x * rd (rd W / M)) - x * (W / M)| ≤ x * (W / M) * (4 * (2 : ℚ) ^ (-(p : ℤ))) ∧ rd (x * rd (rd W / M)) ≤ W := by
  have hε := eps_pos p
  have hε4 := eps_le hp
  set ε := (2 : ℚ) ^ (-(p : ℤ)) with hεd
  have hD0 := rd_nonneg H hW
  have e1 := abs_le.1 (rd_rel H (by omega) hW)
  set D := rd W with hD
  have hDM : 0 ≤ D / M := div_nonneg hD0 (by linarith)
  have hs0 := rd_nonneg H hDM
  have e2 := abs_le.1 (rd_rel H (by omega) hDM)
  set s := rd (D / M) with hs
  rw [← hεd] at e1 e2
  set t := x * (W / M) with ht
  have ht0 : 0 ≤ t := mul_nonneg hx0 (div_nonneg hW (by linarith))
  have htM : t * M = x * W := by rw [ht]; field_simp
  have ht1 : t ≤ W * (1 - 4 * ε) := by
    have h1 : x * W ≤ W * (1 - 4 * ε) * M := by
      have : x ≤ (1 - 4 * ε) * M := by nlinarith
      nlinarith
    rw [← htM] at h1
    exact le_of_mul_le_mul_right h1 (by linarith)
  have hsM : x * (D / M) ≤ t + t * ε ∧ t - t * ε ≤ x * (D / M) := by
    have hxm : 0 ≤ x / M := div_nonneg hx0 (by linarith)
    have h1 : x * (D / M) = x / M * D := by ring
    have h2 : t = x / M * W := by rw [ht]; ring
    rw [h1, h2]
    constructor
    · have := mul_le_mul_of_nonneg_left e1.2 hxm
      nlinarith
    · have := mul_le_mul_of_nonneg_left e1.1 hxm
      nlinarith
  have his0 : 0 ≤ x * s := mul_nonneg hx0 hs0
  have e3 := abs_le.1 (rd_rel H (by omega) his0)
  rw [← hεd] at e3
  have his : x * s ≤ x * (D / M) * (1 + ε) ∧ x * (D / M) * (1 - ε) ≤ x * s := by
    constructor
    · have := mul_le_mul_of_nonneg_left e2.2 hx0
      nlinarith
    · have := mul_le_mul_of_nonneg_left e2.1 hx0
      nlinarith
  have up1 : x * s ≤ t * (1 + ε) * (1 + ε) := by
    refine his.1.trans ?_
    exact mul_le_mul_of_nonneg_right (by linarith [hsM.1]) (by linarith)
  have lo1 : t * (1 - ε) * (1 - ε) ≤ x * s := by
    refine le_trans ?_ his.2
    exact mul_le_mul_of_nonneg_right (by linarith [hsM.2]) (by linarith)
  have up : rd (x * s) ≤ t * (1 + ε) * (1 + ε) * (1 + ε) := by
    have : rd (x * s) ≤ x * s * (1 + ε) := by linarith [e3.2]
    exact this.trans (mul_le_mul_of_nonneg_right up1 (by linarith))
  have lo : t * (1 - ε) * (1 - ε) * (1 - ε) ≤ rd (x * s) := by
    have : x * s * (1 - ε) ≤ rd (x * s) := by linarith [e3.1]
    exact (mul_le_mul_of_nonneg_right lo1 (by linarith)).trans this
  have hup4 : (1 + ε) * (1 + ε) * (1 + ε) ≤ 1 + 4 * ε := by
    have : ε * ε ≤ ε * (1 / 4) := mul_le_mul_of_nonneg_left hε4 hε.le
    nlinarith
  have hlo4 : 1 - 4 * ε ≤ (1 - ε) * (1 - ε) * (1 - ε) := by
    have : ε * ε ≤ ε * (1 / 4) := mul_le_mul_of_nonneg_left hε4 hε.le
    nlinarith
  have up' : rd (x * s) ≤ t * (1 + 4 * ε) := by
    refine up.trans (le_of_eq_of_le (by ring : _ = t * ((1 + ε) * (1 + ε) * (1 + ε))) ?_)
    exact mul_le_mul_of_nonneg_left hup4 ht0
  have lo' : t * (1 - 4 * ε) ≤ rd (x * s) := by
    refine le_trans ?_ (le_of_eq_of_le (by ring : t * ((1 - ε) * (1 - ε) * (1 - ε)) = _) lo)
    exact mul_le_mul_of_nonneg_left hlo4 ht0
  refine ⟨ht0, ht1, rd_nonneg H his0, abs_le.2 ⟨by linarith, by linarith⟩, ?_⟩
  have h4 : t * (1 + 4 * ε) ≤ W * (1 - 4 * ε) * (1 + 4 * ε) := mul_le_mul_of_nonneg_right ht1 (by linarith)
  have h5 : 0 ≤ W * (ε * ε) := by positivity
  nlinarith

theorem flLinspace_values (H : RoundsToNearest p rd) (hp : 2 ≤ p) {b : ℚ × ℚ} (h : IsFloat p b.1 ∧ IsFloat p b.2 ∧ b.1 ≤ b.2)
    {m : Nat} (hm : m ≤ 2 ^ (p - 2)) : GridValues p m b (flLinspaceAt rd b.1 b.2 m) := by
  obtain ⟨hlo, hhi, hle⟩ := h
  have hε := eps_pos p
  have hε4 := eps_le hp
  have hmε : (m : ℚ) * (4 * (2 : ℚ) ^ (-(p : ℤ))) ≤ 1 := by
    have h1 : (m : ℚ) ≤ (2 : ℚ) ^ (p - 2) := by exact_mod_cast hm
    have h2 : (2 : ℚ) ^ (p - 2) * (4 * (2 : ℚ) ^ (-(p : ℤ))) = 1 := by
      rw [← zpow_natCast, Nat.cast_sub hp, zpow_sub₀ (by norm_num), zpow_neg]
      have : (2 : ℚ) ^ (p : ℤ) ≠ 0 := zpow_ne_zero _ (by norm_num)
      field_simp
      norm_num
    calc (m : ℚ) * (4 * (2 : ℚ) ^ (-(p : ℤ))) ≤ (2 : ℚ) ^ (p - 2) * (4 * (2 : ℚ) ^ (-(p : ℤ))) :=
          mul_le_mul_of_nonneg_right h1 (by positivity)
      _ = 1 := h2
  set ε := (2 : ℚ) ^ (-(p : ℤ)) with hεd
  have hW : 0 ≤ b.2 - b.1 := by linarith
  have hMax : 0 ≤ max |b.1| |b.2| := (abs_nonneg _).trans (le_max_left _ _)
  by_cases hm1 : m ≤ 1
  · have hv : ∀ i, flLinspaceAt rd b.1 b.2 m i = b.1 := fun i => by simp [flLinspaceAt, hm1]
    refine ⟨hv 0, fun h2 => by omega, fun i _ => ?_, fun i j _ _ => ?_, fun i hi => ?_⟩
    · rw [hv]; exact ⟨le_rfl, hle⟩
    · rw [hv, hv]
    · rw [hv]
      have : m - 1 = 0 := by omega
      simp only [gridValue, this, Nat.cast_zero, div_zero, add_zero, sub_self, abs_zero]
      positivity
  push Not at hm1
  have hM : (1 : ℚ) ≤ (m : ℚ) - 1 := by
    have : (2 : ℚ) ≤ m := by exact_mod_cast hm1
    linarith
  set M := (m : ℚ) - 1 with hMd
  have hD0 := rd_nonneg H hW
  set D := rd (b.2 - b.1) with hD
  have hDM : 0 ≤ D / M := div_nonneg hD0 (by linarith)
  have hs0 := rd_nonneg H hDM
  set s := rd (D / M) with hs
  have hin : ∀ i : Nat, i + 1 ≠ m → flLinspaceAt rd b.1 b.2 m i = rd (rd ((i : ℚ) * s) + b.1) := by
    intro i hi
    simp [flLinspaceAt, show ¬ m ≤ 1 by omega, hi, hs, hD, hMd]
  have hlast : flLinspaceAt rd b.1 b.2 m (m - 1) = b.2 := by
    simp [flLinspaceAt, show ¬ m ≤ 1 by omega, show m - 1 + 1 = m by omega]
  have hz : ∀ i : Nat, i + 1 < m → 0 ≤ (i : ℚ) * ((b.2 - b.1) / M) ∧ (i : ℚ) * ((b.2 - b.1) / M) ≤ (b.2 - b.1) * (1 - 4 * ε) ∧
      0 ≤ rd ((i : ℚ) * s) ∧ |rd ((i : ℚ) * s) - (i : ℚ) * ((b.2 - b.1) / M)| ≤ (i : ℚ) * ((b.2 - b.1) / M) * (4 * ε) ∧
      rd ((i : ℚ) * s) ≤ b.2 - b.1 := by
    intro i hi
    apply offset_bounds H hp hW hM (Nat.cast_nonneg i)
    · have : ((i + 2 : Nat) : ℚ) ≤ m := by exact_mod_cast hi
      push_cast at this
      linarith
    · rw [← hεd]
      linarith
  have hmem : ∀ i < m, b.1 ≤ flLinspaceAt rd b.1 b.2 m i ∧ flLinspaceAt rd b.1 b.2 m i ≤ b.2 := by
    intro i hi
    by_cases hl : i + 1 = m
    · have : i = m - 1 := by omega
      rw [this, hlast]
      exact ⟨hle, le_rfl⟩
    · obtain ⟨_, _, h3, _, h5⟩ := hz i (by omega)
      rw [hin i hl]
      exact ⟨le_rd H hlo (by linarith), rd_le H hhi (by linarith)⟩
  refine ⟨?_, fun _ => hlast, hmem, ?_, ?_⟩
  · rw [hin 0 (by omega)]
    simp [rd_zero H, rd_float H hlo]
  · intro i j hij hj
    by_cases hl : j + 1 = m
    · have : j = m - 1 := by omega
      rw [this, hlast]
      exact (hmem i (by omega)).2
    · rw [hin i (by omega), hin j hl]
      apply rd_mono H
      have : rd ((i : ℚ) * s) ≤ rd ((j : ℚ) * s) := by
        apply rd_mono H
        exact mul_le_mul_of_nonneg_right (by exact_mod_cast hij) hs0
      linarith
  · intro i hi
    have hg : gridValue m b i = b.1 + (i : ℚ) * ((b.2 - b.1) / M) := by
      rw [gridValue, Nat.cast_sub (by omega : 1 ≤ m)]
      push_cast
      rw [← hMd]
      ring
    by_cases hl : i + 1 = m
    · have him : (i : ℚ) = M := by rw [hMd, ← hl]; push_cast; ring
      have : i = m - 1 := by omega
      rw [hg, him, mul_div_cancel₀ _ (by linarith : M ≠ 0), this, hlast]
      simp only [add_sub_cancel, sub_self, abs_zero]
      positivity
    · obtain ⟨h1, h2, h3, h4, h5⟩ := hz i (by omega)
      rw [hg, hin i hl]
      have e4 := abs_le.1 (rd_rel_abs H (by omega) (rd ((i : ℚ) * s) + b.1))
      have h6 : |rd ((i : ℚ) * s) + b.1| ≤ max |b.1| |b.2| := by
        have k1 := neg_abs_le b.1
        have k2 := le_abs_self b.2
        have k3 := le_max_left |b.1| |b.2|
        have k4 := le_max_right |b.1| |b.2|
        rw [abs_le]
        constructor <;> linarith
      have h7 := mul_le_mul_of_nonneg_right h6 hε.le
      have h8 : (i : ℚ) * ((b.2 - b.1) / M) * (4 * ε) ≤ (b.2 - b.1) * (4 * ε) := by
        apply mul_le_mul_of_nonneg_right _ (by positivity)
        nlinarith
      have h9 := abs_le.1 h4
      have h10 : 0 ≤ (b.2 - b.1) * ε := by positivity
      rw [← hεd] at e4
      rw [abs_le]
      constructor <;> nlinarith [e4.1, e4.2, h9.1, h9.2]

theorem flMultigridRow_eq (rd : ℚ → ℚ) (bounds : List (ℚ × ℚ)) (hb : bounds ≠ []) (m r : Nat) (hr : r < m ^ bounds.length) :
    flMultigridRow rd bounds m r
      = List.zipWith (fun (b : ℚ × ℚ) i => flLinspaceAt rd b.1 b.2 m i) bounds (gridCode m bounds.length r) := by
  rcases bounds with _ | ⟨b, _ | ⟨b', bs⟩⟩
  · exact absurd rfl hb
  · simp at hr
    simp [flMultigridRow, gridCode, digits, swap2, Nat.mod_eq_of_lt hr]
  · set L := b :: b' :: bs with hL
    have h2 : 2 ≤ L.length := by simp [hL]
    have : flMultigridRow rd L m r = L.mapIdx fun k b => flLinspaceAt rd b.1 b.2 m ((r / m ^ gridStride k) % m) := rfl
    rw [this]
    apply List.ext_getElem?
    intro k
    rw [List.getElem?_mapIdx, List.getElem?_zipWith]
    by_cases hk : k < L.length
    · rw [gridCode_getElem? m L.length r k h2 hk, List.getElem?_eq_getElem hk]
      rfl
    · rw [List.getElem?_eq_none (by omega)]
      rfl

/-- C128. The grid design in floating-point arithmetic: the same number of points as in exact arithmetic, all of them in the
domain; rows correspond to combinations of grid coordinates; the values along every interval go from its lower to its upper
end, in order and within rounding errors of equal spacing. -/
theorem C128_grid {config : List Desc} {sp : Space}
    (h : designSpace config none = .ok sp) (hb : sp.hasBandit = false) (hp : 2 ≤ p) (H : RoundsToNearest p rd)
    (hs : ∀ k ∈ kindsOf config, Samplable k) (hbs : FloatBounds p ((kindsOf config).filterMap contBound)) (o : DesignOracle)
    (hd : ((kindsOf config).filterMap contBound) ≠ []) (n : Nat) (hn : 0 < n) (hnp : n ≤ 2 ^ (p - 2)) :
    ∃ (M : Mat) (m : Nat) (coord : Nat → List Nat) (val : ℚ × ℚ → Nat → ℚ),
      flInitialDesign rd "grid" sp o n = .ok M ∧
      m ^ ((kindsOf config).filterMap contBound).length ≤ n ∧
      (∀ j, j ^ ((kindsOf config).filterMap contBound).length ≤ n → j ≤ m) ∧
      M.length = m ^ ((kindsOf config).filterMap contBound).length ∧
      (∀ row ∈ M, ObjDomain (kindsOf config) row) ∧
      (∀ c : List Nat, c.length = ((kindsOf config).filterMap contBound).length → (∀ i ∈ c, i < m) →
        ∃! r, r < M.length ∧ coord r = c) ∧
      (∀ b ∈ (kindsOf config).filterMap contBound, GridValues p m b (val b)) ∧
      ∀ r row, M[r]? = some row →
        (coord r).length = ((kindsOf config).filterMap contBound).length ∧ (∀ i ∈ coord r, i < m) ∧
        contPart (kindsOf config) row = List.zipWith val ((kindsOf config).filterMap contBound) (coord r) := by
  -- shape and numbering as in exact arithmetic
  obtain ⟨M0, m, coord0, hM0, hm2, hm3, hM0l, _, _, _⟩ := C19_grid h hb hs o hd n hn
  obtain ⟨_, _, _, _, _, _, hc⟩ := designSpace_ok h
  rw [← space_kinds_eq h] at *
  have hbd := getContinuousBounds_eq h hb
  set bs := sp.kinds.filterMap contBound with hbsd
  have hdl : (contPos 0 sp.kinds).length = bs.length := by
    have : ∀ (ks : List Kind) s, (contPos s ks).length = (ks.filterMap contBound).length := by
      intro ks
      induction ks with
      | nil => intro s; rfl
      | cons k ks ih =>
        intro s
        rw [List.filterMap_cons]
        cases k <;> simp [contPos, Kind.isContinuous, contBound, ih]
    exact this _ 0
  have hpos : 0 < bs.length := List.length_pos_iff.2 hd
  have hm1 : iroot bs.length n = .ok m := by
    obtain ⟨m', h1, h2, h3⟩ := C18_iroot bs.length n hpos hn
    rw [h1, le_antisymm (h3 m hm2) (hm3 m' h2)]
  have hm0 : 0 < m := hm3 1 (by rw [one_pow]; exact hn)
  have hmn : m ≤ 2 ^ (p - 2) := (Nat.le_self_pow (by omega) m).trans (hm2.trans hnp)
  have hval : ∀ b ∈ bs, GridValues p m b (flLinspaceAt rd b.1 b.2 m) := fun b hbm => flLinspace_values H hp (hbs b hbm) hmn
  obtain ⟨M, hM1, hM2, hM3⟩ := designMat_ok h hb hs (o.draws 0)
    (fun r => flMultigridRow rd sp.getContinuousBounds m r) (m ^ bs.length) (by
      intro r hr
      rw [hbd, flMultigridRow_eq rd bs hd m r hr, List.forall₂_iff_get]
      have hgl : (gridCode m bs.length r).length = bs.length := by
        rw [gridCode, swap2_length, digits_length]
      refine ⟨by simp [hgl], ?_⟩
      intro i h1 h2
      simp only [List.get_eq_getElem, List.getElem_zipWith]
      exact (hval _ (List.getElem_mem _)).mem _ (digits_lt m hm0 _ r _ ((mem_swap2 _ _).1 (List.getElem_mem _))))
  refine ⟨M, m, gridCode m bs.length, fun b => flLinspaceAt rd b.1 b.2 m, ?_, hm2, hm3, hM2, ?_, ?_, hval, ?_⟩
  · simpa [flInitialDesign, Space.hasConstraints, hc, getContinuousDims_eq h hb, hdl, hm1] using hM1
  · intro row hr
    obtain ⟨i, hi⟩ := List.getElem?_of_mem hr
    exact (hM3 i row hi).1
  · intro c hcl hcm
    obtain ⟨r, hr, hrd⟩ := digits_exists m (swap2 c) (fun i hi => hcm i ((mem_swap2 _ _).1 hi))
    rw [swap2_length, hcl] at hr hrd
    refine ⟨r, ⟨by rw [hM2]; exact hr, ?_⟩, ?_⟩
    · show swap2 (digits m bs.length r) = c
      rw [hrd, swap2_swap2]
    · rintro r' ⟨hr', hr''⟩
      rw [hM2] at hr'
      refine digits_inj m bs.length r' r hr' hr ?_
      rw [hrd, ← hr'']
      exact (swap2_swap2 _).symm
  · intro r row hrow
    have hr : r < m ^ bs.length := by rw [← hM2]; exact (List.getElem?_eq_some_iff.1 hrow).1
    refine ⟨by rw [gridCode, swap2_length, digits_length], ?_, ?_⟩
    · intro i hi
      exact digits_lt m hm0 _ r i ((mem_swap2 _ _).1 hi)
    · rw [(hM3 r row hrow).2, hbd, flMultigridRow_eq rd bs hd m r hr]

/-- C128. The end point `1` of the unit interval has to be excluded: with `-1` and `3·2^-(p+1)` as bounds it is mapped to
`2^(1-p)`, above the upper bound. -/
theorem C128_one_counterexample (hp : 2 ≤ p) (H : RoundsToNearest p rd) :
    IsFloat p (-1) ∧ IsFloat p (3 * (2 : ℚ) ^ (-(p : ℤ) - 1)) ∧ IsFloat p 1 ∧
      flAffine rd (-1) (3 * (2 : ℚ) ^ (-(p : ℤ) - 1)) 1 = (2 : ℚ) ^ (1 - (p : ℤ)) ∧
      3 * (2 : ℚ) ^ (-(p : ℤ) - 1) < (2 : ℚ) ^ (1 - (p : ℤ)) := by
  have hp1 : 1 ≤ p := by omega
  have hq : (0 : ℚ) < (2 : ℚ) ^ (-(p : ℤ) - 1) := zpow_pos (by norm_num) _
  have h4 : (2 : ℚ) ^ (1 - (p : ℤ)) = 4 * (2 : ℚ) ^ (-(p : ℤ) - 1) := by
    rw [show (1 : ℤ) - p = 2 + (-(p : ℤ) - 1) by ring, zpow_add₀ (by norm_num)]
    norm_num
  have hhi : IsFloat p (3 * (2 : ℚ) ^ (-(p : ℤ) - 1)) := by
    refine ⟨3, -(p : ℤ) - 1, ?_, by push_cast; ring⟩
    have : (2 : ℤ) ^ 2 ≤ 2 ^ p := pow_le_pow_right₀ (by norm_num) hp
    rw [abs_of_nonneg (by norm_num)]
    omega
  refine ⟨(isFloat_one hp1).neg, hhi, isFloat_one hp1, ?_, by rw [h4]; linarith⟩
  have hone : (2 : ℚ) ^ ((p : ℤ) - 1) * (2 : ℚ) ^ (1 - (p : ℤ)) = 1 := by
    rw [← zpow_add₀ (by norm_num)]; simp
  have hcast : (((2 : ℤ) ^ (p - 1) : ℤ) : ℚ) = (2 : ℚ) ^ ((p : ℤ) - 1) := by
    rw [Int.cast_pow, ← zpow_natCast, Nat.cast_sub hp1]
    norm_num
  have hy : (1 + (2 : ℚ) ^ (1 - (p : ℤ))) = (((2 : ℤ) ^ (p - 1) + 1 : ℤ) : ℚ) * (2 : ℚ) ^ (1 - (p : ℤ)) := by
    rw [Int.cast_add, hcast, Int.cast_one, add_mul, hone, one_mul]
  have hfl : IsFloat p (1 + (2 : ℚ) ^ (1 - (p : ℤ))) := by
    rw [hy]
    apply isFloat_of_le hp1
    have h1 : (1 : ℤ) ≤ 2 ^ (p - 1) := one_le_pow₀ (by norm_num)
    have h2 : (2 : ℤ) ^ p = 2 * 2 ^ (p - 1) := by
      rw [← pow_succ']
      congr 1
      omega
    rw [abs_of_nonneg (by omega)]
    omega
  have hr : rd (3 * (2 : ℚ) ^ (-(p : ℤ) - 1) - -1) = 1 + (2 : ℚ) ^ (1 - (p : ℤ)) := by
    apply rd_eq H hfl hy hp1
    · rw [show (p : ℤ) - 1 + (1 - (p : ℤ)) = 0 by ring, zpow_zero]
      linarith
    · rw [h4, show 1 + 4 * (2 : ℚ) ^ (-(p : ℤ) - 1) - (3 * (2 : ℚ) ^ (-(p : ℤ) - 1) - -1) = (2 : ℚ) ^ (-(p : ℤ) - 1) by ring,
        abs_of_pos hq]
      linarith
  unfold flAffine
  rw [hr, one_mul, rd_float H hfl, show (-1 : ℚ) + (1 + (2 : ℚ) ^ (1 - (p : ℤ))) = (2 : ℚ) ^ (1 - (p : ℤ)) by ring]
  exact rd_float H (isFloat_pow hp1 _)

end GPyOpt.Props
