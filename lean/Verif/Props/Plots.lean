import Verif.Model.Plots
import Verif.Props.Report
import Verif.Props.Space
import Mathlib.Algebra.Order.Floor.Semiring
import Mathlib.Tactic.Linarith
import Mathlib.Tactic.Positivity
import Mathlib.Tactic.FieldSimp

/-!
# What the plots show (C127)
-/

namespace GPyOpt.Props

open GPyOpt GPyOpt.Spec

/-! ## One input -/

theorem listMin_ok {l : List ℝ} (hne : l ≠ []) : ∃ m ∈ l, listMin l = .ok m ∧ ∀ v ∈ l, m ≤ v := by
  cases l with
  | nil => exact absurd rfl hne
  | cons v vs =>
    obtain ⟨h1, h2, h3⟩ := acqu_min_spec vs v
    refine ⟨_, ?_, rfl, fun u hu => ?_⟩
    · rcases h3 with h | h
      · rw [h]; simp
      · exact List.mem_cons_of_mem _ h
    · rcases List.mem_cons.1 hu with rfl | hu
      · exact h1
      · exact h2 u hu

theorem listMax_ok {l : List ℝ} (hne : l ≠ []) : ∃ m ∈ l, listMax l = .ok m ∧ ∀ v ∈ l, v ≤ m := by
  cases l with
  | nil => exact absurd rfl hne
  | cons v vs =>
    obtain ⟨h1, h2, h3⟩ := acqu_max_spec vs v
    refine ⟨_, ?_, rfl, fun u hu => ?_⟩
    · rcases h3 with h | h
      · rw [h]; simp
      · exact List.mem_cons_of_mem _ h
    · rcases List.mem_cons.1 hu with rfl | hu
      · exact h1
      · exact h2 u hu

theorem arange_ne {lo hi : ℝ} (h : lo < hi) : arange lo hi (1 / 1000) ≠ [] := by
  unfold arange
  intro hn
  have h0 := congrArg List.length hn
  simp only [List.length_map, List.length_range, List.length_nil, Nat.ceil_eq_zero] at h0
  have : 0 < (hi - lo) / (1 / 1000) := by apply div_pos <;> linarith
  linarith

/-- The drawn abscissae lie in the bounds, and every point of the bounds is less than a step to the right of one. -/
theorem arange_cover (lo hi : ℝ) :
    (∀ g ∈ arange lo hi (1 / 1000), lo ≤ g ∧ g < hi) ∧
    ∀ x, lo ≤ x → x < hi → ∃ g ∈ arange lo hi (1 / 1000), g ≤ x ∧ x < g + 1 / 1000 := by
  constructor
  · intro g hg
    obtain ⟨i, hi', rfl⟩ := List.mem_map.1 hg
    rw [List.mem_range, Nat.lt_ceil] at hi'
    have h0 : (0 : ℝ) ≤ i := Nat.cast_nonneg i
    constructor
    · linarith
    · have : (hi - lo) / (1 / 1000) = (hi - lo) * 1000 := by ring
      rw [this] at hi'; linarith
  · intro x h1 h2
    have hx : 0 ≤ (x - lo) * 1000 := by nlinarith
    refine ⟨lo + (⌊(x - lo) * 1000⌋₊ : ℝ) * (1 / 1000), List.mem_map.2 ⟨_, ?_, rfl⟩, ?_, ?_⟩
    · rw [List.mem_range, Nat.lt_ceil]
      have := Nat.floor_le hx
      have e : (hi - lo) / (1 / 1000) = (hi - lo) * 1000 := by ring
      rw [e]; nlinarith
    · have := Nat.floor_le hx; linarith
    · have := Nat.lt_floor_add_one ((x - lo) * 1000); linarith

/-- What `plotOne` returns. -/
theorem plotOne_ok {lo hi : ℝ} (h : lo < hi) (acq : ℝ → ℝ) (predict : ℝ → ℝ × ℝ) :
    ∃ norm top bottom, acquNormalized ((arange lo hi (1 / 1000)).map acq) = .ok norm ∧
      top ∈ (arange lo hi (1 / 1000)).map (fun x => (predict x).1 + 196 / 100 * √(predict x).2) ∧
      bottom ∈ (arange lo hi (1 / 1000)).map (fun x => (predict x).1 - 196 / 100 * √(predict x).2) ∧
      (∀ g ∈ arange lo hi (1 / 1000), (predict g).1 + 196 / 100 * √(predict g).2 ≤ top) ∧
      (∀ g ∈ arange lo hi (1 / 1000), bottom ≤ (predict g).1 - 196 / 100 * √(predict g).2) ∧
      plotOne lo hi acq predict = .ok
        { grid := arange lo hi (1 / 1000), mean := (arange lo hi (1 / 1000)).map fun x => (predict x).1
          lower := (arange lo hi (1 / 1000)).map fun x => (predict x).1 - 196 / 100 * √(predict x).2
          upper := (arange lo hi (1 / 1000)).map fun x => (predict x).1 + 196 / 100 * √(predict x).2
          curve := norm.map (List.map fun t => 2 / 10 * (top - bottom) * t - |bottom| - 25 / 100 * (top - bottom))
          ylim := (bottom - 25 / 100 * (top - bottom), top + 5 / 100 * (top - bottom)) } := by
  have hne := arange_ne h
  have hn : ∃ norm, acquNormalized ((arange lo hi (1 / 1000)).map acq) = .ok norm := by
    rcases C103_plotted_acquisition ((arange lo hi (1 / 1000)).map acq) (by simpa using hne) with ⟨h1, -⟩ | ⟨-, l, h1, -⟩
    · exact ⟨_, h1⟩
    · exact ⟨_, h1⟩
  obtain ⟨norm, hn⟩ := hn
  obtain ⟨top, t1, t2, t3⟩ := listMax_ok
    (l := (arange lo hi (1 / 1000)).map fun x => (predict x).1 + 196 / 100 * √(predict x).2) (by simpa using hne)
  obtain ⟨bot, b1, b2, b3⟩ := listMin_ok
    (l := (arange lo hi (1 / 1000)).map fun x => (predict x).1 - 196 / 100 * √(predict x).2) (by simpa using hne)
  refine ⟨norm, top, bot, hn, t1, b1, fun g hg => t3 _ (List.mem_map_of_mem hg), fun g hg => b3 _ (List.mem_map_of_mem hg), ?_⟩
  unfold plotOne
  simp only [hn, t2, b2]

/-- C127, one input: for bounds `lo < hi` the plot is drawn. Its abscissae lie in the bounds and cover them with steps of
`1/1000`; at every abscissa the curves have the predicted mean and the mean minus and plus 1.96 predicted standard
deviations, the mean lies between the other two, and all three lie inside the visible range. -/
theorem C127_one_input {lo hi : ℝ} (h : lo < hi) (acq : ℝ → ℝ) (predict : ℝ → ℝ × ℝ) :
    ∃ p, plotOne lo hi acq predict = .ok p ∧
      (∀ g ∈ p.grid, lo ≤ g ∧ g < hi) ∧
      (∀ x, lo ≤ x → x < hi → ∃ g ∈ p.grid, g ≤ x ∧ x < g + 1 / 1000) ∧
      p.mean.length = p.grid.length ∧ p.lower.length = p.grid.length ∧ p.upper.length = p.grid.length ∧
      ∀ (i : Nat) (g : ℝ), p.grid[i]? = some g → ∃ m l u, p.mean[i]? = some m ∧ p.lower[i]? = some l ∧
        p.upper[i]? = some u ∧ m = (predict g).1 ∧ l = m - 1.96 * √(predict g).2 ∧ u = m + 1.96 * √(predict g).2 ∧
        p.ylim.1 ≤ l ∧ l ≤ m ∧ m ≤ u ∧ u ≤ p.ylim.2 := by
  obtain ⟨norm, top, bot, hn, t1, b1, t3, b3, hp⟩ := plotOne_ok h acq predict
  obtain ⟨c1, c2⟩ := arange_cover lo hi
  refine ⟨_, hp, c1, c2, by simp, by simp, by simp, fun i g hg => ?_⟩
  have hmem := List.mem_of_getElem? hg
  have hs := Real.sqrt_nonneg (predict g).2
  have ht := t3 g hmem
  have hb := b3 g hmem
  dsimp only at hg
  refine ⟨(predict g).1, (predict g).1 - 196 / 100 * √(predict g).2, (predict g).1 + 196 / 100 * √(predict g).2, ?_, ?_, ?_,
    rfl, ?_, ?_, ?_, ?_, ?_, ?_⟩
  · rw [List.getElem?_map, hg]; rfl
  · rw [List.getElem?_map, hg]; rfl
  · rw [List.getElem?_map, hg]; rfl
  · norm_num
  · norm_num
  · dsimp only; linarith
  · linarith
  · linarith
  · dsimp only; linarith

/-- C127, one input (partial: the lower band reaches zero or below somewhere on the plot): the acquisition curve, if it is
drawn, lies in the visible range, below the band, and a higher point of the curve is a location with a smaller value of the
minimized acquisition function. Missing: with a positive lower band the curve is displaced downwards
(`C127_curve_hidden_counterexample`). -/
theorem C127_curve_partial {lo hi : ℝ} (h : lo < hi) (acq : ℝ → ℝ) (predict : ℝ → ℝ × ℝ) (p : Plot1)
    (hp : plotOne lo hi acq predict = .ok p) (hneg : ∃ l ∈ p.lower, l ≤ 0) (c : List ℝ) (hc : p.curve = some c) :
    c.length = p.grid.length ∧ (∀ v ∈ c, p.ylim.1 ≤ v ∧ v ≤ p.ylim.2 ∧ ∀ l ∈ p.lower, v ≤ l) ∧
    ∀ (i j : Nat) (g g' v v' : ℝ), p.grid[i]? = some g → p.grid[j]? = some g' → c[i]? = some v → c[j]? = some v' →
      (v < v' → acq g' < acq g) ∧ (acq g' < acq g → v ≤ v') := by
  obtain ⟨norm, top, bot, hn, t1, b1, t3, b3, hp'⟩ := plotOne_ok h acq predict
  rw [hp] at hp'
  injection hp' with hp'
  subst hp'
  dsimp only at hneg hc ⊢
  obtain ⟨l, hl, hl0⟩ := hneg
  obtain ⟨g, hg, rfl⟩ := List.mem_map.1 hl
  have hb0 : bot ≤ 0 := (b3 g hg).trans hl0
  have hF : 0 ≤ top - bot := by
    have h1 := t3 g hg
    have h2 := b3 g hg
    have hs := Real.sqrt_nonneg (predict g).2
    linarith
  rcases C103_plotted_acquisition ((arange lo hi (1 / 1000)).map acq) (by simpa using arange_ne h) with
    ⟨h1, -⟩ | ⟨-, n, h1, h2, h3, -, -, h4⟩
  · rw [hn] at h1
    injection h1 with h1
    rw [h1] at hc
    simp at hc
  · rw [hn] at h1
    injection h1 with h1
    rw [h1] at hc
    simp only [Option.map_some, Option.some.injEq] at hc
    subst hc
    rw [abs_of_nonpos hb0]
    refine ⟨by simpa using h2, fun v hv => ?_, fun i j g g' v v' e1 e2 e3 e4 => ?_⟩
    · obtain ⟨t, ht, rfl⟩ := List.mem_map.1 hv
      obtain ⟨k1, k2⟩ := h3 t ht
      have q1 : 0 ≤ (top - bot) * t := mul_nonneg hF k1
      have q2 : (top - bot) * t ≤ top - bot := mul_le_of_le_one_right hF k2
      refine ⟨by linarith, by linarith, fun l hl => ?_⟩
      obtain ⟨g, hg, rfl⟩ := List.mem_map.1 hl
      have := b3 g hg
      linarith
    · rw [List.getElem?_map, Option.map_eq_some_iff] at e3 e4
      obtain ⟨t, e3, rfl⟩ := e3
      obtain ⟨t', e4, rfl⟩ := e4
      have hlt := h4 i j (acq g) (acq g') t t' (by rw [List.getElem?_map, e1]; rfl) (by rw [List.getElem?_map, e2]; rfl) e3 e4
      constructor
      · intro hv
        have : t < t' := by
          by_contra hcon
          have := mul_le_mul_of_nonneg_left (not_lt.1 hcon) hF
          linarith
        have := hlt.1 this
        linarith
      · intro ha
        have := hlt.2 (by linarith)
        have := mul_le_mul_of_nonneg_left this.le hF
        linarith

/-- C127 is false for the acquisition curve: if the height of the band is less than ten times its lowest value, every
point of the acquisition curve lies below the visible range (`plots_bo.py:76` subtracts the absolute value of the minimum
where the axis limits of line 79 use the minimum itself). -/
theorem C127_curve_hidden_counterexample {lo hi : ℝ} (h : lo < hi) (acq : ℝ → ℝ) (predict : ℝ → ℝ × ℝ) (p : Plot1)
    (hp : plotOne lo hi acq predict = .ok p) (hpos : ∀ l ∈ p.lower, ∀ u ∈ p.upper, u - l < 10 * l) (c : List ℝ)
    (hc : p.curve = some c) : c ≠ [] ∧ ∀ v ∈ c, v < p.ylim.1 := by
  obtain ⟨norm, top, bot, hn, t1, b1, t3, b3, hp'⟩ := plotOne_ok h acq predict
  rw [hp] at hp'
  injection hp' with hp'
  subst hp'
  dsimp only at hpos hc ⊢
  have hk := hpos bot b1 top t1
  have hF : 0 ≤ top - bot := by
    obtain ⟨g, hg, rfl⟩ := List.mem_map.1 t1
    have h2 := b3 g hg
    have hs := Real.sqrt_nonneg (predict g).2
    linarith
  have hb0 : 0 ≤ bot := by linarith
  rcases C103_plotted_acquisition ((arange lo hi (1 / 1000)).map acq) (by simpa using arange_ne h) with
    ⟨h1, -⟩ | ⟨-, n, h1, h2, h3, -, -, -⟩
  · rw [hn] at h1
    injection h1 with h1
    rw [h1] at hc
    simp at hc
  · rw [hn] at h1
    injection h1 with h1
    rw [h1] at hc
    simp only [Option.map_some, Option.some.injEq] at hc
    subst hc
    rw [abs_of_nonneg hb0]
    constructor
    · intro hnil
      have h5 := congrArg List.length hnil
      rw [List.length_map, h2, List.length_map, List.length_nil, List.length_eq_zero_iff] at h5
      exact arange_ne h h5
    · intro v hv
      obtain ⟨t, ht, rfl⟩ := List.mem_map.1 hv
      obtain ⟨k1, k2⟩ := h3 t ht
      have q2 : (top - bot) * t ≤ top - bot := mul_le_of_le_one_right hF k2
      linarith

/-- A case of both: an acquisition that is not constant, with a band from −1.96 to 1.96, and with one from 98.04 to
101.96. -/
theorem plot_case (b : ℝ) : ∃ p c, plotOne 0 1 (fun x => x) (fun _ => (b, 1)) = .ok p ∧ p.curve = some c ∧
    (∀ l ∈ p.lower, l = b - 1.96) ∧ (∀ u ∈ p.upper, u = b + 1.96) ∧ p.lower ≠ [] := by
  have h01 : (0 : ℝ) < 1 := one_pos
  obtain ⟨norm, top, bot, hn, -, -, -, -, hp⟩ := plotOne_ok h01 (fun x => x) (fun _ => (b, 1))
  rcases C103_plotted_acquisition ((arange 0 1 (1 / 1000)).map fun x => x) (by simpa using arange_ne h01) with
    ⟨-, h2⟩ | ⟨-, n, h1, -⟩
  · exfalso
    obtain ⟨c1, c2⟩ := arange_cover 0 1
    obtain ⟨g, hg, g1, g2⟩ := c2 0 le_rfl h01
    obtain ⟨g', hg', g1', g2'⟩ := c2 (1 / 2) (by norm_num) (by norm_num)
    have := h2 g (by simpa using hg) g' (by simpa using hg')
    linarith
  · rw [hn] at h1
    injection h1 with h1
    subst h1
    refine ⟨_, _, hp, rfl, fun l hl => ?_, fun u hu => ?_, by simpa using arange_ne h01⟩
    · obtain ⟨g, -, rfl⟩ := List.mem_map.1 hl
      rw [Real.sqrt_one]; norm_num
    · obtain ⟨g, -, rfl⟩ := List.mem_map.1 hu
      rw [Real.sqrt_one]; norm_num

example : ∃ p c, plotOne 0 1 (fun x => x) (fun _ => (0, 1)) = .ok p ∧ (∃ l ∈ p.lower, l ≤ 0) ∧ p.curve = some c := by
  obtain ⟨p, c, h1, h2, h3, -, h5⟩ := plot_case 0
  obtain ⟨l, hl⟩ := List.exists_mem_of_ne_nil _ h5
  exact ⟨p, c, h1, ⟨l, hl, by rw [h3 l hl]; norm_num⟩, h2⟩

example : ∃ p c, plotOne 0 1 (fun x => x) (fun _ => (100, 1)) = .ok p ∧ (∀ l ∈ p.lower, ∀ u ∈ p.upper, u - l < 10 * l) ∧
    p.curve = some c := by
  obtain ⟨p, c, h1, h2, h3, h4, -⟩ := plot_case 100
  exact ⟨p, c, h1, fun l hl u hu => by rw [h3 l hl, h4 u hu]; norm_num, h2⟩

/-! ## Two inputs -/

theorem mesh_entry (X1 : List ℝ) (f : ℝ × ℝ → ℝ) : ∀ (X2 : List ℝ) (i j : Nat) (a b : ℝ), X1[j]? = some a → X2[i]? = some b →
    ((meshRows X1 X2).map f)[X1.length * i + j]? = some (f (a, b))
  | [], i, j, a, b, _, h2 => by simp at h2
  | y :: ys, 0, j, a, b, h1, h2 => by
    simp only [List.getElem?_cons_zero, Option.some.injEq] at h2
    subst h2
    have hj : j < X1.length := (List.getElem?_eq_some_iff.1 h1).1
    unfold meshRows
    rw [List.flatMap_cons, List.map_append, List.getElem?_append_left (by simpa using hj)]
    simp [h1]
  | y :: ys, i + 1, j, a, b, h1, h2 => by
    rw [List.getElem?_cons_succ] at h2
    have ih := mesh_entry X1 f ys i j a b h1 h2
    unfold meshRows at ih ⊢
    rw [List.flatMap_cons, List.map_append, List.getElem?_append_right (by simp only [List.length_map]; nlinarith)]
    simp only [List.length_map]
    rw [show X1.length * (i + 1) + j - X1.length = X1.length * i + j by rw [Nat.mul_succ]; omega]
    exact ih

/-- C127, two inputs (and the example functions of two variables): a contour plot with `n ≥ 2` nodes per axis shows exactly
the nodes of an `n × n` grid over the bounds, and at each node the value of the plotted function at the coordinates of this
node; the grid contains the corners. -/
theorem C127_two_inputs (n : Nat) (hn : 2 ≤ n) (b1 b2 : ℝ × ℝ) (f : ℝ × ℝ → ℝ) :
    (∀ (x : ℝ × ℝ) (z : Option ℝ), (x, z) ∈ contourOf n b1 b2 f ↔
      z = some (f x) ∧ ∃ i j : Nat, i < n ∧ j < n ∧ x.1 * (n - 1) = b1.1 * (n - 1) + j * (b1.2 - b1.1) ∧
        x.2 * (n - 1) = b2.1 * (n - 1) + i * (b2.2 - b2.1)) ∧
    ∀ c1 ∈ [b1.1, b1.2], ∀ c2 ∈ [b2.1, b2.2], ((c1, c2), some (f (c1, c2))) ∈ contourOf n b1 b2 f := by
  have hn2 : (2 : ℝ) ≤ n := by exact_mod_cast hn
  have hn1 : (n : ℝ) - 1 ≠ 0 := by linarith
  have hlen : ∀ lo hi : ℝ, (linspace lo hi n).length = n := fun lo hi => by simp [linspace]
  have hget : ∀ (lo hi : ℝ) (k : Nat) (v : ℝ), (linspace lo hi n)[k]? = some v ↔
      k < n ∧ v * (n - 1) = lo * (n - 1) + k * (hi - lo) := by
    intro lo hi k v
    unfold linspace
    rw [List.getElem?_map, Option.map_eq_some_iff]
    constructor
    · rintro ⟨a, h1, h2⟩
      obtain ⟨h3, h4⟩ := List.getElem?_eq_some_iff.1 h1
      rw [List.getElem_range] at h4
      rw [List.length_range] at h3
      subst h4
      refine ⟨h3, ?_⟩
      rw [← h2]; field_simp
    · rintro ⟨h1, h2⟩
      refine ⟨k, by simp [h1], ?_⟩
      field_simp
      linarith
  have key : ∀ (x : ℝ × ℝ) (z : Option ℝ), (x, z) ∈ contourOf n b1 b2 f ↔
      z = some (f x) ∧ ∃ i j : Nat, i < n ∧ j < n ∧ x.1 * (n - 1) = b1.1 * (n - 1) + j * (b1.2 - b1.1) ∧
        x.2 * (n - 1) = b2.1 * (n - 1) + i * (b2.2 - b2.1) := by
    rintro ⟨x1, x2⟩ z
    unfold contourOf contour
    simp only [List.mem_flatMap, List.mem_map, Prod.mk.injEq, Prod.exists, List.mem_zipIdx_iff_getElem?]
    constructor
    · rintro ⟨b, i, h1, a, j, h2, ⟨rfl, rfl⟩, rfl⟩
      have e := mesh_entry _ f _ i j _ _ h2 h1
      rw [hlen] at e
      obtain ⟨k1, k2⟩ := (hget _ _ _ _).1 h1
      obtain ⟨k3, k4⟩ := (hget _ _ _ _).1 h2
      refine ⟨?_, i, j, k1, k3, k4, k2⟩
      unfold reshapeEntry
      rw [if_pos k3]
      exact e
    · rintro ⟨rfl, i, j, k1, k3, k4, k2⟩
      have h1 := (hget b2.1 b2.2 i x2).2 ⟨k1, k2⟩
      have h2 := (hget b1.1 b1.2 j x1).2 ⟨k3, k4⟩
      refine ⟨x2, i, h1, x1, j, h2, ⟨rfl, rfl⟩, ?_⟩
      have e := mesh_entry _ f _ i j _ _ h2 h1
      rw [hlen] at e
      unfold reshapeEntry
      rw [if_pos k3]
      exact e
  refine ⟨key, fun c1 h1 c2 h2 => (key _ _).2 ⟨rfl, ?_⟩⟩
  have hcast : ((n - 1 : ℕ) : ℝ) = n - 1 := by rw [Nat.cast_sub (by omega)]; simp
  simp only [List.mem_cons, List.not_mem_nil, or_false] at h1 h2
  rcases h1 with rfl | rfl <;> rcases h2 with rfl | rfl
  · exact ⟨0, 0, by omega, by omega, by simp, by simp⟩
  · exact ⟨n - 1, 0, by omega, by omega, by simp, by rw [hcast]; ring⟩
  · exact ⟨0, n - 1, by omega, by omega, by rw [hcast]; ring, by simp⟩
  · exact ⟨n - 1, n - 1, by omega, by omega, by rw [hcast]; ring, by rw [hcast]; ring⟩

/-! ## The suggested locations -/

theorem encodeRow_plain : ∀ {ks : List Kind} {row : Vec}, row.length = ks.length →
    (∀ k ∈ ks, ∀ labels, k ≠ .categorical labels) → encodeRow ks row = row
  | [], [], _, _ => rfl
  | [], _ :: _, h, _ => by simp at h
  | _ :: _, [], h, _ => by simp at h
  | k :: ks, x :: row, h, hc => by
    have ih := encodeRow_plain (ks := ks) (row := row) (by simpa using h) fun k' hk' => hc k' (List.mem_cons_of_mem _ hk')
    unfold encodeRow at ih ⊢
    rw [List.zipWith_cons_cons, List.flatten_cons, ih]
    cases k with
    | categorical labels => exact absurd rfl (hc _ List.mem_cons_self labels)
    | _ => rfl

theorem kinds_width_plain : ∀ {ks : List Kind}, (∀ k ∈ ks, ∀ labels, k ≠ .categorical labels) → NoBandit ks →
    (ks.map width).sum = ks.length
  | [], _, _ => rfl
  | k :: ks, h1, h2 => by
    have ih := kinds_width_plain (ks := ks) (fun k' hk' => h1 k' (List.mem_cons_of_mem _ hk'))
      fun k' hk' => h2 k' (List.mem_cons_of_mem _ hk')
    rw [List.map_cons, List.sum_cons, ih, List.length_cons]
    cases k with
    | categorical labels => exact absurd rfl (h1 _ List.mem_cons_self labels)
    | bandit arms => exact absurd rfl (h2 _ List.mem_cons_self arms)
    | _ => simp [width]; omega

/-- C127, suggested locations (partial: no categorical and no bandit variables): in a plot with two inputs the marks are
the model coordinates of all suggested locations, in a plot with one input the mark is that of the last one. Missing: a
categorical variable, see `C127_suggested_counterexample`. -/
theorem C127_suggested_partial {config : List Desc} {cs : Option (List ConstrDict)} {sp : Space}
    (h : designSpace config cs = .ok sp) (hb : sp.hasBandit = false)
    (hc : ∀ k ∈ kindsOf config, ∀ labels, k ≠ .categorical labels) (S : Mat) (hS : S ≠ [])
    (hrows : ∀ r ∈ S, List.Forall₂ Encodable (kindsOf config) r) :
    ∃ U, sp.unzipInputs S = .ok U ∧
      (sp.modelDim = 2 → plotSuggested sp.modelDim S = .ok U) ∧
      (sp.modelDim = 1 → ∃ u, U.getLast? = some u ∧ plotSuggested sp.modelDim S = .ok [u]) := by
  have hU : S.map (encodeRow (kindsOf config)) = S := by
    conv_rhs => rw [← List.map_id S]
    exact List.map_congr_left fun r hr => encodeRow_plain (hrows r hr).length_eq.symm hc
  refine ⟨S, ?_, fun hd => ?_, fun hd => ?_⟩
  · have := (C01_zip_unzip h hb S hS hrows).1
    rwa [hU] at this
  · have hk : (kindsOf config).length = 2 := by
      rw [← hd, modelDim_eq, ← space_kinds_eq h, kinds_width_plain]
      · rw [space_kinds_eq h]; exact hc
      · exact space_noBandit h hb
    rw [hd]
    unfold plotSuggested
    rw [if_neg (by decide), if_pos rfl]
    have := mapE_map_ok (f := fun r : Vec => match npGet r 0, npGet r 1 with
      | .ok a, .ok b => .ok [a, b]
      | .error e, _ => .error e
      | _, .error e => .error e) (g := id) (l := S) (by
        intro r hr
        have hl := (hrows r hr).length_eq
        rw [hk] at hl
        match r, hl with
        | [a, b], _ => rfl)
    rwa [List.map_id] at this
  · rw [hd]
    unfold plotSuggested
    rw [if_pos rfl]
    cases hl : S.getLast? with
    | none => exact absurd (List.getLast?_eq_none_iff.1 hl) hS
    | some u => exact ⟨u, rfl, rfl⟩

/-- a variable with two categories -/
def catDesc : Desc := { name := some "c", type := some "categorical", domain := some (.flat [0, 1]) }

/-- C127 is false for the suggested locations of a categorical variable: with one variable of two categories the model has
two inputs, the suggestions have one column, and the plot of the acquisition ends with an `IndexError`. -/
theorem C127_suggested_counterexample :
    ∃ (config : List Desc) (sp : Space), designSpace config none = .ok sp ∧ sp.hasBandit = false ∧ sp.modelDim = 2 ∧
      ∀ S : Mat, S ≠ [] → (∀ r ∈ S, List.Forall₂ Encodable (kindsOf config) r) →
        plotSuggested sp.modelDim S = .error .indexError := by
  refine ⟨[catDesc], _, rfl, by decide, by decide, fun S hS hrows => ?_⟩
  have hd : ∀ n : Nat, n = 2 → plotSuggested n S = .error .indexError := by
    rintro n rfl
    unfold plotSuggested
    rw [if_neg (by decide), if_pos rfl]
    cases S with
    | nil => exact absurd rfl hS
    | cons r S =>
      have hl := (hrows r List.mem_cons_self).length_eq
      match r, hl with
      | [a], _ => rfl
  exact hd _ (by decide)

end GPyOpt.Props
