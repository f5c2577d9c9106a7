import Verif.Props.Float

/-! # Properties C129 and C130: normalization and rounding to the domain in floating-point arithmetic -/

namespace GPyOpt.Props

open GPyOpt Spec

variable {p : ℕ} {rd : ℚ → ℚ}

/-! ## C129: normalization -/

theorem minQ_fold (Y : List ℚ) : ∀ a, (∀ y ∈ Y, Y.foldl min a ≤ y) ∧ Y.foldl min a ≤ a ∧ (Y.foldl min a = a ∨ Y.foldl min a ∈ Y) := by
  induction Y with
  | nil => intro a; simp
  | cons y Y ih =>
    intro a
    obtain ⟨h1, h2, h3⟩ := ih (min a y)
    simp only [List.foldl_cons]
    refine ⟨?_, h2.trans (min_le_left _ _), ?_⟩
    · intro z hz
      rcases List.mem_cons.1 hz with rfl | hz
      · exact h2.trans (min_le_right _ _)
      · exact h1 z hz
    · rcases h3 with h3 | h3
      · rcases min_choice a y with h4 | h4 <;> rw [h4] at h3
        · left; rw [h4]; exact h3
        · right; rw [h4, h3]; exact List.mem_cons_self
      · right; exact List.mem_cons_of_mem _ h3

theorem maxQ_fold (Y : List ℚ) : ∀ a, (∀ y ∈ Y, y ≤ Y.foldl max a) ∧ a ≤ Y.foldl max a ∧ (Y.foldl max a = a ∨ Y.foldl max a ∈ Y) := by
  induction Y with
  | nil => intro a; simp
  | cons y Y ih =>
    intro a
    obtain ⟨h1, h2, h3⟩ := ih (max a y)
    simp only [List.foldl_cons]
    refine ⟨?_, (le_max_left _ _).trans h2, ?_⟩
    · intro z hz
      rcases List.mem_cons.1 hz with rfl | hz
      · exact (le_max_right _ _).trans h2
      · exact h1 z hz
    · rcases h3 with h3 | h3
      · rcases max_choice a y with h4 | h4 <;> rw [h4] at h3
        · left; rw [h4]; exact h3
        · right; rw [h4, h3]; exact List.mem_cons_self
      · right; exact List.mem_cons_of_mem _ h3

theorem minQ_spec {Y : List ℚ} (h : Y ≠ []) : minQ Y ∈ Y ∧ ∀ y ∈ Y, minQ Y ≤ y := by
  obtain ⟨h1, _, h3⟩ := minQ_fold Y (Y.headD 0)
  refine ⟨?_, h1⟩
  rcases h3 with h3 | h3
  · rw [minQ, h3]
    cases Y with
    | nil => exact absurd rfl h
    | cons y Y => simp
  · exact h3

theorem maxQ_spec {Y : List ℚ} (h : Y ≠ []) : maxQ Y ∈ Y ∧ ∀ y ∈ Y, y ≤ maxQ Y := by
  obtain ⟨h1, _, h3⟩ := maxQ_fold Y (Y.headD 0)
  refine ⟨?_, h1⟩
  rcases h3 with h3 | h3
  · rw [maxQ, h3]
    cases Y with
    | nil => exact absurd rfl h
    | cons y Y => simp
  · exact h3

/-- C129. Normalization by the range in floating-point arithmetic maps the least output to exactly `-1`, the greatest to exactly
`1` and every output into `[-1, 1]`, without reversing the order of two outputs; equal outputs become zeros. -/
theorem C129_range (hp : 1 ≤ p) (H : RoundsToNearest p rd) (sum : List ℚ → ℚ) (sq : ℚ → ℚ) (Y : List ℚ) (hY : Y ≠ []) :
    ∃ g : ℚ → ℚ, flNormalize rd sum sq Y "maxmin" = .ok (Y.map g) ∧ (∀ y y', y ≤ y' → g y ≤ g y') ∧
      (∀ y ∈ Y, -1 ≤ g y ∧ g y ≤ 1) ∧
      ((∃ a ∈ Y, ∃ b ∈ Y, a ≠ b) → ∀ y ∈ Y, ((∀ y' ∈ Y, y ≤ y') → g y = -1) ∧ ((∀ y' ∈ Y, y' ≤ y) → g y = 1)) ∧
      ((∀ a ∈ Y, ∀ b ∈ Y, a = b) → ∀ y ∈ Y, g y = 0) := by
  obtain ⟨hmin, hmin'⟩ := minQ_spec hY
  obtain ⟨hmax, hmax'⟩ := maxQ_spec hY
  have hhalf : IsFloat p (1 / 2) := by
    have := isFloat_pow (p := p) hp (-1)
    norm_num at this ⊢
    exact this
  by_cases hr : 0 < rd (maxQ Y - minQ Y)
  · set R := rd (maxQ Y - minQ Y) with hR
    set g : ℚ → ℚ := fun y => rd (2 * rd (rd (rd (y - minQ Y) / R) - 1 / 2)) with hg
    have hmono : ∀ y y', y ≤ y' → g y ≤ g y' := by
      intro y y' h
      apply rd_mono H
      have h1 : rd (y - minQ Y) / R ≤ rd (y' - minQ Y) / R :=
        div_le_div_of_nonneg_right (rd_mono H (by linarith)) hr.le
      have h2 : rd (rd (rd (y - minQ Y) / R) - 1 / 2) ≤ rd (rd (rd (y' - minQ Y) / R) - 1 / 2) :=
        rd_mono H (by linarith [rd_mono H h1])
      linarith
    have hlo : g (minQ Y) = -1 := by
      simp only [hg, sub_self, rd_zero H, zero_div]
      rw [show (0 : ℚ) - 1 / 2 = -(1 / 2) by ring, rd_float H hhalf.neg, show (2 : ℚ) * -(1 / 2) = -1 by ring,
        rd_float H (isFloat_one hp).neg]
    have hhi : g (maxQ Y) = 1 := by
      simp only [hg]
      rw [← hR, div_self hr.ne', rd_float H (isFloat_one hp), show (1 : ℚ) - 1 / 2 = 1 / 2 by ring, rd_float H hhalf,
        show (2 : ℚ) * (1 / 2) = 1 by ring, rd_float H (isFloat_one hp)]
    refine ⟨g, ?_, hmono, ?_, ?_, ?_⟩
    · simp only [flNormalize, String.reduceEq, if_false, if_true]
      rw [if_pos (by rw [← hR]; exact hr), List.map_map]
      rfl
    · intro y hy
      exact ⟨hlo ▸ hmono _ _ (hmin' y hy), hhi ▸ hmono _ _ (hmax' y hy)⟩
    · intro _ y hy
      constructor
      · intro h
        rw [le_antisymm (h _ hmin) (hmin' y hy), hlo]
      · intro h
        rw [le_antisymm (hmax' y hy) (h _ hmax), hhi]
    · intro h
      rw [hR, h _ hmax _ hmin, sub_self, rd_zero H] at hr
      exact absurd hr (lt_irrefl _)
  · have heq : maxQ Y = minQ Y := by
      rcases (hmin' _ hmax).eq_or_lt with h | h
      · exact h.symm
      · exact absurd (rd_pos H hp (sub_pos.2 h)) hr
    have hall : ∀ y ∈ Y, y = minQ Y := fun y hy => le_antisymm (heq ▸ hmax' y hy) (hmin' y hy)
    have hz : ∀ y ∈ Y, rd (y - minQ Y) = 0 := by
      intro y hy
      conv_lhs => rw [hall y hy, sub_self, rd_zero H]
    refine ⟨fun y => rd (y - minQ Y), ?_, fun y y' h => rd_mono H (by linarith), ?_, ?_, ?_⟩
    · simp only [flNormalize, String.reduceEq, if_false, if_true]
      rw [if_neg hr]
    · intro y hy
      simp only [hz y hy]
      norm_num
    · rintro ⟨a, ha, b, hb, hab⟩
      exact absurd ((hall a ha).trans (hall b hb).symm) hab
    · intro _ y hy
      exact hz y hy

/-- C129 (partial: order only; that different outputs remain different, and that equal outputs become zeros, is false, see the
counterexamples). Whatever the summation and the square root return, normalization by statistics does not reverse the order of
two outputs. -/
theorem C129_stats_order_partial (H : RoundsToNearest p rd) (sum : List ℚ → ℚ) (sq : ℚ → ℚ) (Y : List ℚ) :
    ∃ g : ℚ → ℚ, flNormalize rd sum sq Y "stats" = .ok (Y.map g) ∧ ∀ y y', y ≤ y' → g y ≤ g y' := by
  simp only [flNormalize, if_true]
  split_ifs with hs
  · refine ⟨_, by rw [List.map_map], ?_⟩
    intro y y' h
    exact rd_mono H (div_le_div_of_nonneg_right (rd_mono H (by linarith)) hs.le)
  · exact ⟨_, rfl, fun y y' h => rd_mono H (by linarith)⟩

/-- C129. Equal outputs do not always become zeros: the computed mean of five outputs `2^p - 7` is `2^p - 6`, and all of them are
normalized to `-1`. -/
theorem C129_constant_counterexample (hp : 6 ≤ p) (H : RoundsToNearest p rd) (sq : ℚ → ℚ) (hsq : sq 1 = 1) :
    IsFloat p ((2 : ℚ) ^ p - 7) ∧
      flNormalize rd (flSum rd) sq (List.replicate 5 ((2 : ℚ) ^ p - 7)) "stats" = .ok (List.replicate 5 (-1)) := by
  obtain ⟨q, rfl⟩ : ∃ q, p = q + 6 := ⟨p - 6, by omega⟩
  have hp1 : 1 ≤ q + 6 := by omega
  set T : ℤ := 2 ^ q with hT
  have hT1 : 1 ≤ T := one_le_pow₀ (by norm_num)
  have hpow : (2 : ℤ) ^ (q + 6) = 64 * T := by rw [pow_add]; norm_num; ring
  have hpowq : (2 : ℚ) ^ (q + 6) = 64 * (T : ℚ) := by
    rw [hT]; push_cast; rw [pow_add]; norm_num; ring
  have hT1q : (1 : ℚ) ≤ T := by exact_mod_cast hT1
  have hB : ∀ k : ℤ, (2 : ℚ) ^ (((q + 6 : ℕ) : ℤ) - 1 + k) = 32 * T * (2 : ℚ) ^ k := by
    intro k
    rw [show (((q + 6 : ℕ) : ℤ) - 1 + k) = (q : ℤ) + 5 + k by push_cast; ring, zpow_add₀ (by norm_num),
      zpow_add₀ (by norm_num), zpow_natCast, hT]
    push_cast
    ring
  have hint : ∀ (j : ℤ) (k : ℤ), |j| ≤ 64 * T → IsFloat (q + 6) (j * (2 : ℚ) ^ k) := by
    intro j k hj
    exact isFloat_of_le hp1 (by rw [hpow]; exact hj) k
  have hm : IsFloat (q + 6) (64 * (T : ℚ) - 7) := by
    have := hint (64 * T - 7) 0 (by rw [abs_of_nonneg] <;> omega)
    simpa using this
  rw [hpowq]
  refine ⟨hm, ?_⟩
  have s1 : rd (0 + (64 * (T : ℚ) - 7)) = 64 * T - 7 := by rw [zero_add]; exact rd_float H hm
  have s2 : rd ((64 * (T : ℚ) - 7) + (64 * T - 7)) = 128 * T - 14 := by
    have h := rd_float H hm.two_mul
    rw [show (64 * (T : ℚ) - 7) + (64 * T - 7) = 2 * (64 * T - 7) by ring, h]
    ring
  have s3 : rd ((128 * (T : ℚ) - 14) + (64 * T - 7)) = 192 * T - 20 := by
    have hf := hint (48 * T - 5) 2 (by rw [abs_of_nonneg] <;> omega)
    have hy : (192 * (T : ℚ) - 20) = ((48 * T - 5 : ℤ) : ℚ) * (2 : ℚ) ^ (2 : ℤ) := by push_cast; ring
    apply rd_eq H (hy ▸ hf) hy hp1
    · rw [hB]; norm_num; linarith
    · rw [show 192 * (T : ℚ) - 20 - (128 * T - 14 + (64 * T - 7)) = 1 by ring]; norm_num
  have s4 : rd ((192 * (T : ℚ) - 20) + (64 * T - 7)) = 256 * T - 28 := by
    have hf := hint (64 * T - 7) 2 (by rw [abs_of_nonneg] <;> omega)
    have hy : (256 * (T : ℚ) - 28) = ((64 * T - 7 : ℤ) : ℚ) * (2 : ℚ) ^ (2 : ℤ) := by push_cast; ring
    apply rd_eq H (hy ▸ hf) hy hp1
    · rw [hB]; norm_num; linarith
    · rw [show 256 * (T : ℚ) - 28 - (192 * T - 20 + (64 * T - 7)) = -1 by ring]; norm_num
  have s5 : rd ((256 * (T : ℚ) - 28) + (64 * T - 7)) = 320 * T - 32 := by
    have hf := hint (40 * T - 4) 3 (by rw [abs_of_nonneg] <;> omega)
    have hy : (320 * (T : ℚ) - 32) = ((40 * T - 4 : ℤ) : ℚ) * (2 : ℚ) ^ (3 : ℤ) := by push_cast; ring
    apply rd_eq H (hy ▸ hf) hy hp1
    · rw [hB]; norm_num; linarith
    · rw [show 320 * (T : ℚ) - 32 - (256 * T - 28 + (64 * T - 7)) = 3 by ring]; norm_num
  have hmean : rd ((320 * (T : ℚ) - 32) / 5) = 64 * T - 6 := by
    have hf := hint (64 * T - 6) 0 (by rw [abs_of_nonneg] <;> omega)
    have hy : (64 * (T : ℚ) - 6) = ((64 * T - 6 : ℤ) : ℚ) * (2 : ℚ) ^ (0 : ℤ) := by push_cast; norm_num
    apply rd_eq H (hy ▸ hf) hy hp1
    · rw [hB]; norm_num; linarith
    · rw [show 64 * (T : ℚ) - 6 - (320 * T - 32) / 5 = 2 / 5 by ring]; norm_num
  have hone : rd 1 = 1 := rd_float H (isFloat_one hp1)
  have hneg : rd (-1) = -1 := rd_float H (isFloat_one hp1).neg
  have hn : ∀ j : ℤ, |j| ≤ 64 → rd (j : ℚ) = j := by
    intro j hj
    apply rd_float H
    have := hint j 0 (by omega)
    simpa using this
  have r2 : rd (1 + 1) = 2 := by have := hn 2 (by norm_num); norm_num at this ⊢; exact this
  have r3 : rd (2 + 1) = 3 := by have := hn 3 (by norm_num); norm_num at this ⊢; exact this
  have r4 : rd (3 + 1) = 4 := by have := hn 4 (by norm_num); norm_num at this ⊢; exact this
  have r5 : rd (4 + 1) = 5 := by have := hn 5 (by norm_num); norm_num at this ⊢; exact this
  have hdiff : rd ((64 * (T : ℚ) - 7) - (64 * T - 6)) = -1 := by
    rw [show (64 * (T : ℚ) - 7) - (64 * T - 6) = -1 by ring, hneg]
  have hsq1 : rd (-1 * -1) = 1 := by rw [show (-1 : ℚ) * -1 = 1 by norm_num, hone]
  have h01 : rd (0 + 1) = 1 := by rw [zero_add, hone]
  have hsum : flSum rd (List.replicate 5 (64 * (T : ℚ) - 7)) = 320 * T - 32 := by
    simp only [flSum, List.replicate_succ, List.replicate_zero, List.foldl_cons, List.foldl_nil, s1, s2, s3, s4, s5]
  have hsum1 : flSum rd (List.replicate 5 1) = 5 := by
    simp only [flSum, List.replicate_succ, List.replicate_zero, List.foldl_cons, List.foldl_nil, h01, r2, r3, r4, r5]
  have h55 : rd ((5 : ℚ) / 5) = 1 := by rw [div_self (by norm_num), hone]
  simp only [flNormalize, if_true, List.length_replicate, List.map_replicate, hsum, Nat.cast_ofNat, hmean, hdiff, hsq1, hsum1,
    h55, hsq, zero_lt_one, div_one, hneg]

/-- C129. Different outputs do not always remain different: with `0`, `1` and `2^(p+5)` the first two are normalized to the same
number. -/
theorem C129_strict_counterexample (hp : 2 ≤ p) (H : RoundsToNearest p rd) (sq : ℚ → ℚ) :
    IsFloat p ((2 : ℚ) ^ (p + 5)) ∧
      ∃ a b, flNormalize rd (flSum rd) sq [0, 1, (2 : ℚ) ^ (p + 5)] "stats" = .ok [a, a, b] := by
  have hp1 : 1 ≤ p := by omega
  have hfl : IsFloat p ((2 : ℚ) ^ (p + 5)) := by
    have := isFloat_pow hp1 ((p + 5 : ℕ) : ℤ)
    rwa [zpow_natCast] at this
  refine ⟨hfl, ?_⟩
  set m := rd (flSum rd [0, 1, (2 : ℚ) ^ (p + 5)] / 3) with hm
  have key : rd (0 - m) = rd (1 - m) := by
    have hs : flSum rd [0, 1, (2 : ℚ) ^ (p + 5)] = (2 : ℚ) ^ (p + 5) := by
      simp only [flSum, List.foldl_cons, List.foldl_nil]
      rw [zero_add, rd_zero H, zero_add, rd_float H (isFloat_one hp1)]
      have hy : (2 : ℚ) ^ (p + 5) = ((2 ^ (p - 1) : ℤ) : ℚ) * (2 : ℚ) ^ (6 : ℤ) := by
        push_cast
        rw [show (64 : ℚ) = 2 ^ 6 by norm_num, ← pow_add]
        congr 1
        omega
      apply rd_eq H hfl hy hp1
      · rw [show (p : ℤ) - 1 + 6 = ((p + 5 : ℕ) : ℤ) by push_cast; ring, zpow_natCast]
        linarith
      · rw [show (2 : ℚ) ^ (p + 5) - (1 + (2 : ℚ) ^ (p + 5)) = -1 by ring]
        norm_num
    rw [hs] at hm
    have hP : (1 : ℚ) ≤ 2 ^ p := one_le_pow₀ (by norm_num)
    have hlo : (2 : ℚ) ^ (p + 3) ≤ m := by
      have h3 : IsFloat p ((2 : ℚ) ^ (p + 3)) := by
        have := isFloat_pow hp1 ((p + 3 : ℕ) : ℤ)
        rwa [zpow_natCast] at this
      rw [hm]
      apply le_rd H h3
      rw [le_div_iff₀ (by norm_num), pow_add, pow_add]
      nlinarith
    have hmf : IsFloat p m := hm ▸ H.isFloat _
    obtain ⟨j, hj⟩ := hmf.multiple (k := 4) (by
      rw [abs_of_nonneg (le_trans (by positivity) hlo), show (p : ℤ) - 1 + 4 = ((p + 3 : ℕ) : ℤ) by push_cast; ring,
        zpow_natCast]
      exact hlo)
    have h1 : -rd (-(m - 1)) = m := by
      refine rd_eq (neg_nearest H) (x := m - 1) (k := 3) (j := 2 * j) hmf ?_ hp1 ?_ ?_
      · rw [hj]
        push_cast
        ring
      · rw [show (p : ℤ) - 1 + 3 = ((p + 2 : ℕ) : ℤ) by push_cast; ring, zpow_natCast]
        rw [pow_add] at hlo ⊢
        linarith
      · norm_num
    have h2 : -(m - 1) = 1 - m := by ring
    rw [h2] at h1
    rw [zero_sub, rd_float H hmf.neg]
    linarith
  simp only [flNormalize, if_true, List.map_cons, List.map_nil, List.length_cons, List.length_nil, zero_add, Nat.reduceAdd,
    Nat.cast_ofNat, ← hm, key]
  split_ifs
  · exact ⟨_, _, rfl⟩
  · exact ⟨_, _, rfl⟩

/-! ## C130: rounding to the domain -/

/-- `b` is the nearest block of the domain for `v`, for discrete variables up to the relative error `δ` of the distances. -/
def NearlyNearest (δ : ℚ) : Kind → Vec → Vec → Prop
  | .discrete vals, v, b => ∃ x r, v = [x] ∧ b = [r] ∧ r ∈ vals ∧ ∀ y ∈ vals, |r - x| ≤ (1 + δ) * |y - x|
  | k, v, b => Nearest k v b

theorem nearlyNearest_valid {δ : ℚ} {k : Kind} {v b : Vec} (h : NearlyNearest δ k v b) : ValidBlock k b := by
  cases k with
  | discrete vals => obtain ⟨x, r, _, rfl, h1, _⟩ := h; exact ⟨r, h1, rfl⟩
  | continuous lo hi => exact nearest_valid h
  | categorical labels => exact nearest_valid h
  | bandit arms => exact nearest_valid h

theorem nearlyNearest_self {δ : ℚ} {k : Kind} (hnb : ∀ arms, k ≠ .bandit arms) {v b : Vec} (hv : ValidBlock k v)
    (h : NearlyNearest δ k v b) : b = v := by
  cases k with
  | discrete vals =>
    obtain ⟨x, r, rfl, rfl, _, hmin⟩ := h
    obtain ⟨x', hx', he⟩ := hv
    simp at he; subst he
    have := hmin x hx'
    rw [sub_self, abs_zero, mul_zero] at this
    have := abs_eq_zero.1 (le_antisymm this (abs_nonneg _))
    rw [show r = x by linarith]
  | continuous lo hi => exact nearest_self hnb hv h
  | categorical labels => exact nearest_self hnb hv h
  | bandit arms => exact absurd rfl (hnb arms)

theorem flRoundDiscreteLoop_spec (rd : ℚ → ℚ) (x : ℚ) (ds : List ℚ) : ∀ r : ℚ,
    (flRoundDiscreteLoop rd x ds r = r ∨ flRoundDiscreteLoop rd x ds r ∈ ds) ∧
      |rd (flRoundDiscreteLoop rd x ds r - x)| ≤ |rd (r - x)| ∧
      ∀ y ∈ ds, |rd (flRoundDiscreteLoop rd x ds r - x)| ≤ |rd (y - x)| := by
  induction ds with
  | nil => intro r; simp [flRoundDiscreteLoop]
  | cons d ds ih =>
    intro r
    unfold flRoundDiscreteLoop
    obtain ⟨h1, h2, h3⟩ := ih (if |rd (d - x)| < |rd (r - x)| then d else r)
    refine ⟨?_, ?_, ?_⟩
    · rcases h1 with h1 | h1
      · rw [h1]
        split_ifs
        · right; exact List.mem_cons_self
        · left; rfl
      · right; exact List.mem_cons_of_mem _ h1
    · refine h2.trans ?_
      split_ifs with h
      · exact h.le
      · exact le_rfl
    · intro y hy
      rcases List.mem_cons.1 hy with rfl | hy
      · refine h2.trans ?_
        split_ifs with h
        · exact le_rfl
        · exact not_lt.1 h
      · exact h3 y hy

theorem flRound_flat_spec (H : RoundsToNearest p rd) (hp : 1 ≤ p) {k : Kind} (hnb : ∀ arms, k ≠ .bandit arms) (h : NonEmptyDom k)
    {v : Vec} (hv : v.length = width k) :
    ∃ b, flKindRound rd k v = .ok (.flat b) ∧ NearlyNearest (4 * (2 : ℚ) ^ (-(p : ℤ))) k v b := by
  cases k with
  | continuous lo hi => exact round_flat_spec hnb h hv
  | categorical labels => exact round_flat_spec hnb h hv
  | bandit arms => exact absurd rfl (hnb arms)
  | discrete vals =>
    obtain ⟨x, rfl⟩ := List.length_eq_one_iff.1 hv
    cases vals with
    | nil => exact absurd rfl h
    | cons v0 rest =>
      obtain ⟨h1, _, h3⟩ := flRoundDiscreteLoop_spec rd x (v0 :: rest) v0
      set r := flRoundDiscreteLoop rd x (v0 :: rest) v0 with hr
      refine ⟨[r], by simp [flKindRound, npGet, hr], x, r, rfl, rfl, ?_, ?_⟩
      · rcases h1 with h1 | h1
        · rw [h1]; exact List.mem_cons_self
        · exact h1
      · intro y hy
        have h4 := h3 y hy
        have e1 := rd_rel_abs H hp (r - x)
        have e2 := rd_rel_abs H hp (y - x)
        have hε := eps_pos p
        have hε2 : (2 : ℚ) ^ (-(p : ℤ)) ≤ 1 / 2 := by
          have := zpow_le_zpow_right₀ (by norm_num : (1 : ℚ) ≤ 2) (show -(p : ℤ) ≤ -1 by omega)
          norm_num at this ⊢
          exact this
        set ε := (2 : ℚ) ^ (-(p : ℤ)) with hεd
        have t1 : |r - x| ≤ |rd (r - x)| + |rd (r - x) - (r - x)| := by
          have := abs_sub_abs_le_abs_sub (r - x) (rd (r - x))
          rw [abs_sub_comm (r - x) (rd (r - x))] at this
          linarith
        have t2 : |rd (y - x)| ≤ |y - x| + |rd (y - x) - (y - x)| := by
          have := abs_sub_abs_le_abs_sub (rd (y - x)) (y - x)
          linarith
        have t3 : |r - x| * (1 - ε) ≤ |y - x| * (1 + ε) := by linarith
        have t4 : |y - x| * (1 + ε) ≤ |y - x| * ((1 + 4 * ε) * (1 - ε)) := by
          apply mul_le_mul_of_nonneg_left _ (abs_nonneg _)
          have : ε * ε ≤ ε * (1 / 2) := mul_le_mul_of_nonneg_left hε2 hε.le
          nlinarith
        have t5 : |r - x| * (1 - ε) ≤ (1 + 4 * ε) * |y - x| * (1 - ε) := by linarith
        exact le_of_mul_le_mul_right t5 (by linarith)

theorem flRoundPieces_spec (H : RoundsToNearest p rd) (hp : 1 ≤ p) {vs : List EVar} (hnb : NoBandit (vs.map EVar.kind))
    (hne : ∀ k ∈ vs.map EVar.kind, NonEmptyDom k) {bin : List Vec}
    (h : List.Forall₂ (fun k b => b.length = width k) (vs.map EVar.kind) bin) : ∀ (pre suf : Vec),
    ∃ bout, flRoundPieces rd (pre ++ (bin.flatten ++ suf)) pre.length vs = .ok (bout.map .flat) ∧
      List.Forall₂ (fun kb b => NearlyNearest (4 * (2 : ℚ) ^ (-(p : ℤ))) kb.1 kb.2 b) ((vs.map EVar.kind).zip bin) bout := by
  induction vs generalizing bin with
  | nil => intro pre suf; cases h; exact ⟨[], rfl, .nil⟩
  | cons v vs ih =>
    intro pre suf
    obtain ⟨b, bin', hb, hbin, rfl⟩ := List.forall₂_cons_left_iff.1 h
    obtain ⟨r, hr1, hr2⟩ := flRound_flat_spec H hp (hnb v.kind (by simp)) (hne v.kind (by simp)) hb
    obtain ⟨bout, h1, h2⟩ := ih (fun k hk => hnb k (by simp_all)) (fun k hk => hne k (by simp_all)) hbin
      (pre ++ b) suf
    refine ⟨r :: bout, ?_, .cons hr2 h2⟩
    have hs := slice_append_block pre b (bin'.flatten ++ suf)
    simp only [List.append_assoc, List.length_append] at h1
    simp only [List.flatten_cons, List.append_assoc, flRoundPieces, dimInModel_eq_width]
    rw [← hb, hs, hr1]
    simp [h1]

/-- C130 (partial: nearest up to rounding errors; exactly nearest is false, see `C130_nearest_counterexample`). Rounding in
floating-point arithmetic gives one row, which is, variable by variable, an admissible block whose distance exceeds the least
one by a relative error of at most `2^(2-p)`. -/
theorem C130_nearest_partial {config : List Desc} {cs : Option (List ConstrDict)} {sp : Space}
    (h : designSpace config cs = .ok sp) (hb : sp.hasBandit = false) (hp : 1 ≤ p) (H : RoundsToNearest p rd)
    (hne : ∀ k ∈ kindsOf config, NonEmptyDom k) (hvar : kindsOf config ≠ [])
    (x : Vec) (hx : x.length = ((kindsOf config).map width).sum) :
    ∃ bin bout : List Vec, x = bin.flatten ∧
      List.Forall₂ (fun k b => b.length = width k) (kindsOf config) bin ∧
      flRoundOptimum rd sp x = .ok [bout.flatten] ∧
      List.Forall₂ (fun kb b => NearlyNearest (4 * (2 : ℚ) ^ (-(p : ℤ))) kb.1 kb.2 b) ((kindsOf config).zip bin) bout := by
  have hnb := space_noBandit h hb
  rw [← space_kinds_eq h] at *
  obtain ⟨bin, rfl, hbin⟩ := exists_blocks sp.kinds x hx
  obtain ⟨bout, h1, h2⟩ := flRoundPieces_spec H hp hnb hne hbin [] []
  refine ⟨bin, bout, rfl, hbin, ?_, h2⟩
  have hbo : bout ≠ [] := by
    intro hc
    subst hc
    have := h2.length_eq
    have h3 := hbin.length_eq
    simp only [List.length_zip, List.length_nil] at this
    have : sp.kinds.length = 0 := by unfold Space.kinds at *; omega
    exact hvar (List.length_eq_zero_iff.1 this)
  simp only [List.nil_append, List.append_nil, List.length_nil] at h1
  simp [flRoundOptimum, h1, concatPieces_flat hbo]

theorem forall₂_zip_nearly {δ : ℚ} {ks : List Kind} {bin bout : List Vec} (hl : ks.length = bin.length)
    (h : List.Forall₂ (fun kb b => NearlyNearest δ kb.1 kb.2 b) (ks.zip bin) bout) :
    List.Forall₂ ValidBlock ks bout ∧ (NoBandit ks → List.Forall₂ ValidBlock ks bin → bout = bin) := by
  induction ks generalizing bin bout with
  | nil =>
    cases bin with
    | nil => simp at h; subst h; exact ⟨.nil, fun _ _ => rfl⟩
    | cons _ _ => simp at hl
  | cons k ks ih => cases bin with
    | nil => simp at hl
    | cons b bin =>
      rw [List.zip_cons_cons, List.forall₂_cons_left_iff] at h
      obtain ⟨b', bout', h1, h2, rfl⟩ := h
      obtain ⟨h3, h4⟩ := ih (by simpa using hl) h2
      refine ⟨.cons (nearlyNearest_valid h1) h3, fun hnb hv => ?_⟩
      obtain ⟨hv1, hv2⟩ := List.forall₂_cons.1 hv
      rw [nearlyNearest_self (hnb k (by simp)) hv1 h1, h4 (fun k' hk' => hnb k' (by simp [hk'])) hv2]

/-- C130. Rounding in floating-point arithmetic gives a row of the domain. -/
theorem C130_in_domain {config : List Desc} {cs : Option (List ConstrDict)} {sp : Space}
    (h : designSpace config cs = .ok sp) (hb : sp.hasBandit = false) (hp : 1 ≤ p) (H : RoundsToNearest p rd)
    (hne : ∀ k ∈ kindsOf config, NonEmptyDom k) (hvar : kindsOf config ≠ [])
    (x : Vec) (hx : x.length = ((kindsOf config).map width).sum) :
    ∃ r, flRoundOptimum rd sp x = .ok [r] ∧ ModelDomain (kindsOf config) r := by
  obtain ⟨bin, bout, _, h2, h3, h4⟩ := C130_nearest_partial h hb hp H hne hvar x hx
  exact ⟨_, h3, bout, (forall₂_zip_nearly h2.length_eq h4).1, rfl⟩

/-- C130. Rounding in floating-point arithmetic leaves domain points unchanged. -/
theorem C130_fixed {config : List Desc} {cs : Option (List ConstrDict)} {sp : Space}
    (h : designSpace config cs = .ok sp) (hb : sp.hasBandit = false) (hp : 1 ≤ p) (H : RoundsToNearest p rd)
    (hne : ∀ k ∈ kindsOf config, NonEmptyDom k) (hvar : kindsOf config ≠ [])
    (x : Vec) (hx : ModelDomain (kindsOf config) x) : flRoundOptimum rd sp x = .ok [x] := by
  have hnb := space_noBandit h hb
  rw [← space_kinds_eq h] at *
  obtain ⟨bin, hv, rfl⟩ := hx
  have hlen : List.Forall₂ (fun k b => b.length = width k) sp.kinds bin := by
    clear hvar hne
    generalize sp.kinds = ks at *
    induction hv with
    | nil => exact .nil
    | @cons k b ks bs h1 _ ih =>
      exact .cons (validBlock_length (hnb k (by simp)) h1) (ih (fun k hk => hnb k (by simp [hk])))
  obtain ⟨bout, h1, h2⟩ := flRoundPieces_spec H hp hnb hne hlen [] []
  have := (forall₂_zip_nearly hlen.length_eq h2).2 hnb hv
  subst this
  have hbo : bout ≠ [] := by
    intro hc
    subst hc
    have h3 := hlen.length_eq
    exact hvar (List.length_eq_zero_iff.1 (by unfold Space.kinds at *; simpa using h3))
  simp only [List.nil_append, List.append_nil, List.length_nil] at h1
  simp [flRoundOptimum, h1, concatPieces_flat hbo]

/-- C130. The nearest value is not always found: with the domain `{-1, 1}` the number `2^-(p+2)` is rounded to `-1`. -/
theorem C130_nearest_counterexample (hp : 1 ≤ p) (H : RoundsToNearest p rd) :
    flKindRound rd (.discrete [-1, 1]) [(2 : ℚ) ^ (-(p : ℤ) - 2)] = .ok (.flat [-1]) ∧
      |(1 : ℚ) - (2 : ℚ) ^ (-(p : ℤ) - 2)| < |-1 - (2 : ℚ) ^ (-(p : ℤ) - 2)| := by
  have hq : (0 : ℚ) < (2 : ℚ) ^ (-(p : ℤ) - 2) := zpow_pos (by norm_num) _
  have hq4 : (2 : ℚ) ^ (-(p : ℤ)) = 4 * (2 : ℚ) ^ (-(p : ℤ) - 2) := by
    rw [zpow_sub₀ (by norm_num)]
    norm_num
    ring
  have hq8 : (2 : ℚ) ^ (1 - (p : ℤ)) = 8 * (2 : ℚ) ^ (-(p : ℤ) - 2) := by
    rw [show (1 : ℤ) - p = 1 + -(p : ℤ) by ring, zpow_add₀ (by norm_num), hq4]
    norm_num
    ring
  have hqs : (2 : ℚ) ^ (-(p : ℤ) - 2) ≤ 1 / 8 := by
    have := zpow_le_zpow_right₀ (by norm_num : (1 : ℚ) ≤ 2) (show -(p : ℤ) - 2 ≤ -3 by omega)
    norm_num at this ⊢
    exact this
  have hone := isFloat_one (p := p) hp
  have h1 : rd (1 - (2 : ℚ) ^ (-(p : ℤ) - 2)) = 1 := by
    refine rd_eq H hone (k := -(p : ℤ)) (j := 2 ^ p) ?_ hp ?_ ?_
    · push_cast
      rw [zpow_neg, zpow_natCast, mul_inv_cancel₀ (by positivity)]
    · rw [show (p : ℤ) - 1 + -(p : ℤ) = -1 by ring]
      norm_num
      linarith
    · rw [show (1 : ℚ) - (1 - (2 : ℚ) ^ (-(p : ℤ) - 2)) = (2 : ℚ) ^ (-(p : ℤ) - 2) by ring, abs_of_pos hq, hq4]
      linarith
  have h2 : rd (-1 - (2 : ℚ) ^ (-(p : ℤ) - 2)) = -1 := by
    have : -rd (-(1 + (2 : ℚ) ^ (-(p : ℤ) - 2))) = 1 := by
      refine rd_eq (neg_nearest H) (x := 1 + (2 : ℚ) ^ (-(p : ℤ) - 2)) hone (k := 1 - (p : ℤ)) (j := 2 ^ (p - 1)) ?_ hp ?_ ?_
      · push_cast
        rw [← zpow_natCast, ← zpow_add₀ (by norm_num), Nat.cast_sub hp]
        simp
      · rw [show (p : ℤ) - 1 + (1 - (p : ℤ)) = 0 by ring, zpow_zero]
        linarith
      · rw [show (1 : ℚ) - (1 + (2 : ℚ) ^ (-(p : ℤ) - 2)) = -(2 : ℚ) ^ (-(p : ℤ) - 2) by ring, abs_neg, abs_of_pos hq, hq8]
        linarith
    rw [show -1 - (2 : ℚ) ^ (-(p : ℤ) - 2) = -(1 + (2 : ℚ) ^ (-(p : ℤ) - 2)) by ring]
    linarith
  constructor
  · simp [flKindRound, npGet, flRoundDiscreteLoop, h1, h2]
  · rw [abs_of_pos (by linarith), abs_of_neg (by linarith)]
    linarith

/-! ## Double precision -/

/-- a rounding to 53 binary digits -/
example : RoundsToNearest 53 (roundFloat 53) := roundFloat_nearest (by norm_num)

/-- one third and one tenth in double precision -/
example : roundFloat 53 (1 / 3) = 6004799503160661 / 2 ^ 54 ∧ roundFloat 53 (1 / 10) = 3602879701896397 / 2 ^ 55 := by
  decide +kernel

/-- the numbers of the sources of the designs -/
example : FloatUnit 53 (1 / 2) ∧ FloatUnit 53 (roundFloat 53 (1 / 3)) := by
  refine ⟨⟨⟨1, -1, by norm_num, by norm_num⟩, by norm_num, by norm_num⟩, (roundFloat_nearest (by norm_num)).isFloat _, ?_⟩
  decide +kernel

/-- the bounds of the example -/
example : FloatBounds 53 ((kindsOf exConfig).filterMap contBound) := by
  rw [exConfig_kinds]
  intro b hb
  simp only [contBound, List.filterMap_cons, List.filterMap_nil, List.mem_cons, List.not_mem_nil, or_false] at hb
  have h1 : IsFloat 53 1 := isFloat_one (by norm_num)
  rcases hb with rfl | rfl <;> exact ⟨h1.neg, h1, by norm_num⟩

/-- the point at fraction one third of the interval from 1/10 to 7/10, all in double precision -/
example : flAffine (roundFloat 53) (roundFloat 53 (1 / 10)) (roundFloat 53 (7 / 10)) (roundFloat 53 (1 / 3))
    = roundFloat 53 (3 / 10) := by decide +kernel

/-- three outputs in double precision: the greatest becomes 1, the least -1, the middle one 2^-52 instead of 0 -/
example : flNormalize (roundFloat 53) (flSum (roundFloat 53)) id
      [roundFloat 53 (1 / 10), roundFloat 53 (3 / 10), roundFloat 53 (2 / 10)] "maxmin"
    = .ok [-1, 1, 1 / 2 ^ 52] := by decide +kernel

/-- five equal outputs in double precision -/
example : flNormalize (roundFloat 53) (flSum (roundFloat 53)) id (List.replicate 5 9007199254740985) "stats"
    = .ok (List.replicate 5 (-1)) := by
  have := (C129_constant_counterexample (p := 53) (by norm_num) (roundFloat_nearest (by norm_num)) id rfl).2
  norm_num at this ⊢
  exact this

/-- rounding to the domain of the example in double precision -/
example : ((designSpace exConfig none).bind fun sp =>
    flRoundOptimum (roundFloat 53) sp [5, roundFloat 53 (1 / 3), 4, 1 / 4, 1 / 2, 1 / 2])
      = .ok [[1, roundFloat 53 (1 / 3), 3, 0, 1, 0]] := by decide +kernel

end GPyOpt.Props
