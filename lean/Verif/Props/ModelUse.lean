import Verif.Model.Selection
import Verif.Props.Loop
import Verif.Props.Design

/-!
# C76: stratification of Latin designs; C77: models without parameter records
-/

namespace GPyOpt

open Spec

theorem updateModel_no_params {env : BOEnv} {e : Err} (h : ∀ s, env.params s = .error e) (s : BOState) :
    ∃ s1 e1, updateModel env s = (s1, .error e1) ∧ s1.X = s.X ∧ s1.Y = s.Y := by
  have hs : ∀ s, saveParams env s = (s, .error e) := by intro s; simp [saveParams, h]
  unfold updateModel
  split_ifs
  · exact ⟨_, _, rfl, rfl, rfl⟩
  · split
    · exact ⟨_, _, rfl, rfl, rfl⟩
    · split
      · exact ⟨_, _, rfl, rfl, rfl⟩
      · split
        · exact ⟨_, _, rfl, rfl, rfl⟩
        · rw [hs]; exact ⟨_, _, rfl, rfl, rfl⟩
  · rw [hs]; exact ⟨_, _, rfl, rfl, rfl⟩

theorem boRound_no_params {env : BOEnv} {e : Err} (h : ∀ s, env.params s = .error e)
    (obj : Nat → Vec → Py ℚ) (maxIter maxTime : Limit) (eps : ℚ) (s : BOState) :
    (∃ s1, boRound env obj maxIter maxTime eps s = .stop s1 .time ∧ s1 = s ∧
      maxTime.exceeds s.cumTime = false) ∨
    (∃ s1, boRound env obj maxIter maxTime eps s = .stop s1 .fit ∧ s1.X = s.X) ∨
    (∃ s1 e1, boRound env obj maxIter maxTime eps s = .raised s1 e1 ∧ s1.X = s.X) := by
  unfold boRound
  split
  · obtain ⟨s1, e1, hu, hX, -⟩ := updateModel_no_params h s
    rw [hu]
    cases e1 <;> first | exact .inr (.inl ⟨_, rfl, hX⟩) | exact .inr (.inr ⟨_, _, rfl, hX⟩)
  · rename_i hc
    exact .inl ⟨s, rfl, rfl, by simpa using hc⟩

theorem runStart_X {env : BOEnv} {obj : Nat → Vec → Py ℚ} {a : RunArgs} {s s1 : BOState} {r : Py Unit}
    (h : runStart env obj a s = (s1, r)) : s1.X = s.X := by
  unfold runStart at h
  cases hY : s.Y with
  | some Y => rw [hY] at h; simp only [Prod.mk.injEq] at h; rw [← h.1]
  | none =>
    rw [hY] at h
    dsimp only at h
    split at h
    · simp only [Prod.mk.injEq] at h; rw [← h.1]
    · split_ifs at h
      · split at h <;> (simp only [Prod.mk.injEq] at h; rw [← h.1])
      · simp only [Prod.mk.injEq] at h; rw [← h.1]

namespace Props

/-- **C77, negation.** With a random forest or a warped Gaussian process the optimizer is unusable: no
suggestion is ever returned, and no run acquires a single point (it raises or stops at once), for all
objectives, data, arguments and components. -/
theorem C77_models_counterexample (env : BOEnv) (m : ModelKind) (get : BOState → Vec)
    (hm : m = .rf ∨ m = .warpedGP) (henv : env.params = paramsOf m get) (s : BOState) :
    (∀ context pending ignored, ∃ s' e, suggestNext env context pending ignored s = (s', .error e)) ∧
    (∀ a fuel s' r, runOptimization env a fuel s = (s', r) →
      s'.X = s.X ∧ r ≠ .done .limit ∧ (r = .running → fuel = 0)) := by
  have hp : ∀ s, env.params s = .error .attributeError := by
    intro s
    rw [henv]
    rcases hm with rfl | rfl <;> rfl
  constructor
  · intro context pending ignored
    obtain ⟨s1, e1, hu, -, -⟩ := updateModel_no_params hp { s with params := none, numAcq := 0, context := context }
    exact ⟨s1, e1, by simp only [suggestNext]; rw [hu]⟩
  · intro a fuel s' r h
    unfold runOptimization at h
    cases hobj : env.obj with
    | none => rw [hobj] at h; simp only [Prod.mk.injEq] at h; obtain ⟨rfl, rfl⟩ := h; simp
    | some obj =>
      rw [hobj] at h
      dsimp only at h
      rcases hst : runStart env obj a s with ⟨s1, r1⟩
      have hX := runStart_X hst
      rw [hst] at h
      cases r1 with
      | error e => simp only [Prod.mk.injEq] at h; obtain ⟨rfl, rfl⟩ := h; simp [hX]
      | ok u =>
        dsimp only at h
        cases fuel with
        | zero =>
          simp only [boLoop, Prod.mk.injEq] at h
          obtain ⟨rfl, rfl⟩ := h
          simp [hX]
        | succ fuel =>
          simp only [boLoop] at h
          rcases boRound_no_params hp obj a.limits.1 a.limits.2 a.eps s1 with
            ⟨s2, hr, rfl, -⟩ | ⟨s2, hr, h2⟩ | ⟨s2, e, hr, h2⟩ <;> rw [hr] at h <;> dsimp only at h
          · split at h
            · simp only [Prod.mk.injEq] at h; obtain ⟨rfl, rfl⟩ := h; simp [hX]
            · split at h <;> (simp only [Prod.mk.injEq] at h; obtain ⟨rfl, rfl⟩ := h; simp [hX])
          · split at h
            · simp only [Prod.mk.injEq] at h; obtain ⟨rfl, rfl⟩ := h; simp [hX, h2]
            · split at h <;> (simp only [Prod.mk.injEq] at h; obtain ⟨rfl, rfl⟩ := h; simp [hX, h2])
          · simp only [Prod.mk.injEq] at h; obtain ⟨rfl, rfl⟩ := h; simp [hX, h2]

/-- **C77, partial.** With the Gaussian process models recording parameters never fails: if the data can be
encoded, the update interval is not zero and the fit succeeds, then `suggest_next_locations` returns
what the evaluator suggests. Missing: random forests and warped Gaussian processes. -/
theorem C77_models_partial (env : BOEnv) (m : ModelKind) (get : BOState → Vec)
    (hm : m ≠ .rf ∧ m ≠ .warpedGP) (henv : env.params = paramsOf m get) (hint : env.interval ≠ 0)
    (s : BOState) (Y : Vec) (hY : s.Y = some Y) (Xm : Mat) (hX : env.sp.unzipInputs s.X = .ok Xm)
    (hfit : ∀ s', env.fit s' Xm (env.modelY Y) = .ok ()) (context : Option Context)
    (pending ignored : Option Mat) :
    ∃ s', suggestNext env context pending ignored s = (s', env.suggest s' pending ignored) ∧
      s'.X = s.X ∧ s'.Y = s.Y ∧ s'.context = context := by
  have hp : ∀ s, env.params s = .ok (get s) := by
    intro s
    rw [henv]
    cases m <;> simp_all [paramsOf, ModelKind.hasParameters]
  simp only [suggestNext, updateModel, hint, if_false, Nat.cast_zero, Int.zero_emod, if_true, hX, hY, hfit,
    saveParams, hp]
  exact ⟨_, rfl, rfl, rfl, rfl⟩

/-- Which model names lead to the failure: of the names that create a model, exactly `RF` and
`warpedGP`. -/
theorem C77_names (name : String) (m : ModelKind) (h : modelCreator name = some m) :
    (m = .rf ∨ m = .warpedGP) ↔ name = "RF" ∨ name = "warpedGP" := by
  unfold modelCreator at h
  split_ifs at h with h1 h2 h3 h4 h5 <;> injection h with h <;> subst h <;> simp_all
  rcases h1 with rfl | rfl <;> simp

/-! ## C76: Latin designs -/

/-- The first `n` rows of `u` are a Latin hypercube: in every column, each of the `n` equal slices of the
unit interval contains exactly one of them. -/
def LatinHypercube (n : Nat) (u : Nat → Nat → ℚ) : Prop :=
  ∀ k c, c < n → ∃! r, r < n ∧ (c : ℚ) / n ≤ u r k ∧ u r k < ((c : ℚ) + 1) / n

/-- **C76.** Let the library return any Latin hypercube. Then the Latin design of `n` points has, for the
`k`-th continuous variable with range `[lo, hi)`, `lo < hi`, exactly one point in each of the `n`
equal slices of this range. (Other variables of the space may be of any kind but bandit.) -/
theorem C76_latin_stratified {config : List Desc} {sp : Space}
    (h : designSpace config none = .ok sp) (hb : sp.hasBandit = false)
    (hs : ∀ k ∈ kindsOf config, Samplable k) (o : DesignOracle)
    (hl : UnitPts o.lhs) (hsob : UnitPts o.sobol) (n : Nat) (hlhs : LatinHypercube n o.lhs) :
    ∃ m, initialDesign "latin" sp o n = .ok m ∧ m.length = n ∧
      ∀ (k : Nat) (lo hi : ℚ), ((kindsOf config).filterMap contBound)[k]? = some (lo, hi) → lo < hi →
        ∀ c : Nat, c < n → ∃! r : Nat, ∃ (row : Vec) (x : ℚ), m[r]? = some row ∧ (contPart (kindsOf config) row)[k]? = some x ∧
          lo + c * ((hi - lo) / n) ≤ x ∧ x < lo + (c + 1) * ((hi - lo) / n) := by
  obtain ⟨m, h1, h2, -, h4⟩ := C17_latin_sobol h hb hs o hl hsob n ("latin", o.lhs) (by simp)
  refine ⟨m, h1, h2, ?_⟩
  intro k lo hi hk hlt c hc
  have hn : (0 : ℚ) < n := by exact_mod_cast (by omega : 0 < n)
  have hd : 0 < hi - lo := by linarith
  have e1 : ∀ u : ℚ, (c : ℚ) / n ≤ u ↔ lo + c * ((hi - lo) / n) ≤ lo + u * (hi - lo) := by
    intro u
    rw [add_le_add_iff_left, mul_div_assoc', mul_comm, mul_div_assoc, mul_comm, mul_le_mul_iff_of_pos_right hd]
  have e2 : ∀ u : ℚ, u < ((c : ℚ) + 1) / n ↔ lo + u * (hi - lo) < lo + (c + 1) * ((hi - lo) / n) := by
    intro u
    rw [add_lt_add_iff_left, show ((c : ℚ) + 1) * ((hi - lo) / n) = ((c : ℚ) + 1) / n * (hi - lo) by ring,
      mul_lt_mul_iff_of_pos_right hd]
  obtain ⟨r, ⟨hr, ha, hb'⟩, huniq⟩ := hlhs k c hc
  have hrow : m[r]? = some (m[r]'(by omega)) := List.getElem?_eq_getElem _
  refine ⟨r, ⟨_, _, hrow, h4 r k _ (lo, hi) hrow hk, (e1 _).1 ha, (e2 _).1 hb'⟩, ?_⟩
  rintro r' ⟨row, x, hr', hx, hx1, hx2⟩
  have hx' := h4 r' k row (lo, hi) hr' hk
  rw [hx] at hx'
  injection hx' with hx'
  subst hx'
  have := (List.getElem?_eq_some_iff.1 hr').1
  exact huniq r' ⟨by omega, (e1 _).2 hx1, (e2 _).2 hx2⟩

/-- Three points, every column the centres of the slices in a different order. -/
example : LatinHypercube 3 (fun r k => (((2 * ((r + k) % 3) + 1 : Nat) : ℚ)) / 6) := by
  intro k c hc
  have h3 : ((3 : ℕ) : ℚ) = 3 := rfl
  have key : ∀ q : Nat, ((c : ℚ) / (3 : ℕ) ≤ ((2 * q + 1 : Nat) : ℚ) / 6 ∧ ((2 * q + 1 : Nat) : ℚ) / 6 < ((c : ℚ) + 1) / (3 : ℕ))
      ↔ q = c := by
    intro q
    rw [h3, div_le_div_iff₀ (by norm_num) (by norm_num), div_lt_div_iff₀ (by norm_num) (by norm_num)]
    constructor
    · rintro ⟨h1, h2⟩
      have h1' : c * 6 ≤ (2 * q + 1) * 3 := by exact_mod_cast h1
      have h2' : (2 * q + 1) * 3 < (c + 1) * 6 := by exact_mod_cast h2
      omega
    · rintro rfl
      push_cast
      constructor <;> linarith
  refine ⟨(c + 3 - k % 3) % 3, ⟨by omega, (key _).2 (by omega)⟩, ?_⟩
  rintro r ⟨hr, h12⟩
  have := (key _).1 h12
  omega

end Props

end GPyOpt
