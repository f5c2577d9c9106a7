import Verif.Props.Uniform
import Mathlib.Algebra.BigOperators.Fin
import Mathlib.Algebra.BigOperators.Ring.Finset
import Mathlib.Analysis.SpecificLimits.Basic
import Mathlib.Probability.ProductMeasure

/-!
# Constrained designs are found

The loop of the constrained design has no bound. Among the outcomes of a uniform generator for `N` rounds, those for
which the design is not complete after these rounds become exponentially rare.
-/

namespace GPyOpt

open Spec Props

theorem length_filter_ofFn {Ω : Type} (F : Ω → Prop) [DecidablePred F] : ∀ (L : Nat) (w : Fin L → Ω),
    ((1 : ℝ) / 2) ^ ((List.ofFn w).filter F).length = ∏ i, if F (w i) then (1 : ℝ) / 2 else 1
  | 0, w => by simp
  | L + 1, w => by
    rw [List.ofFn_succ, Fin.prod_univ_succ, ← length_filter_ofFn F L fun i => w i.succ]
    by_cases h : F (w 0)
    · simp [h, pow_succ, mul_comm]
    · simp [h]

open Classical in
/-- Few sequences of length `L` have less than `m` accepted entries. -/
theorem card_few {Ω : Type} [Fintype Ω] (F : Ω → Prop) [DecidablePred F] (L m : Nat) :
    ((Finset.univ.filter fun w : Fin L → Ω => ((List.ofFn w).filter F).length < m).card : ℝ) ≤
      2 ^ m * ((Fintype.card Ω : ℝ) - (Finset.univ.filter F).card / 2) ^ L := by
  have hsum : ∑ w : Fin L → Ω, ((1 : ℝ) / 2) ^ ((List.ofFn w).filter F).length =
      ((Fintype.card Ω : ℝ) - (Finset.univ.filter F).card / 2) ^ L := by
    simp only [length_filter_ofFn]
    have h1 : ∑ x : Ω, (if F x then (1 : ℝ) / 2 else 1) = (Fintype.card Ω : ℝ) - (Finset.univ.filter F).card / 2 := by
      have h2 : (Fintype.card Ω : ℝ) = (Finset.univ.filter F).card + (Finset.univ.filter fun x => ¬ F x).card := by
        rw [← Finset.card_univ, ← Finset.card_filter_add_card_filter_not (s := Finset.univ) F]
        push_cast
        rfl
      rw [Finset.sum_ite, h2]
      simp
      ring
    rw [← h1, ← Fin.prod_const, Finset.prod_univ_sum]
    simp
  rw [← hsum]
  have hle : ∑ w ∈ Finset.univ.filter (fun w : Fin L → Ω => ((List.ofFn w).filter F).length < m), ((1 : ℝ) / 2) ^ m ≤
      ∑ w : Fin L → Ω, ((1 : ℝ) / 2) ^ ((List.ofFn w).filter F).length := by
    refine (Finset.sum_le_sum fun w hw => ?_).trans
      (Finset.sum_le_univ_sum_of_nonneg fun w => by positivity)
    rw [Finset.mem_filter] at hw
    exact pow_le_pow_of_le_one (by norm_num) (by norm_num) hw.2.le
  rw [Finset.sum_const, nsmul_eq_mul] at hle
  calc _ = 2 ^ m * (((Finset.univ.filter fun w : Fin L → Ω => ((List.ofFn w).filter F).length < m).card : ℝ) *
        (1 / 2) ^ m) := by
        rw [one_div, inv_pow]
        field_simp
    _ ≤ _ := by gcongr

open Classical in
theorem card_few_rounds {Ω : Type} [Fintype Ω] (F : Ω → Prop) [DecidablePred F] (N n m : Nat) :
    ((Finset.univ.filter fun w : Fin N → Fin n → Ω =>
        ((List.ofFn fun i => List.ofFn (w i)).flatten.filter F).length < m).card : ℝ) ≤
      2 ^ m * ((Fintype.card Ω : ℝ) - (Finset.univ.filter F).card / 2) ^ (N * n) := by
  refine le_trans (le_of_eq ?_) (card_few F (N * n) m)
  simp only [flatten_rounds]
  congr 1
  refine Finset.card_bij' (fun w _ => fun k : Fin (N * n) => w (finProdFinEquiv.symm k).1 (finProdFinEquiv.symm k).2)
    (fun v _ => fun i j => v (finProdFinEquiv (i, j))) ?_ ?_ ?_ ?_
  · intro w hw
    simpa only [Finset.mem_filter, Finset.mem_univ, true_and] using hw
  · intro v hv
    simpa only [Finset.mem_filter, Finset.mem_univ, true_and, Prod.mk.eta, Equiv.apply_symm_apply] using hv
  · intro w _
    funext i j
    simp only [Equiv.symm_apply_apply]
  · intro v _
    funext k
    simp only [Prod.mk.eta, Equiv.apply_symm_apply]

theorem contIdx_le (M : Nat) : ∀ (ks : List Kind) (is : List Nat),
    List.Forall₂ (fun (k : Kind) i => i < rawSize M k) ks is → ∀ x ∈ contIdx ks is, x < M
  | [], _, _, x, hx => by simp [contIdx] at hx
  | k :: ks, [], h, x, hx => by simp [contIdx] at hx
  | k :: ks, i :: is, h, x, hx => by
    cases h with
    | cons h0 h =>
      unfold contIdx at hx
      cases k with
      | continuous lo hi =>
        simp only [Kind.isContinuous, if_true, List.mem_cons] at hx
        rcases hx with rfl | hx
        · exact h0
        · exact contIdx_le M ks is h x hx
      | _ => exact contIdx_le M ks is h x (by simpa [Kind.isContinuous] using hx)

theorem unitDraw_drawOf {M n : Nat} {ks : List Kind} (junk : Nat → Nat → ℚ) (ω : Fin n → RawRow M ks) :
    UnitDraw (drawOf junk ω) := by
  intro k r
  simp only [drawOf]
  by_cases hr : r < n
  · simp only [hr, dif_pos]
    cases hx : (contIdx ks (rawIdx (ω ⟨r, hr⟩)))[k]? with
    | none => simp
    | some x =>
      have hlt := contIdx_le M ks (rawIdx (ω ⟨r, hr⟩)) (by
        rw [List.forall₂_iff_get]
        refine ⟨by simp [rawIdx], fun i a b => ?_⟩
        simp only [rawIdx, List.get_eq_getElem, List.getElem_ofFn]
        exact (ω ⟨r, hr⟩ ⟨i, a⟩).2) x (List.mem_of_getElem? hx)
      have hM : (0 : ℚ) < M := by
        have : 0 < M := by omega
        exact_mod_cast this
      have hle : (x : ℚ) ≤ M := by exact_mod_cast hlt.le
      exact ⟨by simp only [Option.getD_some]; positivity, by simpa using (div_le_one hM).2 hle⟩
  · simp [hr]

namespace Props

open Classical in
/-- The probability that a row satisfies the constraints. -/
noncomputable def feasibleRatio (M : Nat) (ks : List Kind) (cs : List ConstrDict) : ℝ :=
  ((Finset.univ.filter fun ρ : RawRow M ks => Feasible cs (rawRow ρ)).card : ℝ) / Fintype.card (RawRow M ks)

open Classical in
/-- The probability that the design of `n` rows is not complete after `N` rounds. -/
noncomputable def failRatio (M : Nat) (sp : Space) (junk : Nat → Nat → ℚ) (n N : Nat) : ℝ :=
  ((Finset.univ.filter fun ω : Fin N → Fin n → RawRow M sp.kinds =>
    ¬ ∃ Y, initialDesign "random" sp (oracleOf junk ω) n = .ok Y).card : ℝ) /
    Fintype.card (Fin N → Fin n → RawRow M sp.kinds)

/-- **C133.** The probability that the constrained design is not complete after `N` rounds is at most
`2 ^ n * (1 - a / 2) ^ (N * n)`, where `a` is the probability that a row is feasible. -/
theorem C133_design_found {M n : Nat} {config : List Desc} {cs : List ConstrDict} {sp : Space}
    (h : designSpace config (some cs) = .ok sp) (hb : sp.hasBandit = false) (hev : Evaluable sp.kinds.length cs)
    (hex : ∃ y, Generated M sp.kinds y ∧ Feasible cs y) (junk : Nat → Nat → ℚ) :
    0 < feasibleRatio M sp.kinds cs ∧ feasibleRatio M sp.kinds cs ≤ 1 ∧
    (∀ N, failRatio M sp junk n N ≤ 2 ^ n * (1 - feasibleRatio M sp.kinds cs / 2) ^ (N * n)) ∧
    (0 < n → Filter.Tendsto (failRatio M sp junk n) Filter.atTop (nhds 0)) := by
  classical
  obtain ⟨y, ⟨ρ, rfl⟩, hy⟩ := hex
  obtain ⟨_, _, _, _, _, _, hc⟩ := designSpace_ok h
  have hΩ : (0 : ℝ) < Fintype.card (RawRow M sp.kinds) := by
    exact_mod_cast Fintype.card_pos_iff.2 ⟨ρ⟩
  have hA : (0 : ℝ) < (Finset.univ.filter fun ρ : RawRow M sp.kinds => Feasible cs (rawRow ρ)).card := by
    exact_mod_cast Finset.card_pos.2 ⟨ρ, by simp [hy]⟩
  have ha : 0 < feasibleRatio M sp.kinds cs := by
    unfold feasibleRatio
    exact div_pos (by convert hA) hΩ
  have ha1 : feasibleRatio M sp.kinds cs ≤ 1 := by
    unfold feasibleRatio
    rw [div_le_one hΩ]
    exact_mod_cast Finset.card_le_univ _
  have hbound : ∀ N, failRatio M sp junk n N ≤ 2 ^ n * (1 - feasibleRatio M sp.kinds cs / 2) ^ (N * n) := by
    intro N
    have hiff : ∀ ω : Fin N → Fin n → RawRow M sp.kinds,
        (¬ ∃ Y, initialDesign "random" sp (oracleOf junk ω) n = .ok Y) ↔
          (((List.ofFn fun i => List.ofFn (ω i)).flatten).filter
            fun ρ : RawRow M sp.kinds => Feasible cs (rawRow ρ)).length < n := by
      intro ω
      have h1 : ∀ Y, initialDesign "random" sp (oracleOf junk ω) n = .ok Y ↔
          Y.length = n ∧ Y <+: (accepted cs (List.ofFn fun i => List.ofFn (ω i)).flatten).map rawRow := by
        intro Y
        have h1 := constrLoop_exact h hb hev junk ω N 0 [] Y (by omega)
        rw [List.nil_append, List.drop_zero] at h1
        rw [← h1]
        simp [initialDesign, randomDesign, Space.hasConstraints, hc, oracleOf]
      have h2 : (accepted cs (List.ofFn fun i => List.ofFn (ω i)).flatten).length =
          (((List.ofFn fun i => List.ofFn (ω i)).flatten).filter
            fun ρ : RawRow M sp.kinds => Feasible cs (rawRow ρ)).length := by
        unfold accepted
        congr!
      rw [← h2]
      constructor
      · intro hne
        by_contra hlt
        refine hne ⟨((accepted cs (List.ofFn fun i => List.ofFn (ω i)).flatten).map rawRow).take n, (h1 _).2 ⟨?_,
          List.take_prefix _ _⟩⟩
        rw [List.length_take, List.length_map]
        omega
      · rintro hlt ⟨Y, hY⟩
        obtain ⟨a1, a2⟩ := (h1 Y).1 hY
        have := a2.length_le
        rw [List.length_map] at this
        omega
    unfold failRatio
    rw [div_le_iff₀ (by exact_mod_cast Fintype.card_pos_iff.2 ⟨fun _ _ => ρ⟩)]
    have hcard : (Fintype.card (Fin N → Fin n → RawRow M sp.kinds) : ℝ) =
        (Fintype.card (RawRow M sp.kinds) : ℝ) ^ (N * n) := by
      rw [Fintype.card_fun, Fintype.card_fun]
      push_cast
      rw [Fintype.card_fin, Fintype.card_fin, ← pow_mul, mul_comm]
    rw [hcard, mul_assoc, ← mul_pow]
    have hr : (1 - feasibleRatio M sp.kinds cs / 2) * (Fintype.card (RawRow M sp.kinds) : ℝ) =
        (Fintype.card (RawRow M sp.kinds) : ℝ) -
          (Finset.univ.filter fun ρ : RawRow M sp.kinds => Feasible cs (rawRow ρ)).card / 2 := by
      unfold feasibleRatio
      field_simp
    rw [hr]
    refine le_trans (le_of_eq ?_) (card_few_rounds (fun ρ : RawRow M sp.kinds => Feasible cs (rawRow ρ)) N n n)
    congr 2
    ext ω
    simp only [Finset.mem_filter, Finset.mem_univ, true_and]
    exact hiff ω
  refine ⟨ha, ha1, hbound, fun hn => ?_⟩
  have hlim : Filter.Tendsto (fun N : ℕ => (2 : ℝ) ^ n * ((1 - feasibleRatio M sp.kinds cs / 2) ^ n) ^ N) Filter.atTop
      (nhds (2 ^ n * 0)) := by
    refine Filter.Tendsto.const_mul _ (tendsto_pow_atTop_nhds_zero_of_lt_one (pow_nonneg (by linarith) _)
      (pow_lt_one₀ (by linarith) (by linarith) hn.ne'))
  rw [mul_zero] at hlim
  refine squeeze_zero (fun N => by unfold failRatio; positivity) (fun N => ?_) hlim
  rw [← pow_mul, mul_comm n N]
  exact hbound N

/-- **C133.** If no row of the generator is feasible, the design of a positive number of rows is never complete. -/
theorem C133_never_found {M n : Nat} {config : List Desc} {cs : List ConstrDict} {sp : Space}
    (h : designSpace config (some cs) = .ok sp) (hb : sp.hasBandit = false) (hev : Evaluable sp.kinds.length cs)
    (hno : ∀ y, Generated M sp.kinds y → ¬ Feasible cs y) (hn : 0 < n) (junk : Nat → Nat → ℚ) (N : Nat)
    (ω : Fin N → Fin n → RawRow M sp.kinds) : ¬ ∃ Y, initialDesign "random" sp (oracleOf junk ω) n = .ok Y := by
  classical
  obtain ⟨_, _, _, _, _, _, hc⟩ := designSpace_ok h
  rintro ⟨Y, hY⟩
  have h1 := constrLoop_exact h hb hev junk ω N 0 [] Y (by omega)
  have h2 : constrLoop sp n (oracleOf junk ω).draws N 0 [] = .ok Y := by
    simpa [initialDesign, randomDesign, Space.hasConstraints, hc, oracleOf] using hY
  obtain ⟨a1, a2⟩ := h1.1 h2
  cases Y with
  | nil => simp at a1; omega
  | cons y Y =>
    have hy := a2.subset List.mem_cons_self
    rw [List.nil_append, List.mem_map] at hy
    obtain ⟨ρ, hρ, rfl⟩ := hy
    unfold accepted at hρ
    rw [List.mem_filter] at hρ
    exact hno _ ⟨ρ, rfl⟩ (by simpa using hρ.2)

/-! ## Almost sure termination -/

/-- The draws of an infinite sequence of rounds. -/
def seqOracle {M n : Nat} {ks : List Kind} (junk : Nat → Nat → ℚ) (ω : Nat → Fin n → RawRow M ks) : DesignOracle where
  draws := fun i => drawOf junk (ω i)
  lhs := fun _ _ => 0
  sobol := fun _ _ => 0
  fuel := 0

open MeasureTheory in
/-- **C133.** With independent rounds, each of which contains a feasible row with positive probability, the loop of the
constrained design ends with probability one, whatever the distribution of a round. -/
theorem C133_almost_surely {M n : Nat} {config : List Desc} {cs : List ConstrDict} {sp : Space}
    (h : designSpace config (some cs) = .ok sp) (hb : sp.hasBandit = false)
    (hs : ∀ k ∈ kindsOf config, Samplable k) (hev : Evaluable sp.kinds.length cs)
    [MeasurableSpace (Fin n → RawRow M sp.kinds)] [DiscreteMeasurableSpace (Fin n → RawRow M sp.kinds)]
    (P : Measure (Fin n → RawRow M sp.kinds)) [IsProbabilityMeasure P]
    (hP : P {r | ∃ j, Feasible cs (rawRow (r j))} ≠ 0) (junk : Nat → Nat → ℚ) :
    ∀ᵐ ω ∂(Measure.infinitePi fun _ : ℕ => P),
      ∃ fuel Y, initialDesign "random" sp { seqOracle junk ω with fuel := fuel } n = .ok Y := by
  set G : Set (Fin n → RawRow M sp.kinds) := {r | ∃ j, Feasible cs (rawRow (r j))} with hG
  have hlt : P Gᶜ < 1 := by
    rw [prob_compl_eq_one_sub (MeasurableSet.of_discrete)]
    exact ENNReal.sub_lt_self ENNReal.one_ne_top one_ne_zero hP
  have key : ∀ᵐ ω ∂(Measure.infinitePi fun _ : ℕ => P), ∀ i : ℕ, ∃ j ≥ i, ω j ∈ G := by
    rw [ae_all_iff]
    intro i
    rw [ae_iff]
    have hle : ∀ K : ℕ, (Measure.infinitePi fun _ : ℕ => P) {ω | ¬ ∃ j ≥ i, ω j ∈ G} ≤ P Gᶜ ^ K := by
      intro K
      have h1 : {ω : ℕ → Fin n → RawRow M sp.kinds | ¬ ∃ j ≥ i, ω j ∈ G} ⊆
          Set.pi (Finset.Ico i (i + K) : Finset ℕ) fun _ => Gᶜ := by
        intro ω hω j hj
        simp only [Finset.coe_Ico, Set.mem_Ico] at hj
        exact fun hc => hω ⟨j, hj.1, hc⟩
      refine (measure_mono h1).trans (le_of_eq ?_)
      rw [Measure.infinitePi_pi _ (fun _ _ => MeasurableSet.of_discrete)]
      simp
    exact le_antisymm (ge_of_tendsto' (ENNReal.tendsto_pow_atTop_nhds_zero_of_lt_one hlt) hle) zero_le
  filter_upwards [key] with ω hω
  refine C16_feasible_returns h hb hs (seqOracle junk ω) ?_ n hev fun i => ?_
  · exact fun i => unitDraw_drawOf junk (ω i)
  · obtain ⟨j, hj, r, hr⟩ := hω i
    refine ⟨j, hj, rawRow (ω j r), ⟨_, randomNoConstr_exact h hb junk (ω j), ?_⟩, hr⟩
    rw [List.mem_ofFn]
    exact ⟨r, rfl⟩

/-- In the space of C132 with the constraint `x <= 1` a design is found, and under `x <= -1` none is. -/
example : ∃ sp, designSpace exUnif (some exUnifConstr) = .ok sp ∧ sp.hasBandit = false ∧ Evaluable 2 exUnifConstr ∧
    ∃ y, Generated 3 sp.kinds y ∧ Feasible exUnifConstr y := by
  refine ⟨_, rfl, rfl, ?_⟩
  rw [show Space.kinds _ = [Kind.continuous 0 3, .discrete [5, 7]] from rfl]
  refine ⟨?_, [1, 7], ⟨exOutcome 1 1, by decide +kernel⟩, ?_⟩
  · intro c hc
    simp only [exUnifConstr, List.mem_cons, List.not_mem_nil, or_false] at hc
    subst hc
    exact ⟨_, rfl, fun r _ => ⟨_, rfl⟩⟩
  · intro c hc
    simp only [exUnifConstr, List.mem_cons, List.not_mem_nil, or_false] at hc
    subst hc
    exact ⟨_, _, rfl, rfl, by norm_num⟩

example : ∀ y, Generated 3 [.continuous 0 3, .discrete [5, 7]] y →
    ¬ Feasible [{ constraint := some fun r => .ok (r.headD 0 + 1) }] y := by
  rintro y ⟨ρ, rfl⟩ hc
  obtain ⟨f, v, hf, hv, hle⟩ := hc _ List.mem_cons_self
  simp only [constraintOf, Option.some.injEq] at hf
  subst hf
  simp only [Except.ok.injEq, rawRow, List.ofFn_succ, List.headD_cons] at hv
  subst hv
  have : (0 : ℚ) ≤ rawValue 3 ((([Kind.continuous 0 3, .discrete [5, 7]] : List Kind)).get 0) (ρ 0) := by
    show (0 : ℚ) ≤ 0 + (3 - 0) * (((ρ 0 : Nat) : ℚ) / (3 : ℕ))
    positivity
  linarith

/-- A distribution of the rounds of the example that gives feasible rows positive probability. -/
example : ∃ (P : @MeasureTheory.Measure (Fin 1 → RawRow 3 [.continuous 0 3, .discrete [5, 7]]) ⊤),
    MeasureTheory.IsProbabilityMeasure P ∧ P {r | ∃ j, Feasible exUnifConstr (rawRow (r j))} ≠ 0 := by
  let : MeasurableSpace (Fin 1 → RawRow 3 [.continuous 0 3, .discrete [5, 7]]) := ⊤
  refine ⟨MeasureTheory.Measure.dirac fun _ => exOutcome 1 1, inferInstance, ?_⟩
  rw [MeasureTheory.Measure.dirac_apply_of_mem]
  · simp
  · refine ⟨0, fun c hc => ?_⟩
    simp only [exUnifConstr, List.mem_cons, List.not_mem_nil, or_false] at hc
    subst hc
    exact ⟨_, _, rfl, rfl, by decide +kernel⟩

end Props

end GPyOpt
