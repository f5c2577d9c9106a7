import Verif.Props.Batch
import Verif.Model.AcqBase

/-!
# Properties C34 and C75: constraints and suggestions
-/

namespace GPyOpt.Props

open GPyOpt Spec

/-- No categorical variable has exactly one category. -/
def NoSingleCategory (ks : List Kind) : Prop := ∀ k ∈ ks, ∀ labels, k = .categorical labels → labels.length ≠ 1

theorem width_pos {k : Kind} (hnb : ∀ arms, k ≠ .bandit arms) (hne : NonEmptyDom k) : 1 ≤ width k := by
  cases k with
  | continuous lo hi => simp [width]
  | discrete vals => simp [width]
  | categorical labels =>
    simp only [width]
    exact List.length_pos_iff.2 hne
  | bandit arms => exact absurd rfl (hnb arms)

theorem length_le_widths {ks : List Kind} (hnb : NoBandit ks) (hne : ∀ k ∈ ks, NonEmptyDom k) :
    ks.length ≤ (ks.map width).sum := by
  induction ks with
  | nil => simp
  | cons k ks ih =>
    have h1 := width_pos (hnb k (by simp)) (hne k (by simp))
    have h2 := ih (fun k' hk' => hnb k' (by simp [hk'])) (fun k' hk' => hne k' (by simp [hk']))
    simp only [List.length_cons, List.map_cons, List.sum_cons]
    omega

/-- if both representations have the same number of columns they coincide -/
theorem encodeRow_eq_self {ks : List Kind} (hnb : NoBandit ks) (hne : ∀ k ∈ ks, NonEmptyDom k)
    (hsc : NoSingleCategory ks) (hd : (ks.map width).sum = ks.length) {z : Vec}
    (hz : ObjDomain ks z) : encodeRow ks z = z := by
  induction hz with
  | nil => rfl
  | @cons k y ks z h1 hz ih =>
    have hw := width_pos (hnb k (by simp)) (hne k (by simp))
    have hle := length_le_widths (ks := ks) (fun k' hk' => hnb k' (by simp [hk']))
      (fun k' hk' => hne k' (by simp [hk']))
    simp only [List.length_cons, List.map_cons, List.sum_cons] at hd
    have hk1 : width k = 1 := by omega
    have := ih (fun k' hk' => hnb k' (by simp [hk'])) (fun k' hk' => hne k' (by simp [hk']))
      (fun k' hk' => hsc k' (by simp [hk'])) (by omega)
    have he : encodeVal k y = [y] := by
      cases k with
      | categorical labels => exact absurd hk1 (hsc _ (by simp) labels rfl)
      | _ => rfl
    show (encodeVal k y :: List.zipWith encodeVal ks z).flatten = y :: z
    rw [List.flatten_cons, he]
    exact congrArg _ this

/-- C75 (partial: no categorical variable with a single category). At the encoding of a point of the
domain the acquisition function is `-a/c` if the point — in the coordinates the user writes
constraints for, those of the designs (C16) — satisfies the constraints, and 0 otherwise. -/
theorem C75_constraint_coordinates_partial {config : List Desc} {cs : List ConstrDict} {sp : Space}
    (h : designSpace config (some cs) = .ok sp) (hb : sp.hasBandit = false)
    (hne : ∀ k ∈ kindsOf config, NonEmptyDom k) (hsc : NoSingleCategory (kindsOf config))
    (acq cost : Vec → Py ℚ) (z : Vec) (hz : ObjDomain (kindsOf config) z) (v : ℚ)
    (hv : acquisitionFunction sp acq cost (encodeRow (kindsOf config) z) = .ok v) :
    ∃ a c, acq (encodeRow (kindsOf config) z) = .ok a ∧ cost (encodeRow (kindsOf config) z) = .ok c ∧
      ((Feasible cs z ∧ v = -a / c) ∨ (¬ Feasible cs z ∧ v = 0)) := by
  have hnb := space_noBandit h hb
  have hk := space_kinds_eq h
  have hxz : constraintRows sp (encodeRow (kindsOf config) z) = .ok [z] := by
    unfold constraintRows
    split_ifs with hd
    · rw [modelDim_eq, hk] at hd
      rw [Space.objectiveDim] at hd
      have hl : sp.expanded.length = (kindsOf config).length := by
        rw [← hk, Space.kinds, List.length_map]
      rw [encodeRow_eq_self (hk ▸ hnb) hne hsc (hd.trans hl) hz]
    · rw [← hk] at hz ⊢
      exact zipInputs_encode h hb hz
  unfold acquisitionFunction at hv
  cases ha : acq (encodeRow (kindsOf config) z) with
  | error e => simp [ha] at hv
  | ok a =>
    simp only [ha] at hv
    cases hc : cost (encodeRow (kindsOf config) z) with
    | error e => simp [hc] at hv
    | ok c =>
      simp only [hc, hxz] at hv
      refine ⟨a, c, rfl, rfl, ?_⟩
      cases hw : sp.indicatorConstraints [z] with
      | error e => simp [hw] at hv
      | ok w =>
        obtain ⟨hwl, hwv⟩ := C11_indicator h [z] w hw
        obtain ⟨w0, rfl⟩ : ∃ w0, w = [w0] := by
          rcases w with _ | ⟨w0, _ | ⟨w1, w⟩⟩
          · simp at hwl
          · exact ⟨w0, rfl⟩
          · simp at hwl
        simp only [hw] at hv
        split_ifs at hv with hc0
        simp only [Except.ok.injEq] at hv
        rcases hwv 0 z rfl with ⟨h1, h2⟩ | ⟨h1, cd, hcd, f, u, hf, hu, hpos⟩
        · left
          simp only [List.getElem?_cons_zero, Option.some.injEq] at h1
          subst h1
          exact ⟨h2, by rw [← hv]; ring⟩
        · right
          simp only [List.getElem?_cons_zero, Option.some.injEq] at h1
          subst h1
          refine ⟨?_, by rw [← hv]; simp⟩
          intro hfeas
          obtain ⟨f', u', hf', hu', hle⟩ := hfeas cd hcd
          rw [hf] at hf'; cases hf'
          rw [hu] at hu'; cases hu'
          exact absurd hpos (not_lt.2 hle)

/-- the space of the counterexample: a categorical variable with one category and a constraint on it -/
def exSingle : List Desc :=
  [{ name := some "c", type := some "categorical", domain := some (.flat [0]) },
   { name := some "x", type := some "continuous", domain := some (.flat [0, 1]) }]

/-- a constraint that the only category (0) satisfies, but its encoding (1) does not -/
def exSingleConstr : List ConstrDict := [{ constraint := some fun r => (npGet r 0).map (· - 1/2) }]

/-- C75 (negation of the full property). With a categorical variable of one category (and no other
categorical variable) constraints are evaluated on encoded rows: a row produced by the design, which
satisfies the constraint, has acquisition 0 instead of -1. -/
theorem C75_constraint_coordinates_counterexample :
    ((designSpace exSingle (some exSingleConstr)).bind fun sp => initialDesign "random" sp exOracle 1)
      = .ok [[0, 1/2]] ∧
    Feasible exSingleConstr [0, 1/2] ∧
    ((designSpace exSingle (some exSingleConstr)).bind fun sp =>
      acquisitionFunction sp (fun _ => .ok 1) (fun _ => .ok 1) (encodeRow (kindsOf exSingle) [0, 1/2]))
      = .ok 0 := by
  refine ⟨by decide +kernel, ?_, by decide +kernel⟩
  intro c hc
  simp only [exSingleConstr, List.mem_singleton] at hc
  subst hc
  exact ⟨_, _, rfl, rfl, by norm_num⟩

/-! ## C34 -/

/-- C34 (partial: the suggestion is feasible if one of the candidates has a negative objective
value). If one of the locally optimized candidates is feasible and has a positive acquisition (and a
positive cost) then the sequentially suggested point satisfies the constraints. -/
theorem C34_constraints_partial {config : List Desc} {cs : List ConstrDict} {sp : Space}
    (h : designSpace config (some cs) = .ok sp) (hb : sp.hasBandit = false)
    (hs : ∀ k ∈ kindsOf config, Samplable k) (hvar : kindsOf config ≠ [])
    (hsc : NoSingleCategory (kindsOf config))
    (context : Option Context) (hg : ValidContext sp context) (env : EvalEnv)
    (hop : GoodOptions env.op) (ho : GoodAcq env.oracle.acq) (acq cost : Vec → Py ℚ)
    (hf : env.f = acquisitionFunction sp acq cost)
    (hcost : ∀ x c, cost x = .ok c → 0 < c)
    (deDup : Bool) (X : Mat) (pending ignored : Option Mat) (m : Mat)
    (hm : computeNext .sequential env sp context deDup X pending ignored = .ok m) :
    ∃ c anchors z x, m = [z] ∧ contextManager sp context = .ok c ∧
      acqAnchors sp c (if deDup then some (dupMgr X pending ignored) else none) env.op
        env.oracle.acq env.f = .ok anchors ∧ x = encodeRow (kindsOf config) z ∧
      ((∃ (k : Nat) (a' x' z' : Vec) (v' a : ℚ), anchors[k]? = some a' ∧
          applyOptimizer sp (some c) (if deDup then some (dupMgr X pending ignored) else none)
            (env.oracle.acq.opt k) env.f a' = .ok (x', v') ∧
          x' = encodeRow (kindsOf config) z' ∧ ObjDomain (kindsOf config) z' ∧ Feasible cs z' ∧
          acq x' = .ok a ∧ 0 < a ∧ env.f x' = .ok v') →
        Feasible cs z) := by
  have hne := fun k hk => samplable_nonEmpty (hs k hk)
  have hk := space_kinds_eq h
  obtain ⟨c, b, hc, hbt, hzip⟩ := computeNext_cases hm
  generalize (if deDup then some (dupMgr X pending ignored) else none) = dup at *
  simp only [computeBatch, sequentialBatch] at hbt
  cases hr : acqOptimize sp c dup env.op env.oracle.acq env.f with
  | error e => simp [hr] at hbt
  | ok r =>
    obtain ⟨x, v⟩ := r
    simp only [hr, Except.ok.injEq] at hbt
    subst hbt
    obtain ⟨z, ⟨hx, hz, hctx⟩, hd, hfx⟩ := acqOptimize_sound h hb (hk ▸ hs) (hk ▸ hvar) hg hc hop ho hr
    simp only at hx hfx
    rw [hk] at hz hx
    obtain ⟨anchors, pts, i, e1, e2, e3, -, e4⟩ := C27_best_candidate sp c dup _ _ _ _ hr
    refine ⟨c, anchors, z, x, ?_, hc, e1, hx, ?_⟩
    · rw [← hk] at hz hx
      rw [hx, zipInputs_encode h hb hz] at hzip
      simpa using hzip.symm
    · rintro ⟨k, a', x', z', v', a, g1, g2, g3, g4, g5, g6, g7, g8⟩
      obtain ⟨p, hp, happ⟩ := e3 k a' g1
      rw [g2] at happ
      injection happ with happ
      subst happ
      have hle := (e4.2 k (x', v') hp).1
      simp only at hle
      rw [hf, g3] at g8
      obtain ⟨a1, c1, h1, h2, h3⟩ := C75_constraint_coordinates_partial h hb hne hsc acq cost z' g4 v' g8
      rw [← g3, g6] at h1
      injection h1 with h1
      subst h1
      have hv' : v' < 0 := by
        rcases h3 with ⟨-, rfl⟩ | ⟨hn, -⟩
        · have := hcost _ _ h2
          exact div_neg_of_neg_of_pos (by linarith) this
        · exact absurd g5 hn
      rw [hf, hx] at hfx
      obtain ⟨a2, c2, h4, h5, h6⟩ := C75_constraint_coordinates_partial h hb hne hsc acq cost z hz v hfx
      rcases h6 with ⟨h6, -⟩ | ⟨-, rfl⟩
      · exact h6
      · linarith

/-- C34 (negation of the full property). A negative acquisition (as the lower confidence bound may
have) is weighted by the indicator: infeasible points have value 0, feasible ones 1, and the
suggestion violates the constraint `x ≤ 1/2`, although all anchor points satisfy it. -/
theorem C34_constraints_counterexample :
    ((designSpace [{ name := some "x", type := some "continuous", domain := some (.flat [0, 1]) }]
        (some [{ constraint := some fun r => (npGet r 0).map (· - 1/2) }])).bind fun sp =>
      computeNext .sequential { exEnv with
        f := acquisitionFunction sp (fun _ => .ok (-1)) (fun _ => .ok 1)
        oracle := ⟨{ exAcq with opt := fun _ _ x => .ok (x.map (· + 1)) }, exAcq⟩ } sp none false
        [] none none) = .ok [[1]] := by decide +kernel

/-- A case of the partial theorem: nonnegative acquisition, the optimizer leaves the feasible set. -/
example :
    ((designSpace [{ name := some "x", type := some "continuous", domain := some (.flat [0, 1]) }]
        (some [{ constraint := some fun r => (npGet r 0).map (· - 1/2) }])).bind fun sp =>
      computeNext .sequential { exEnv with
        f := acquisitionFunction sp (fun _ => .ok 1) (fun _ => .ok 1)
        oracle := ⟨{ exAcq with opt := fun k _ x => .ok (x.map (· + (k : ℚ))) }, exAcq⟩ } sp none false
        [] none none) = .ok [[1/2]] := by decide +kernel

example : NoSingleCategory (kindsOf exConfig) := by
  rw [exConfig_kinds]
  intro k hk labels hl
  subst hl
  simp only [List.mem_cons, List.not_mem_nil, or_false, reduceCtorEq, false_or, Kind.categorical.injEq] at hk
  subst hk
  simp

end GPyOpt.Props
