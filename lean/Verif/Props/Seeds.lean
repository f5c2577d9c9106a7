import Verif.Model.Seeds
import Verif.Props.Batch
import Verif.Props.Records

/-!
# C166: runs with a seeded random generator

All random numbers of a run come from one generator. How many are taken, and in which state of the generator the candidates of
each iteration are drawn, does not depend on the objective, the model or the data: runs on different objectives with the same
seed look at the same candidates, and the runs of the other properties, whose random numbers are given by iteration, are the
runs with a seed.
-/

namespace GPyOpt.Props

open GPyOpt Spec

variable {S : Type}

/-! ## Designs -/

theorem seededLoop_fst (g : Gen S) (sp : Space) (n : Nat) (s : S) (fuel r : Nat) (samples : Mat) :
    (seededLoop g sp n fuel samples (afterRounds g sp n s r)).1 = constrLoop sp n (drawsFrom g sp n s) fuel r samples := by
  induction fuel generalizing r samples with
  | zero =>
    unfold seededLoop constrLoop
    split_ifs <;> rfl
  | succ fuel ih =>
    unfold seededLoop constrLoop
    split_ifs with h
    · have e : drawsFrom g sp n s r = (drawOf g sp n (afterRounds g sp n s r)).1 := rfl
      rw [e]
      cases h1 : randomNoConstr sp (drawOf g sp n (afterRounds g sp n s r)).1 n with
      | error er => rfl
      | ok dom =>
        dsimp only
        cases h2 : sp.indicatorConstraints dom with
        | error er => rfl
        | ok w => exact ih (r + 1) _
    · rfl

/-- The rows of a seeded design are those of the design with the numbers of the generator. -/
theorem seededDesign_fst (g : Gen S) (fuel : Nat) (sp : Space) (n : Nat) (s : S) :
    (seededDesign g fuel sp n s).1 = randomDesign sp (drawsFrom g sp n s) fuel n := by
  unfold seededDesign randomDesign
  split_ifs with h
  · exact seededLoop_fst g sp n s fuel 0 []
  · rfl

theorem seededLoop_snd (g : Gen S) (sp : Space) (n : Nat) (s : S) (fuel r : Nat) (samples : Mat) :
    ∃ k, r ≤ k ∧ k ≤ r + fuel ∧ (seededLoop g sp n fuel samples (afterRounds g sp n s r)).2 = afterRounds g sp n s k ∧
      (samples.length < n → 0 < fuel → r < k) := by
  induction fuel generalizing r samples with
  | zero =>
    unfold seededLoop
    split_ifs <;> exact ⟨r, le_refl _, le_refl _, rfl, fun _ h => absurd h (by simp)⟩
  | succ fuel ih =>
    unfold seededLoop
    split_ifs with h
    · have e : (drawOf g sp n (afterRounds g sp n s r)).2 = afterRounds g sp n s (r + 1) := rfl
      cases h1 : randomNoConstr sp (drawOf g sp n (afterRounds g sp n s r)).1 n with
      | error er => exact ⟨r + 1, by omega, by omega, e, fun _ _ => by omega⟩
      | ok dom =>
        dsimp only
        cases h2 : sp.indicatorConstraints dom with
        | error er => exact ⟨r + 1, by omega, by omega, e, fun _ _ => by omega⟩
        | ok w =>
          obtain ⟨k, k1, k2, k3, -⟩ := ih (r + 1) (samples ++ selectValid dom w)
          exact ⟨k, by omega, by omega, k3, fun _ _ => by omega⟩
    · exact ⟨r, le_refl _, by omega, rfl, fun h' => absurd h' h⟩

/-- **C166 (designs).** A random design of `n > 0` locations that draws from a generator has the rows of the design with the numbers
of the generator, and leaves the generator after one or more rounds of draws of `n` locations each, after one round if there are
no constraints. -/
theorem C166_design (g : Gen S) (fuel : Nat) (sp : Space) (n : Nat) (hn : 0 < n) (hf : 0 < fuel) (s : S) :
    (seededDesign g fuel sp n s).1 = randomDesign sp (drawsFrom g sp n s) fuel n ∧
    ∃ k, 0 < k ∧ (seededDesign g fuel sp n s).2 = afterRounds g sp n s k ∧ (sp.hasConstraints = false → k = 1) := by
  refine ⟨seededDesign_fst g fuel sp n s, ?_⟩
  unfold seededDesign
  split_ifs with h
  · obtain ⟨k, -, -, k3, k4⟩ := seededLoop_snd g sp n s fuel 0 []
    exact ⟨k, k4 hn hf, k3, fun h' => by rw [h] at h'; cases h'⟩
  · exact ⟨1, by omega, rfl, fun _ => rfl⟩

/-- The generator after one call for every variable of `ks` that is not continuous: `n` positions among its values. -/
def served (g : Gen S) (n : Nat) (s : S) (ks : List Kind) : S :=
  ks.foldl (fun s k => match k with
    | .continuous .. => s
    | .discrete l => (g.choice s l.length n).2
    | .categorical l => (g.choice s l.length n).2
    | .bandit a => (g.choice s a.length n).2) s

theorem unifDraws_spec (g : Gen S) (n : Nat) : ∀ (bs : List (ℚ × ℚ)) (k : Nat) (s : S),
    (unifDraws g n k bs s).2 = (fun s => (g.unif s n).2)^[bs.length] s ∧
    ∀ c < bs.length, (unifDraws g n k bs s).1 (k + c) = (g.unif ((fun s => (g.unif s n).2)^[c] s) n).1 := by
  intro bs
  induction bs with
  | nil => intro k s; exact ⟨rfl, fun c hc => absurd hc (by simp)⟩
  | cons b bs ih =>
    intro k s
    obtain ⟨h1, h2⟩ := ih (k + 1) (g.unif s n).2
    refine ⟨by simp only [unifDraws, h1, List.length_cons, Function.iterate_succ_apply], fun c hc => ?_⟩
    cases c with
    | zero => simp [unifDraws]
    | succ c =>
      have := h2 c (by simpa using hc)
      simp only [unifDraws, Function.iterate_succ_apply]
      rw [if_neg (by omega), ← this, Nat.add_assoc, Nat.add_comm 1 c]

theorem choiceDraws_spec (g : Gen S) (n : Nat) : ∀ (vs : List EVar) (idx : Nat) (s : S),
    (choiceDraws g n idx vs s).2 = served g n s (vs.map EVar.kind) ∧
    ∀ (i : Nat) (l : List ℚ), (vs.map EVar.kind)[i]? = some (.discrete l) ∨ (vs.map EVar.kind)[i]? = some (.categorical l) →
      (choiceDraws g n idx vs s).1 (idx + i) = (g.choice (served g n s ((vs.map EVar.kind).take i)) l.length n).1 := by
  intro vs
  induction vs with
  | nil => intro idx s; exact ⟨rfl, fun i l h => by simp at h⟩
  | cons v vs ih =>
    intro idx s
    have hd : ∀ {k : Nat}, drawnFrom v.kind = some k → served g n s [v.kind] = (g.choice s k n).2 := by
      intro k hk
      cases hv : v.kind <;> rw [hv] at hk <;> simp [drawnFrom] at hk <;> subst hk <;> rfl
    have hs : ∀ ks : List Kind, served g n s (v.kind :: ks) = served g n (served g n s [v.kind]) ks := fun ks => rfl
    rw [List.map_cons, hs (vs.map EVar.kind)]
    cases hk : drawnFrom v.kind with
    | none =>
      have hc : served g n s [v.kind] = s := by
        cases hv : v.kind <;> rw [hv] at hk <;> first | rfl | simp [drawnFrom] at hk
      obtain ⟨h1, h2⟩ := ih (idx + 1) s
      simp only [choiceDraws, hk, hc]
      refine ⟨h1, fun i l h => ?_⟩
      cases i with
      | zero =>
        simp only [List.getElem?_cons_zero, Option.some.injEq] at h
        rcases h with h | h <;> rw [h] at hk <;> simp [drawnFrom] at hk
      | succ i =>
        have := h2 i l (by simpa using h)
        rw [List.take_succ_cons, hs, hc, ← this, Nat.add_assoc, Nat.add_comm 1 i]
    | some k =>
      obtain ⟨h1, h2⟩ := ih (idx + 1) (g.choice s k n).2
      simp only [choiceDraws, hk, hd hk]
      refine ⟨h1, fun i l h => ?_⟩
      cases i with
      | zero =>
        simp only [List.getElem?_cons_zero, Option.some.injEq] at h
        have : k = l.length := by
          rcases h with h | h <;> rw [h] at hk <;> simp [drawnFrom] at hk <;> exact hk.symm
        subst this
        simp [served]
      | succ i =>
        have := h2 i l (by simpa using h)
        rw [List.take_succ_cons, hs, hd hk, ← this, if_neg (by omega), Nat.add_assoc, Nat.add_comm 1 i]

/-- **C166 (which numbers).** One round of draws of `n` locations: one call for every variable that is not continuous, in the order
of the variables, each for `n` positions among all its values; then one call for `n` uniform numbers for every continuous variable.
No number is used twice, none is put back. -/
theorem C166_numbers {config : List Desc} {cs : Option (List ConstrDict)} {sp : Space} (h : designSpace config cs = .ok sp)
    (hb : sp.hasBandit = false) (g : Gen S) (n : Nat) (s : S) :
    (∀ (i : Nat) (l : List ℚ), sp.kinds[i]? = some (.discrete l) ∨ sp.kinds[i]? = some (.categorical l) →
      (drawOf g sp n s).1.choice i = (g.choice (served g n s (sp.kinds.take i)) l.length n).1) ∧
    (∀ c < sp.getContinuousBounds.length,
      (drawOf g sp n s).1.unif c = (g.unif ((fun s => (g.unif s n).2)^[c] (served g n s sp.kinds)) n).1) ∧
    (drawOf g sp n s).2 = (fun s => (g.unif s n).2)^[sp.getContinuousBounds.length] (served g n s sp.kinds) := by
  obtain ⟨h1, h2⟩ := choiceDraws_spec g n sp.expanded 0 s
  obtain ⟨u1, u2⟩ := unifDraws_spec g n sp.getContinuousBounds 0 (choiceDraws g n 0 sp.expanded s).2
  refine ⟨fun i l hi => ?_, ?_⟩
  · have := h2 i l hi
    rw [Nat.zero_add] at this
    exact this
  · unfold drawOf
    cases hc : sp.hasContinuous with
    | false =>
      have h0 : sp.getContinuousBounds = [] := by
        rw [getContinuousBounds_eq h hb, List.filterMap_eq_nil_iff]
        intro k hk
        have := hasContinuous_false h hb hc k hk
        cases k <;> simp_all [Kind.isContinuous, contBound]
      simp only [Bool.false_eq_true, if_false, h0]
      exact ⟨fun c hc => absurd hc (by simp), h1⟩
    | true =>
      simp only [if_true]
      refine ⟨fun c hc => ?_, by rw [u1, h1]; rfl⟩
      have := u2 c hc
      rw [Nat.zero_add] at this
      exact this.trans (by rw [h1]; rfl)

/-- **C166 (local penalization draws).** The estimate of the Lipschitz constant takes 500 uniform numbers for every model column
out of the generator, a call for each, which are not put back. -/
theorem C166_lipschitz_draws (g : Gen S) (sp : Space) {bs : List (ℚ × ℚ)} (h : sp.getBounds = .ok bs) (s : S) :
    (lipDraws g sp s).2 = (fun s => (g.unif s 500).2)^[bs.length] s ∧
    ∃ u, (lipDraws g sp s).1 = .ok u ∧ ∀ c < bs.length, u c = (g.unif ((fun s => (g.unif s 500).2)^[c] s) 500).1 := by
  obtain ⟨h1, h2⟩ := unifDraws_spec g 500 bs 0 s
  simp only [lipDraws, h]
  exact ⟨h1, _, rfl, fun c hc => by have := h2 c hc; rwa [Nat.zero_add] at this⟩

/-! ## Suggestions -/

theorem seededOptimize_fst (g : Gen S) (fuel : Nat) (sp : Space) (ctx : Ctx) (dup : Option DupMgr) (op : AcqOptions)
    (o : AcqOracle) (f : Vec → Py ℚ) (s : S) :
    (seededOptimize g fuel sp ctx dup op o f s).1
      = acqOptimize sp ctx dup op (anchorOracle g fuel sp ctx op.numSamplesObjective s o) f := by
  unfold seededOptimize acqOptimize
  cases chooseOptimizer op.optimizerName <;> rfl

theorem seededOptimize_snd {g : Gen S} {fuel : Nat} {sp : Space} {ctx : Ctx} {dup : Option DupMgr} {op : AcqOptions}
    {o : AcqOracle} {f : Vec → Py ℚ} {s : S} {x : Vec × ℚ} (h : (seededOptimize g fuel sp ctx dup op o f s).1 = .ok x) :
    (seededOptimize g fuel sp ctx dup op o f s).2 = afterAnchors g fuel sp ctx op.numSamplesObjective s := by
  unfold seededOptimize at h ⊢
  cases hc : chooseOptimizer op.optimizerName with
  | error er => simp [hc] at h
  | ok u => rfl

/-- State of the generator in which the `k`-th optimization of a batch by local penalization starts. -/
def lpGen (g : Gen S) (fuel : Nat) (sp : Space) (ctx : Ctx) (ns : Nat) (s : S) : Nat → S
  | 0 => s
  | 1 => (lipDraws g sp (afterAnchors g fuel sp ctx ns s)).2
  | k + 2 => afterAnchors g fuel sp ctx ns (lpGen g fuel sp ctx ns s (k + 1))

/-- How a suggestion uses the generator: the state it leaves, and the states in which it draws the candidates of the
acquisition, of the batch and of the `k`-th optimization; these depend on the sizes of the samples, the space and the variables
of the context only. -/
structure Usage (S : Type) where
  after : S
  acq : S
  batch : S
  lp : Nat → S
  normals : Nat → ℚ

/-- The sizes of the samples: of the acquisition, of random batches, of batches by Thompson sampling. -/
structure Sizes where
  ns : Nat
  nr : Nat
  nt : Nat

/-- The sizes of an environment. -/
def sizes (e : SeedEval) : Sizes := ⟨e.env.op.numSamplesObjective, e.env.numSamplesRandom, e.env.numSamplesThompson⟩

/-- The usage of the evaluators; that of Thompson sampling without de-duplication. -/
def usage (g : Gen S) (fuel : Nat) (sp : Space) (ctx : Ctx) (z : Sizes) (ev : Evaluator) (deDup : Bool) (s : S) : Usage S :=
  let A := afterAnchors g fuel sp ctx z.ns
  let R := afterAnchors g fuel sp ctx z.nr
  let T := afterAnchors g fuel sp ctx z.nt
  let L := lpGen g fuel sp ctx z.ns s
  match ev, deDup with
  | .random _, true => ⟨A (R s), R s, s, L, fun _ => 0⟩
  | .random _, false => ⟨R (A s), s, A s, L, fun _ => 0⟩
  | .localPenalization n, _ => ⟨if 1 < n then A (L (n - 1)) else A s, s, s, L, fun _ => 0⟩
  | .thompson _, _ => ⟨(g.normal (T s) z.nt).2, s, s, L, (g.normal (T s) z.nt).1⟩
  | .sequential, _ => ⟨A s, s, s, L, fun _ => 0⟩

/-- The environment of a suggestion with the numbers that the generator gives in these states. -/
def drawnEnv (g : Gen S) (fuel : Nat) (sp : Space) (ctx : Ctx) (ev : Evaluator) (e : SeedEval) (u : Usage S) : EvalEnv :=
  { e.env with
    oracle := ⟨anchorOracle g fuel sp ctx e.env.op.numSamplesObjective u.acq e.env.oracle.acq,
      match ev with
      | .thompson _ => { anchorOracle g fuel sp ctx e.env.numSamplesThompson u.batch e.env.oracle.batch with
          thompson := e.normals u.normals }
      | _ => anchorOracle g fuel sp ctx e.env.numSamplesRandom u.batch e.env.oracle.batch⟩
    acqLP := fun k => anchorOracle g fuel sp ctx e.env.op.numSamplesObjective (u.lp k) (e.env.acqLP k)
    lpConsts := (lipDraws g sp (afterAnchors g fuel sp ctx e.env.op.numSamplesObjective (u.lp 0))).1.bind e.lip }

/-- The evaluator is not Thompson sampling with de-duplication (or with empty samples). -/
def Steady (ev : Evaluator) (deDup : Bool) (z : Sizes) : Prop := ∀ n, ev = .thompson n → deDup = false ∧ 0 < z.nt

theorem seededRandom_eq (g : Gen S) (fuel : Nat) (e : SeedEval) (sp : Space) (ctx : Ctx) (dup : Option DupMgr) (n : Nat) (s : S) :
    let u := usage g fuel sp ctx (sizes e) (.random n) dup.isSome s
    (seededRandom g fuel e sp ctx dup n s).1 = computeBatch (.random n) (drawnEnv g fuel sp ctx (.random n) e u) sp ctx dup ∧
    ∀ b, (seededRandom g fuel e sp ctx dup n s).1 = .ok b → (seededRandom g fuel e sp ctx dup n s).2 = u.after := by
  intro u
  cases dup with
  | some dm =>
    simp only [u, usage, sizes, Option.isSome_some, seededRandom, computeBatch, randomBatch, drawnEnv]
    cases hA : randomBatchAnchors sp ctx (some dm) e.env.numSamplesRandom n
        (anchorOracle g fuel sp ctx e.env.numSamplesRandom s e.env.oracle.batch) with
    | error er =>
      refine ⟨?_, ?_⟩
      · simp [dedupBatch]
      · intro b hb
        simp at hb
    | ok as =>
      dsimp only
      rw [seededOptimize_fst]
      refine ⟨rfl, ?_⟩
      intro b hb
      rw [← seededOptimize_fst] at hb
      cases hx : (seededOptimize g fuel sp ctx (some dm) e.env.op e.env.oracle.acq e.env.f
          (afterAnchors g fuel sp ctx e.env.numSamplesRandom s)).1 with
      | error er =>
        rw [hx] at hb
        simp [dedupBatch] at hb
      | ok x => exact seededOptimize_snd hx
  | none =>
    simp only [u, usage, sizes, Option.isSome_none, seededRandom, computeBatch, randomBatch, drawnEnv]
    rw [← seededOptimize_fst]
    cases hx : (seededOptimize g fuel sp ctx none e.env.op e.env.oracle.acq e.env.f s).1 with
    | error er => exact ⟨rfl, fun b hb => by simp at hb⟩
    | ok x =>
      obtain ⟨x, v⟩ := x
      dsimp only
      rw [seededOptimize_snd hx]
      cases hA : randomBatchAnchors sp ctx none e.env.numSamplesRandom n
          (anchorOracle g fuel sp ctx e.env.numSamplesRandom
            (afterAnchors g fuel sp ctx e.env.op.numSamplesObjective s) e.env.oracle.batch) with
      | error er => exact ⟨rfl, fun b hb => by simp at hb⟩
      | ok as => exact ⟨rfl, fun b _ => rfl⟩

/-- The optimizations of `seededPenalized`. -/
def lpOptimize (g : Gen S) (fuel : Nat) (e : SeedEval) (sp : Space) (ctx : Ctx) (k : Nat) (st : LPState) (s : S) : Py Vec × S :=
  let r := seededOptimize g fuel sp ctx none e.env.op (e.env.acqLP k) (e.env.fLP st) s
  (r.1.map Prod.fst, r.2)

theorem seededLpLoop_eq (g : Gen S) (fuel : Nat) (e : SeedEval) (sp : Space) (ctx : Ctx) (s : S) (c : ℚ × ℚ)
    (todo k : Nat) (batch : Mat) (st : LPState) (tr : List LPState) :
    let L := lpGen g fuel sp ctx e.env.op.numSamplesObjective s
    let r := seededLpLoop (lpOptimize g fuel e sp ctx) c todo (k + 1) batch st (L (k + 1))
    r.1 = (lpLoop (fun k st => (acqOptimize sp ctx none e.env.op
        (anchorOracle g fuel sp ctx e.env.op.numSamplesObjective (L k) (e.env.acqLP k)) (e.env.fLP st)).map Prod.fst) c todo
        (k + 1) batch st tr).map (fun r => r.1) ∧
    ∀ b, r.1 = .ok b → r.2 = L (k + 1 + todo) := by
  intro L
  induction todo generalizing k batch st tr with
  | zero => exact ⟨rfl, fun b _ => rfl⟩
  | succ todo ih =>
    intro r
    simp only [r, seededLpLoop, lpLoop]
    rcases ho : lpOptimize g fuel e sp ctx (k + 1) (st.update (some batch) (some c)) (L (k + 1)) with ⟨x, s'⟩
    have h1 : x = (acqOptimize sp ctx none e.env.op (anchorOracle g fuel sp ctx e.env.op.numSamplesObjective (L (k + 1))
        (e.env.acqLP (k + 1))) (e.env.fLP (st.update (some batch) (some c)))).map Prod.fst := by
      rw [← seededOptimize_fst]
      exact (congrArg Prod.fst ho).symm
    rw [← h1]
    cases x with
    | error er => exact ⟨rfl, fun b hb => by simp at hb⟩
    | ok x =>
      dsimp only
      have h2 : s' = L (k + 2) := by
        have e1 : (seededOptimize g fuel sp ctx none e.env.op (e.env.acqLP (k + 1))
            (e.env.fLP (st.update (some batch) (some c))) (L (k + 1))).2 = s' := congrArg Prod.snd ho
        have e2 := congrArg Prod.fst ho
        simp only [lpOptimize] at e2
        obtain ⟨y, hy, _⟩ := Except_map_eq_ok.1 e2
        rw [← e1, seededOptimize_snd hy]
        rfl
      subst h2
      have := ih (k + 1) (batch ++ [x]) (st.update (some batch) (some c)) (tr ++ [st.update (some batch) (some c)])
      refine ⟨this.1, fun b hb => ?_⟩
      rw [this.2 b hb]
      congr 1
      omega

theorem seededPenalized_eq (g : Gen S) (fuel : Nat) (e : SeedEval) (sp : Space) (ctx : Ctx) (dup : Option DupMgr) (n : Nat) (s : S) :
    let u := usage g fuel sp ctx (sizes e) (.localPenalization n) dup.isSome s
    (seededPenalized g fuel e sp ctx n s).1
      = computeBatch (.localPenalization n) (drawnEnv g fuel sp ctx (.localPenalization n) e u) sp ctx dup ∧
    ∀ b, (seededPenalized g fuel e sp ctx n s).1 = .ok b → (seededPenalized g fuel e sp ctx n s).2 = u.after := by
  intro u
  have hu : u = ⟨if 1 < n then afterAnchors g fuel sp ctx e.env.op.numSamplesObjective
      (lpGen g fuel sp ctx e.env.op.numSamplesObjective s (n - 1)) else
      afterAnchors g fuel sp ctx e.env.op.numSamplesObjective s, s, s,
      lpGen g fuel sp ctx e.env.op.numSamplesObjective s, fun _ => 0⟩ := by
    cases dup <;> rfl
  rw [hu]
  have hS : ∀ s, seededPenalized g fuel e sp ctx n s =
      match lpOptimize g fuel e sp ctx 0 (e.env.lpState.update none none) s with
      | (.error er, s1) => (.error er, s1)
      | (.ok x, s1) =>
        if 1 < n then
          match lipDraws g sp s1 with
          | (.error er, s2) => (.error er, s2)
          | (.ok u, s2) => match e.lip u with
            | .error er => (.error er, s2)
            | .ok c => seededLpLoop (lpOptimize g fuel e sp ctx) c (n - 1) 1 [x] (e.env.lpState.update none none) s2
        else (.ok [x], s1) := fun _ => rfl
  rw [hS]
  simp only [computeBatch, drawnEnv, lpBatch]
  rcases ho : lpOptimize g fuel e sp ctx 0 (e.env.lpState.update none none) s with ⟨x, s1⟩
  have h1 : x = (acqOptimize sp ctx none e.env.op (anchorOracle g fuel sp ctx e.env.op.numSamplesObjective
      (lpGen g fuel sp ctx e.env.op.numSamplesObjective s 0)
      (e.env.acqLP 0)) (e.env.fLP (e.env.lpState.update none none))).map Prod.fst := by
    show x = (acqOptimize sp ctx none e.env.op (anchorOracle g fuel sp ctx e.env.op.numSamplesObjective s
      (e.env.acqLP 0)) (e.env.fLP (e.env.lpState.update none none))).map Prod.fst
    rw [← seededOptimize_fst]
    exact (congrArg Prod.fst ho).symm
  rw [← h1]
  cases x with
  | error er => exact ⟨rfl, fun b hb => by simp at hb⟩
  | ok x =>
    have h2 : s1 = afterAnchors g fuel sp ctx e.env.op.numSamplesObjective s := by
      have e1 : (seededOptimize g fuel sp ctx none e.env.op (e.env.acqLP 0)
          (e.env.fLP (e.env.lpState.update none none)) s).2 = s1 := congrArg Prod.snd ho
      have e2 := congrArg Prod.fst ho
      simp only [lpOptimize] at e2
      obtain ⟨y, hy, _⟩ := Except_map_eq_ok.1 e2
      rw [← e1, seededOptimize_snd hy]
    subst h2
    dsimp only
    by_cases hn : 1 < n
    · simp only [if_pos hn]
      have hl : lpGen g fuel sp ctx e.env.op.numSamplesObjective s 0 = s := rfl
      rw [hl]
      rcases hd : lipDraws g sp (afterAnchors g fuel sp ctx e.env.op.numSamplesObjective s) with ⟨w, s2⟩
      cases w with
      | error er => exact ⟨rfl, fun b hb => by simp at hb⟩
      | ok w =>
        dsimp only [Except.bind]
        cases hc : e.lip w with
        | error er => exact ⟨rfl, fun b hb => by simp at hb⟩
        | ok c =>
          dsimp only
          have h3 : s2 = lpGen g fuel sp ctx e.env.op.numSamplesObjective s 1 := by
            show s2 = (lipDraws g sp (afterAnchors g fuel sp ctx e.env.op.numSamplesObjective s)).2
            rw [hd]
          rw [h3]
          have := seededLpLoop_eq g fuel e sp ctx s c (n - 1) 0 [x] (e.env.lpState.update none none)
            [e.env.lpState.update none none]
          refine ⟨?_, fun b hb => ?_⟩
          · rw [this.1]
            cases lpLoop _ c (n - 1) (0 + 1) [x] (e.env.lpState.update none none) [e.env.lpState.update none none] with
            | error er => rfl
            | ok r => rfl
          · rw [this.2 b hb]
            obtain ⟨m, rfl⟩ : ∃ m, n = m + 2 := ⟨n - 2, by omega⟩
            show lpGen g fuel sp ctx e.env.op.numSamplesObjective s (0 + 1 + (m + 1)) = _
            rw [show 0 + 1 + (m + 1) = m + 2 by omega]
            rfl
    · simp only [if_neg hn]
      exact ⟨rfl, fun b _ => trivial⟩

theorem constrLoop_length {sp : Space} {n : Nat} {ds : Nat → Draw} {fuel round : Nat} {samples m : Mat}
    (h : constrLoop sp n ds fuel round samples = .ok m) : m.length = n := by
  induction fuel generalizing round samples with
  | zero =>
    unfold constrLoop at h
    split_ifs at h with hl
    simp only [Except.ok.injEq] at h
    rw [← h, List.length_take]
    omega
  | succ fuel ih =>
    unfold constrLoop at h
    split_ifs at h with hl
    · cases h1 : randomNoConstr sp (ds round) n with
      | error er => simp [h1] at h
      | ok dom =>
        simp only [h1] at h
        cases h2 : sp.indicatorConstraints dom with
        | error er => simp [h2] at h
        | ok w =>
          simp only [h2] at h
          exact ih h
    · simp only [Except.ok.injEq] at h
      rw [← h, List.length_take]
      omega

theorem anchorSamples_random_length {sp : Space} {ctx : Option Ctx} {n : Nat} (hn : 0 < n) {o : DesignOracle} {X : Mat}
    (h : anchorSamples sp ctx false "random" n o = .ok X) : X.length = n := by
  unfold anchorSamples at h
  cases hs : anchorSpace sp ctx with
  | error er => simp [hs] at h
  | ok q =>
    obtain ⟨sp', c'⟩ := q
    simp only [hs] at h
    cases hd : initialDesign "random" sp' o n with
    | error er => simp [hd] at h
    | ok D =>
      simp only [hd, Bool.false_eq_true, if_false] at h
      have hD : D.length = n := by
        have hr : initialDesign "random" sp' o n = randomDesign sp' o.draws o.fuel n := by rfl
        rw [hr] at hd
        unfold randomDesign at hd
        split_ifs at hd
        · exact constrLoop_length hd
        · rw [mapE_length hd, List.length_range]
      cases hu : sp'.unzipInputs D with
      | error er => simp [hu] at h
      | ok U =>
        simp only [hu] at h
        rw [mapE_length h]
        unfold Space.unzipInputs at hu
        split_ifs at hu
        · simp only [Except.ok.injEq] at hu
          rw [← hu, hD]
        · obtain ⟨m0, g1, rfl⟩ := Except_map_eq_ok.1 hu
          have h1 := mapE_length g1
          cases m0 with
          | nil => simp at h1; omega
          | cons r m0 => exact h1.trans hD

theorem nonDuplicates_none {sp : Space} {X : Mat} {flags : List Bool} (h : mapE (isDup none sp) X = .ok flags) :
    nonDuplicates X flags = X := by
  induction X generalizing flags with
  | nil => rfl
  | cons x X ih =>
    simp only [mapE, isDup] at h
    cases hf : mapE (isDup none sp) X with
    | error er => simp [hf] at h
    | ok fs =>
      have ih' := ih hf
      simp only [hf, Except.ok.injEq] at h
      subst h
      unfold nonDuplicates at ih' ⊢
      simp only [List.zip_cons_cons, List.filterMap_cons, Bool.false_eq_true, if_false, ih']

theorem seededThompson_eq (g : Gen S) (fuel : Nat) (e : SeedEval) (sp : Space) (ctx : Ctx) (n : Nat) (s : S)
    (hz : 0 < (sizes e).nt) :
    let u := usage g fuel sp ctx (sizes e) (.thompson n) false s
    (seededThompson g fuel e sp ctx none n s).1 = computeBatch (.thompson n) (drawnEnv g fuel sp ctx (.thompson n) e u) sp ctx none ∧
    ∀ b, (seededThompson g fuel e sp ctx none n s).1 = .ok b → (seededThompson g fuel e sp ctx none n s).2 = u.after := by
  intro u
  simp only [u, usage, sizes, seededThompson, computeBatch, drawnEnv, thompsonBatch]
  cases hA : anchorSamples sp (some ctx) false "random" e.env.numSamplesThompson
      (anchorOracle g fuel sp ctx e.env.numSamplesThompson s e.env.oracle.batch).design with
  | error er =>
    simp only [thompsonBatchAnchors, anchorPoints, Option.isSome_none, hA]
    exact ⟨trivial, fun b hb => by simp at hb⟩
  | ok X =>
    have hl := anchorSamples_random_length hz hA
    cases hf : mapE (isDup none sp) X with
    | error er =>
      simp only [thompsonBatchAnchors, anchorPoints, Option.isSome_none, hA, hf]
      exact ⟨trivial, fun b hb => by simp at hb⟩
    | ok flags =>
      have hc : scoredCount sp ctx none e.env.numSamplesThompson
          (anchorOracle g fuel sp ctx e.env.numSamplesThompson s e.env.oracle.batch) = e.env.numSamplesThompson := by
        simp only [scoredCount, Option.isSome_none, hA, hf]
        rw [nonDuplicates_none hf]
        exact hl
      rw [hc]
      exact ⟨rfl, fun b _ => rfl⟩

/-- **C166 (suggestions; partial: not for Thompson sampling with de-duplication).** The suggestion that draws from a
generator is the suggestion with the numbers that the generator gives in the states of `usage`, and leaves the generator in the state given there: none of these
states depends on the known locations, the acquisition, the model or the local optimizer. -/
theorem C166_suggestion_partial (g : Gen S) (fuel : Nat) (e : SeedEval) (ev : Evaluator) (deDup : Bool)
    (hev : Steady ev deDup (sizes e)) (sp : Space) (context : Option Context) (X : Mat) (pending ignored : Option Mat) (s : S) (ctx : Ctx)
    (hctx : contextManager sp context = .ok ctx) :
    let u := usage g fuel sp ctx (sizes e) ev deDup s
    let r := seededNext g fuel e ev sp context deDup X pending ignored s
    r.1 = computeNext ev (drawnEnv g fuel sp ctx ev e u) sp context deDup X pending ignored ∧ ∀ m, r.1 = .ok m → r.2 = u.after := by
  intro u r
  have hdup : (if deDup then some (dupMgr X pending ignored) else none : Option DupMgr).isSome = deDup := by
    cases deDup <;> rfl
  have key : let q := seededBatch g fuel e ev sp ctx (if deDup then some (dupMgr X pending ignored) else none) s
      q.1 = computeBatch ev (drawnEnv g fuel sp ctx ev e u) sp ctx (if deDup then some (dupMgr X pending ignored) else none) ∧
        ∀ b, q.1 = .ok b → q.2 = u.after := by
    cases ev with
    | sequential =>
      simp only [seededBatch, computeBatch, sequentialBatch, u, usage, sizes, drawnEnv]
      rw [← seededOptimize_fst]
      refine ⟨?_, fun b hb => ?_⟩
      · cases (seededOptimize g fuel sp ctx (if deDup then some (dupMgr X pending ignored) else none) e.env.op
          e.env.oracle.acq e.env.f s).1 <;> rfl
      · obtain ⟨y, hy, _⟩ := Except_map_eq_ok.1 hb
        exact seededOptimize_snd hy
    | random n =>
      have := seededRandom_eq g fuel e sp ctx (if deDup then some (dupMgr X pending ignored) else none) n s
      rw [hdup] at this
      exact this
    | thompson n =>
      obtain ⟨hd, hz⟩ := hev n rfl
      subst hd
      exact seededThompson_eq g fuel e sp ctx n s hz
    | localPenalization n =>
      have := seededPenalized_eq g fuel e sp ctx (if deDup then some (dupMgr X pending ignored) else none) n s
      rw [hdup] at this
      exact this
  simp only [r, seededNext, computeNext, hctx]
  rw [key.1]
  refine ⟨?_, fun m hm => ?_⟩
  · cases computeBatch ev (drawnEnv g fuel sp ctx ev e u) sp ctx (if deDup then some (dupMgr X pending ignored) else none) <;> rfl
  · cases hb : computeBatch ev (drawnEnv g fuel sp ctx ev e u) sp ctx
      (if deDup then some (dupMgr X pending ignored) else none) with
    | error er =>
      rw [hb] at hm
      simp [Except.bind] at hm
    | ok b =>
      exact key.2 b (key.1.trans hb)

/-! ## Runs -/

/-- Two states that differ in the records only. -/
structure SameAt (s t : BOState) : Prop where
  X : t.X = s.X
  context : t.context = s.context
  numAcq : t.numAcq = s.numAcq

theorem updateModel_sameAt (env : BOEnv) (s : BOState) : SameAt s (updateModel env s).1 := by
  rcases e : updateModel env s with ⟨s1, r⟩
  obtain ⟨ps, fs, rfl⟩ := updateModel_frame e
  exact ⟨rfl, rfl, rfl⟩

/-- Components that agree in all states of a round give the same round. -/
theorem boRound_agree (b : BOEnv) {f f' : BOState → Mat → Vec → Py Unit} {π π' : BOState → Py Vec}
    {σ σ' : BOState → Option Mat → Option Mat → Py Mat} (obj : Nat → Vec → Py ℚ) (mi mt : Limit) (eps : ℚ) (s : BOState)
    (hf : f s = f' s) (hp : ∀ t, SameAt s t → π t = π' t) (hs : ∀ t, SameAt s t → σ t none none = σ' t none none) :
    updateModel { b with fit := f, params := π, suggest := σ } s = updateModel { b with fit := f', params := π', suggest := σ' } s ∧
    boRound { b with fit := f, params := π, suggest := σ } obj mi mt eps s
      = boRound { b with fit := f', params := π', suggest := σ' } obj mi mt eps s := by
  have hu : updateModel { b with fit := f, params := π, suggest := σ } s
      = updateModel { b with fit := f', params := π', suggest := σ' } s := by
    have hsave : ∀ t, SameAt s t → saveParams { b with fit := f, params := π, suggest := σ } t
        = saveParams { b with fit := f', params := π', suggest := σ' } t := by
      intro t ht
      unfold saveParams
      simp only [hp t ht]
    unfold updateModel
    simp only [hf]
    split_ifs
    · rfl
    · cases b.sp.unzipInputs s.X with
      | error er => rfl
      | ok Xm =>
        cases s.Y with
        | none => rfl
        | some Y =>
          dsimp only
          have hm : BOEnv.modelY { b with fit := f, params := π, suggest := σ } Y
            = BOEnv.modelY { b with fit := f', params := π', suggest := σ' } Y := rfl
          rw [hm]
          cases f' s Xm (BOEnv.modelY { b with fit := f', params := π', suggest := σ' } Y) with
          | error er => rfl
          | ok u => exact hsave _ ⟨rfl, rfl, rfl⟩
    · exact hsave s ⟨rfl, rfl, rfl⟩
  refine ⟨hu, ?_⟩
  have he : ∀ s m, evaluateObjective { b with fit := f, params := π, suggest := σ } obj s m
      = evaluateObjective { b with fit := f', params := π', suggest := σ' } obj s m := fun _ _ => rfl
  have hsame := updateModel_sameAt { b with fit := f', params := π', suggest := σ' } s
  unfold boRound
  rw [hu]
  split_ifs
  · rcases hup : updateModel { b with fit := f', params := π', suggest := σ' } s with ⟨s1, r⟩
    rw [hup] at hsame
    cases r with
    | error x => cases x <;> rfl
    | ok u =>
      dsimp only
      rw [hs s1 hsame]
      simp only [he]
  · rfl

/-- The suggestion with the numbers that the generator gives, after a fit in state `s`. -/
def _root_.GPyOpt.SeedBO.drawn (e : SeedBO S) (s : S) (gs : List S) (t : BOState) (p i : Option Mat) : Py Mat :=
  match contextManager e.bo.sp t.context with
  | .error er => .error er
  | .ok ctx => computeNext e.ev (drawnEnv e.gen e.fuel e.bo.sp ctx e.ev (e.eval gs t)
      (usage e.gen e.fuel e.bo.sp ctx (sizes (e.eval gs t)) e.ev e.deDup s))
      e.bo.sp t.context e.deDup t.X p i

/-- The sizes of the samples do not change. -/
def Sized (e : SeedBO S) (z : Sizes) : Prop :=
  ∀ gs t, sizes (e.eval gs t) = z

theorem seededNext_drawn (e : SeedBO S) {z : Sizes} (hsz : Sized e z) (hev : Steady e.ev e.deDup z) (s : S) (gs : List S)
    (t : BOState) (p i : Option Mat) :
    (seededNext e.gen e.fuel (e.eval gs t) e.ev e.bo.sp t.context e.deDup t.X p i s).1 = e.drawn s gs t p i := by
  unfold SeedBO.drawn
  cases hc : contextManager e.bo.sp t.context with
  | error er => simp [seededNext, hc]
  | ok ctx => exact (C166_suggestion_partial e.gen e.fuel (e.eval gs t) e.ev e.deDup ((hsz gs t).symm ▸ hev) e.bo.sp t.context t.X p i
      s ctx hc).1

/-- What the fit at acquisition `k` takes from the generator: nothing unless `k` is a multiple of the update interval. -/
def restarts (e : SeedBO S) (k : Nat) (s : S) : S := if e.bo.interval ∣ (k : Int) then e.fitDraw s else s

theorem afterFit_eq (e : SeedBO S) (k : Nat) (s : S) : e.afterFit k s = restarts e k s := by
  unfold SeedBO.afterFit restarts
  simp only [Int.dvd_iff_emod_eq_zero]

/-- The components of an object without a generator: in state `t`, `G t` is the state of the generator that the round starts in,
and `Gs t` those in which the earlier fits were started. -/
def _root_.GPyOpt.SeedBO.envOf (e : SeedBO S) (G : BOState → S) (Gs : BOState → List S) : BOEnv :=
  { e.bo with
    fit := fun t => e.fit (G t) t
    params := fun t => e.params (e.gensAfter t.numAcq (G t) (Gs t)) t
    suggest := fun t p i => e.drawn (restarts e t.numAcq (G t)) (e.gensAfter t.numAcq (G t) (Gs t)) t p i }

theorem seededBOLoop_sim (e : SeedBO S) (env : BOEnv) (obj : Nat → Vec → Py ℚ) (mi mt : Limit) (eps : ℚ) (I : SeedState S → Prop)
    (J : BOState → Stop → S → Prop)
    (hround : ∀ t, I t → boRound (e.envAt t.gen t.fitGens) obj mi mt eps t.st = boRound env obj mi mt eps t.st)
    (hnext : ∀ t s', I t → boRound (e.envAt t.gen t.fitGens) obj mi mt eps t.st = .next s' →
      I ⟨s', e.afterSuggest t.gen t.fitGens (updateModel (e.envAt t.gen t.fitGens) t.st).1 none none,
        e.gensAfter t.st.numAcq t.gen t.fitGens⟩)
    (hstop : ∀ t s' why, I t → boRound (e.envAt t.gen t.fitGens) obj mi mt eps t.st = .stop s' why →
      J s' why (if why = .time then t.gen else e.afterFit t.st.numAcq t.gen))
    (fuel : Nat) (t : SeedState S) (ht : I t) :
    let r := seededBOLoop e obj mi mt eps fuel t
    (r.1.st, r.2) = boLoop env obj mi mt eps fuel t.st ∧ ∀ why, r.2 = .done why → J r.1.st why r.1.gen := by
  induction fuel generalizing t with
  | zero => exact ⟨rfl, fun why h => by simp [seededBOLoop] at h⟩
  | succ fuel ih =>
    intro r
    simp only [r]
    unfold seededBOLoop boLoop
    rw [← hround t ht]
    cases hr : boRound (e.envAt t.gen t.fitGens) obj mi mt eps t.st with
    | next s' => exact ih _ (hnext t s' ht hr)
    | raised s' er => exact ⟨rfl, fun why h => by simp at h⟩
    | stop s' why =>
      have := hstop t s' why ht hr
      cases why with
      | time =>
        refine ⟨rfl, fun why h => ?_⟩
        injection h with h
        subst h
        exact this
      | fit =>
        refine ⟨rfl, fun why h => ?_⟩
        injection h with h
        subst h
        exact this
      | limit =>
        refine ⟨rfl, fun why h => ?_⟩
        injection h with h
        subst h
        exact this

/-- State of the generator after a fit and a suggestion at acquisition `k`. -/
def nextGen (e : SeedBO S) (ctx : Ctx) (z : Sizes) (k : Nat) (s : S) : S :=
  (usage e.gen e.fuel e.bo.sp ctx z e.ev e.deDup (restarts e k s)).after

/-- State of the generator at the start of acquisition `k`. -/
def genAt (e : SeedBO S) (ctx : Ctx) (z : Sizes) (s : S) : Nat → S
  | 0 => s
  | k + 1 => nextGen e ctx z k (genAt e ctx z s k)

/-- The states in which the fits before acquisition `k` were started. -/
def gensAt (e : SeedBO S) (ctx : Ctx) (z : Sizes) (s : S) (gs : List S) : Nat → List S
  | 0 => gs
  | k + 1 => e.gensAfter k (genAt e ctx z s k) (gensAt e ctx z s gs k)

theorem afterSuggest_eq {e : SeedBO S} {z : Sizes} (hev : Steady e.ev e.deDup z) (hsz : Sized e z) {ctx : Ctx} {s : S} {gs : List S}
    {t : BOState} (hctx : contextManager e.bo.sp t.context = .ok ctx) {m : Mat}
    (h : (e.envAt s gs).suggest t none none = .ok m) :
    e.afterSuggest s gs t none none = nextGen e ctx z t.numAcq s := by
  have hz := hsz (e.gensAfter t.numAcq s gs) t
  have := (C166_suggestion_partial e.gen e.fuel (e.eval (e.gensAfter t.numAcq s gs) t) e.ev e.deDup (hz.symm ▸ hev) e.bo.sp
    t.context t.X none none (e.afterFit t.numAcq s) ctx hctx).2 m h
  rw [hz] at this
  rw [nextGen, ← afterFit_eq]
  exact this

/-- the start of a run does not use the generator -/
theorem seededRun_sim (e : SeedBO S) (env : BOEnv) (a : RunArgs) (fuel : Nat) (t : SeedState S)
    (hobj : env.obj = e.bo.obj) (hst : ∀ obj s, runStart env obj a s = runStart e.bo obj a s) (J : BOState → Stop → S → Prop)
    (hJ : ∀ s why x r, J s why x → J { s with results := r } why x)
    (hloop : ∀ obj s0, e.bo.obj = some obj → runStart e.bo obj a t.st = (s0, .ok ()) →
      let r := seededBOLoop e obj a.limits.1 a.limits.2 a.eps fuel { t with st := s0 }
      (r.1.st, r.2) = boLoop env obj a.limits.1 a.limits.2 a.eps fuel s0 ∧ ∀ why, r.2 = .done why → J r.1.st why r.1.gen) :
    let r := seededRun e a fuel t
    (r.1.st, r.2) = runOptimization env a fuel t.st ∧ ∀ why, r.2 = .done why → J r.1.st why r.1.gen := by
  intro r
  simp only [r]
  unfold seededRun runOptimization
  rw [hobj]
  cases ho : e.bo.obj with
  | none => exact ⟨rfl, fun why h => by simp at h⟩
  | some obj =>
    dsimp only
    rw [hst]
    rcases hs : runStart e.bo obj a t.st with ⟨s0, q⟩
    cases q with
    | error er => exact ⟨rfl, fun why h => by simp at h⟩
    | ok u =>
      dsimp only
      obtain ⟨h1, h2⟩ := hloop obj s0 ho hs
      rw [← h1]
      rcases hr : seededBOLoop e obj a.limits.1 a.limits.2 a.eps fuel { t with st := s0 } with ⟨t2, q⟩
      rw [hr] at h2
      cases q with
      | running => exact ⟨rfl, fun why h => by simp at h⟩
      | raised er => exact ⟨rfl, fun why h => by simp at h⟩
      | done why =>
        dsimp only
        cases hY : t2.st.Y with
        | none => exact ⟨rfl, fun why h => by simp at h⟩
        | some Y =>
          dsimp only
          cases hc : computeResults t2.st.X Y with
          | error er => exact ⟨rfl, fun why h => by simp at h⟩
          | ok res =>
            refine ⟨rfl, fun why' h => ?_⟩
            injection h with h
            subst h
            have := hJ t2.st why t2.gen (some res) (h2 _ rfl)
            simp only [hY] at this
            exact this

/-- **C166 (runs; partial: not for Thompson sampling with de-duplication).** A run that draws from a generator
is a run with random numbers that are given for every acquisition in advance: those of the states `genAt`, which depend on the seed and on the space, the context, the
sizes and the evaluator, but not on the objective, the data, the model or the acquisition. At the end the generator is in the
state of the last acquisition, after the fit if there was one. -/
theorem C166_run_partial (e : SeedBO S) (z : Sizes) (hev : Steady e.ev e.deDup z) (hsz : Sized e z) (a : RunArgs) (ctx : Ctx)
    (hctx : contextManager e.bo.sp a.context = .ok ctx) (fuel : Nat) (t : SeedState S) :
    let G := genAt e ctx z t.gen
    let Gs := gensAt e ctx z t.gen t.fitGens
    let r := seededRun e a fuel t
    let q := runOptimization (e.envOf (fun s => G s.numAcq) (fun s => Gs s.numAcq)) a fuel t.st
    (r.1.st, r.2) = q ∧
      ∀ why, r.2 = .done why → r.1.gen = if why = .time then G r.1.st.numAcq else restarts e r.1.st.numAcq (G r.1.st.numAcq) := by
  intro G Gs
  refine seededRun_sim e (e.envOf (fun s => G s.numAcq) (fun s => Gs s.numAcq)) a fuel t rfl (fun _ _ => rfl)
    (fun s why x => x = if why = .time then G s.numAcq else restarts e s.numAcq (G s.numAcq)) (fun _ _ _ _ h => h) ?_
  intro obj s0 ho hs
  have hst := runStart_ok hs
  refine seededBOLoop_sim e _ obj _ _ _
    (fun t => t.gen = G t.st.numAcq ∧ t.fitGens = Gs t.st.numAcq ∧ t.st.context = a.context)
    (fun s why x => x = if why = .time then G s.numAcq else restarts e s.numAcq (G s.numAcq)) ?_ ?_ ?_ fuel { t with st := s0 }
    ⟨?_, ?_, hst.context⟩
  · rintro t ⟨h1, h2, h3⟩
    refine (boRound_agree e.bo obj _ _ _ t.st ?_ ?_ ?_).2
    · rw [h1]
    · intro u hu
      simp only [hu.numAcq, h1, h2]
    · intro u hu
      simp only [hu.numAcq, ← h1, ← h2, ← afterFit_eq]
      exact seededNext_drawn e hsz hev _ _ u none none
  · rintro t s' ⟨h1, h2, h3⟩ hr
    obtain ⟨m, ys, hsp⟩ := boRound_next hr
    have hu := updateModel_sameAt (e.envAt t.gen t.fitGens) t.st
    have hc' : contextManager e.bo.sp (updateModel (e.envAt t.gen t.fitGens) t.st).1.context = .ok ctx := by
      rw [hu.context, h3]
      exact hctx
    refine ⟨?_, ?_, hsp.context.trans h3⟩
    · show e.afterSuggest _ _ _ _ _ = _
      rw [afterSuggest_eq hev hsz hc' hsp.suggested, hsp.numAcq, hu.numAcq, h1]
      rfl
    · show e.gensAfter _ _ _ = _
      rw [hsp.numAcq, h1, h2]
      rfl
  · rintro t s' why ⟨h1, h2, h3⟩ hr
    obtain ⟨ps, fs, hfr⟩ := (boRound_stop hr).frame
    rw [hfr]
    simp only [h1, afterFit_eq]
  · show t.gen = G s0.numAcq
    rw [hst.numAcq]
    rfl
  · show t.fitGens = Gs s0.numAcq
    rw [hst.numAcq]
    rfl

/-- Two objects draw alike: they may differ in the objective, the data, the model, the acquisition and everything else. -/
structure DrawAlike (e e' : SeedBO S) : Prop where
  gen : e.gen = e'.gen
  fuel : e.fuel = e'.fuel
  sp : e.bo.sp = e'.bo.sp
  ev : e.ev = e'.ev
  deDup : e.deDup = e'.deDup
  interval : e.bo.interval = e'.bo.interval
  fitDraw : e.fitDraw = e'.fitDraw

theorem genAt_alike {e e' : SeedBO S} (h : DrawAlike e e') (ctx : Ctx) (z : Sizes) (s : S) (k : Nat) :
    genAt e ctx z s k = genAt e' ctx z s k := by
  induction k with
  | zero => rfl
  | succ k ih =>
    simp only [genAt, nextGen, restarts, h.gen, h.fuel, h.sp, h.ev, h.deDup, h.interval, h.fitDraw, ih]

/-- **C166 (common random numbers; partial: not for Thompson sampling with de-duplication).** Two runs with the same
seed, whose objects may differ in objective, initial data, model and acquisition, start every acquisition in the same state of the generator, and if they end for
want of iterations after the same number of acquisitions they leave it in the same state: what follows draws the same numbers. -/
theorem C166_common_partial (e e' : SeedBO S) (h : DrawAlike e e') (z : Sizes) (hev : Steady e.ev e.deDup z) (hsz : Sized e z)
    (hsz' : Sized e' z) (a a' : RunArgs) (hc : a.context = a'.context) (ctx : Ctx)
    (hctx : contextManager e.bo.sp a.context = .ok ctx) (fuel fuel' : Nat) (t t' : SeedState S) (hg : t.gen = t'.gen)
    (hr : (seededRun e a fuel t).2 = .done .limit) (hr' : (seededRun e' a' fuel' t').2 = .done .limit)
    (hn : (seededRun e a fuel t).1.st.numAcq = (seededRun e' a' fuel' t').1.st.numAcq) :
    (∀ k, genAt e ctx z t.gen k = genAt e' ctx z t'.gen k) ∧
      (seededRun e a fuel t).1.gen = (seededRun e' a' fuel' t').1.gen := by
  have hk : ∀ k, genAt e ctx z t.gen k = genAt e' ctx z t'.gen k := fun k => hg ▸ genAt_alike h ctx z t.gen k
  refine ⟨hk, ?_⟩
  have h1 := (C166_run_partial e z hev hsz a ctx hctx fuel t).2 _ hr
  have h2 := (C166_run_partial e' z (h.ev ▸ h.deDup ▸ hev) hsz' a' ctx (by rw [← h.sp, ← hc]; exact hctx) fuel' t').2 _ hr'
  rw [h1, h2, if_neg (by simp), if_neg (by simp), hn, hk]
  simp only [restarts, h.interval, h.fitDraw]

/-! ## Runs in parts -/

/-- Fits do not draw, and the components depend on the data only. -/
structure StepWise (e : SeedBO S) : Prop where
  fitDraw : ∀ s, e.fitDraw s = s
  fit : ∃ φ : Mat → Vec → Py Unit, ∀ s t X Y, e.fit s t X Y = φ X Y
  params : ∃ π : BOState → Vec, ∀ gs t, e.params gs t = .ok (π t)
  eval : ∃ φ : Option Context → Mat → Option Vec → SeedEval, ∀ gs t, e.eval gs t = φ t.context t.X t.Y

theorem afterFit_id {e : SeedBO S} (h : ∀ s, e.fitDraw s = s) (k : Nat) (s : S) : e.afterFit k s = s := by
  unfold SeedBO.afterFit
  split_ifs
  · exact h s
  · rfl

theorem restarts_id {e : SeedBO S} (h : ∀ s, e.fitDraw s = s) (k : Nat) (s : S) : restarts e k s = s := by
  rw [← afterFit_eq]
  exact afterFit_id h k s

theorem zipInputs_count {sp : Space} {b m : Mat} (hb : b ≠ []) (hz : sp.zipInputs b = .ok m) : m.length = b.length := by
  unfold Space.zipInputs at hz
  split_ifs at hz
  · simp only [Except.ok.injEq] at hz
    rw [← hz]
  · obtain ⟨m0, g1, rfl⟩ := Except_map_eq_ok.1 hz
    have := mapE_length g1
    cases m0 with
    | nil => exact absurd (List.length_eq_zero_iff.1 this.symm) hb
    | cons r m0 => exact this

theorem computeNext_one {env : EvalEnv} {sp : Space} {c : Option Context} {d : Bool} {X : Mat} {p i : Option Mat} {m : Mat}
    (h : computeNext .sequential env sp c d X p i = .ok m) : m.length = 1 := by
  obtain ⟨ctx, b, -, hb, hz⟩ := computeNext_cases h
  have h1 : b.length = 1 := by
    simp only [computeBatch, sequentialBatch] at hb
    cases ho : acqOptimize sp ctx (if d then some (dupMgr X p i) else none) env.op env.oracle.acq env.f with
    | error er => simp [ho] at hb
    | ok x =>
      simp only [ho, Except.ok.injEq] at hb
      rw [← hb]
      rfl
  rw [zipInputs_count (by rintro rfl; simp at h1) hz, h1]

theorem lpLoop_count {optimize : Nat → LPState → Py Vec} {c : ℚ × ℚ} : ∀ {todo k : Nat} {batch : Mat} {s : LPState}
    {tr : List LPState} {r : Mat × LPState × List LPState}, lpLoop optimize c todo k batch s tr = .ok r →
      r.1.length = batch.length + todo := by
  intro todo
  induction todo with
  | zero =>
    intro k batch s tr r h
    simp only [lpLoop, Except.ok.injEq] at h
    rw [← h]
    rfl
  | succ todo ih =>
    intro k batch s tr r h
    simp only [lpLoop] at h
    cases ho : optimize k (s.update (some batch) (some c)) with
    | error er => simp [ho] at h
    | ok x =>
      simp only [ho] at h
      rw [ih h, List.length_append, List.length_singleton]
      omega

/-- A batch by local penalization has the size that was asked for. -/
theorem computeNext_penalized {n : Nat} (hn : 0 < n) {env : EvalEnv} {sp : Space} {c : Option Context} {d : Bool} {X : Mat}
    {p i : Option Mat} {m : Mat} (h : computeNext (.localPenalization n) env sp c d X p i = .ok m) : m.length = n := by
  obtain ⟨ctx, b, -, hb, hz⟩ := computeNext_cases h
  have h1 : b.length = n := by
    simp only [computeBatch] at hb
    obtain ⟨r, hr, rfl⟩ := Except_map_eq_ok.1 hb
    unfold lpBatch at hr
    simp only at hr
    split at hr
    · cases hr
    · split_ifs at hr with h2
      · split at hr
        · cases hr
        · split at hr
          · cases hr
          · rename_i hl
            have := lpLoop_count hl
            simp only [Except.ok.injEq] at hr
            rw [← hr]
            simp only [List.length_singleton] at this ⊢
            omega
      · simp only [Except.ok.injEq] at hr
        rw [← hr]
        simp only [List.length_singleton]
        omega
  rw [zipInputs_count (by rintro rfl; simp at h1; omega) hz, h1]

theorem anchorPoints_count {sp : Space} {ctx : Option Ctx} {n k : Nat} (hn : 0 < n) {o : DesignOracle}
    {score : Mat → Py (List ℚ)} (hs : ScoreShape score) {argsort : List ℚ → List Nat} (ha : ∀ s, (argsort s).length = s.length)
    {A : Mat} (h : anchorPoints sp ctx none false "random" n k o score argsort = .ok A) : A.length = min n k := by
  unfold anchorPoints at h
  cases hA : anchorSamples sp ctx false "random" n o with
  | error er => simp [hA] at h
  | ok X =>
    have hl := anchorSamples_random_length hn hA
    simp only [hA] at h
    cases hf : mapE (isDup none sp) X with
    | error er => simp [hf] at h
    | ok flags =>
      simp only [hf, nonDuplicates_none hf] at h
      split_ifs at h
      cases hsc : score X with
      | error er => simp [hsc] at h
      | ok sc =>
        simp only [hsc] at h
        have h1 := hs _ _ hsc
        rw [mapE_length h, List.length_take, ha, h1, hl]
        omega

/-- A random batch without de-duplication has the size that was asked for, unless there are fewer samples. -/
theorem computeNext_random {n : Nat} {env : EvalEnv} (hn : 0 < env.numSamplesRandom)
    (ha : ∀ s, (env.oracle.batch.argsort s).length = s.length) {sp : Space} {c : Option Context} {X : Mat}
    {p i : Option Mat} {m : Mat} (h : computeNext (.random n) env sp c false X p i = .ok m) :
    m.length = 1 + min (n - 1) env.numSamplesRandom := by
  obtain ⟨ctx, b, -, hb, hz⟩ := computeNext_cases h
  have h1 : b.length = 1 + min (n - 1) env.numSamplesRandom := by
    simp only [computeBatch, randomBatch, Bool.false_eq_true, if_false] at hb
    split at hb
    · cases hb
    · split at hb
      · cases hb
      · rename_i as has
        have := anchorPoints_count hn randomScores_shape ha has
        simp only [Except.ok.injEq] at hb
        rw [← hb, List.length_cons, List.length_take, this]
        omega
  rw [zipInputs_count (by rintro rfl; simp at h1; omega) hz, h1]

/-- A batch by Thompson sampling without de-duplication has the size that was asked for, unless there are fewer samples. -/
theorem computeNext_thompson {n : Nat} {env : EvalEnv} (hn : 0 < env.numSamplesThompson)
    (ha : ∀ s, (env.oracle.batch.argsort s).length = s.length) (ht : ScoreShape env.oracle.batch.thompson) {sp : Space}
    {c : Option Context} {X : Mat} {p i : Option Mat} {m : Mat}
    (h : computeNext (.thompson n) env sp c false X p i = .ok m) : m.length = min n env.numSamplesThompson := by
  obtain ⟨ctx, b, -, hb, hz⟩ := computeNext_cases h
  have h1 : b ≠ [] ∧ b.length = min n env.numSamplesThompson := by
    simp only [computeBatch, thompsonBatch, Bool.false_eq_true, if_false] at hb
    split at hb
    · cases hb
    · rename_i as has
      have := anchorPoints_count hn ht ha has
      split at hb
      · cases hb
      · rename_i b' hb'
        unfold vstack at hb
        split_ifs at hb with hne
        simp only [Except.ok.injEq] at hb
        subst hb
        refine ⟨hne, ?_⟩
        rw [mapE_length hb', List.length_take, List.length_zipIdx, this]
        omega
  rw [zipInputs_count h1.1 hz, h1.2]

/-- Every suggestion has `b` locations. -/
def BatchesOf (e : SeedBO S) (b : Nat) : Prop :=
  0 < b ∧ ∀ s gs t m, (e.envAt s gs).suggest t none none = .ok m → m.length = b

/-- the run of a stepwise object is a run whose components depend on the data only: the position in the sequence of random
numbers is given by the number of locations -/
theorem stepRun (e : SeedBO S) {b : Nat} (hbt : BatchesOf e b) (hw : StepWise e) (z : Sizes) (hsz : Sized e z) (hnt : Steady e.ev e.deDup z) (a : RunArgs)
    (ctx : Ctx) (hctx : contextManager e.bo.sp a.context = .ok ctx) (g0 : S) (gs0 : List S) (N : Nat) (fuel : Nat) (t : SeedState S)
    (hN : ∃ k, t.st.X.length = N + k * b) (hg : t.gen = genAt e ctx z g0 ((t.st.X.length - N) / b)) :
    let G := fun s : BOState => genAt e ctx z g0 ((s.X.length - N) / b)
    let r := seededRun e a fuel t
    (r.1.st, r.2) = runOptimization (e.envOf G (fun _ => gs0)) a fuel t.st ∧
      ∀ why, r.2 = .done why → (∃ k, r.1.st.X.length = N + k * b) ∧ r.1.gen = G r.1.st := by
  intro G
  obtain ⟨φ, hφ⟩ := hw.eval
  obtain ⟨ψ, hψ⟩ := hw.fit
  obtain ⟨π, hπ⟩ := hw.params
  have hpar : ∀ gs gs' t, e.params gs t = e.params gs' t := fun gs gs' t => by rw [hπ, hπ]
  refine seededRun_sim e (e.envOf G (fun _ => gs0)) a fuel t rfl (fun _ _ => rfl)
    (fun s _ x => (∃ k, s.X.length = N + k * b) ∧ x = G s) (fun _ _ _ _ h => h) ?_
  intro obj s0 ho hs
  have hst := runStart_ok hs
  refine seededBOLoop_sim e _ obj _ _ _
    (fun t => (∃ k, t.st.X.length = N + k * b) ∧ t.gen = G t.st ∧ t.st.context = a.context) (fun s _ x => (∃ k, s.X.length = N + k * b) ∧ x = G s) ?_ ?_ ?_ fuel
    { t with st := s0 } ⟨by simpa only [hst.X] using hN, ?_, hst.context⟩
  · rintro t ⟨-, h1, h3⟩
    refine (boRound_agree e.bo obj _ _ _ t.st ?_ ?_ ?_).2
    · funext X Y
      rw [hψ, hψ]
    · intro u hu
      have hG : G u = t.gen := by
        rw [h1]
        simp only [G, hu.X]
      simp only [hG]
      exact hpar _ _ _
    · intro u hu
      have hG : G u = t.gen := by
        rw [h1]
        simp only [G, hu.X]
      rw [seededNext_drawn e hsz hnt]
      simp only [SeedBO.drawn, hφ, hG, afterFit_id hw.fitDraw, restarts_id hw.fitDraw]
  · rintro t s' ⟨h0, h1, h3⟩ hr
    obtain ⟨m, ys, hsp⟩ := boRound_next hr
    have hu := updateModel_sameAt (e.envAt t.gen t.fitGens) t.st
    have hc' : contextManager e.bo.sp (updateModel (e.envAt t.gen t.fitGens) t.st).1.context = .ok ctx := by
      rw [hu.context, h3]
      exact hctx
    have hm : m.length = b := hbt.2 _ _ _ _ hsp.suggested
    obtain ⟨j, hj⟩ := h0
    refine ⟨⟨j + 1, ?_⟩, ?_, hsp.context.trans h3⟩
    · show s'.X.length = N + (j + 1) * b
      rw [hsp.X, List.length_append, hm, hj]
      ring
    · show e.afterSuggest _ _ _ _ _ = G s'
      rw [afterSuggest_eq hnt hsz hc' hsp.suggested]
      simp only [G, hsp.X, List.length_append, hm]
      rw [show t.st.X.length + b - N = (t.st.X.length - N) + b by omega, Nat.add_div_right _ hbt.1]
      show _ = nextGen e ctx z _ _
      simp only [nextGen, restarts_id hw.fitDraw, h1, G]
  · rintro t s' why ⟨h0, h1, h3⟩ hr
    obtain ⟨ps, fs, hfr⟩ := (boRound_stop hr).frame
    rw [hfr, afterFit_id hw.fitDraw, ite_self]
    exact ⟨h0, h1⟩
  · show t.gen = G s0
    simp only [G, hst.X]
    exact hg

theorem envOf_dataOnly {e : SeedBO S} (hw : StepWise e) (F : Nat → S) (gs0 : List S) :
    DataOnly (e.envOf (fun s => F s.X.length) (fun _ => gs0)) := by
  obtain ⟨φ, hφ⟩ := hw.eval
  obtain ⟨ψ, hψ⟩ := hw.fit
  refine ⟨⟨ψ, fun s X Y => hψ _ s X Y⟩, fun s => ⟨hw.params.choose s, hw.params.choose_spec _ s⟩, ?_⟩
  refine ⟨fun c X Y p i => match contextManager e.bo.sp c with
    | .error er => .error er
    | .ok ctx => computeNext e.ev (drawnEnv e.gen e.fuel e.bo.sp ctx e.ev (φ c X Y)
        (usage e.gen e.fuel e.bo.sp ctx (sizes (φ c X Y)) e.ev e.deDup
          (F X.length))) e.bo.sp c e.deDup X p i, fun s p i => ?_⟩
  simp only [SeedBO.envOf, SeedBO.drawn, hφ, restarts_id hw.fitDraw]

/-- **C166 (runs in parts; partial: batches of one size, the model is refitted in every iteration by fits that do not draw, and
suggestions depend on the data and the generator only).** With one seed, `n` iterations followed by `m` iterations give the data,
the evaluations and the results of `n + m` iterations, and leave the generator in the same state. -/
theorem C166_stepwise_partial (e : SeedBO S) (b : Nat) (hbt : BatchesOf e b) (hw : StepWise e) (z : Sizes) (hsz : Sized e z)
    (hnt : Steady e.ev e.deDup z)
    (hI : e.bo.interval = 1) (n m : Nat) (eps : ℚ) (c : Option Context) (ctx : Ctx)
    (hctx : contextManager e.bo.sp c = .ok ctx) (fuel1 fuel2 : Nat) (t t1 t2 : SeedState S) (w1 w2 : Stop)
    (hk : t.st.cost.kind ≠ .evaluationTime)
    (h1 : seededRun e { maxIter := some (.fin n), eps := eps, context := c } fuel1 t = (t1, .done w1))
    (h2 : seededRun e { maxIter := some (.fin m), eps := eps, context := c } fuel2 t1 = (t2, .done w2)) :
    ∃ u, seededRun e { maxIter := some (.fin (n + m : Nat)), eps := eps, context := c } (fuel1 + fuel2) t = (u, .done w2) ∧
      u.st.X = t2.st.X ∧ u.st.Y = t2.st.Y ∧ u.st.world.calls = t2.st.world.calls ∧ u.st.results = t2.st.results ∧
      u.gen = t2.gen := by
  have hrun := fun (a : RunArgs) (ha : a.context = c) => stepRun e hbt hw z hsz hnt a ctx (ha ▸ hctx) t.gen [] t.st.X.length
  have g0 : t.gen = genAt e ctx z t.gen ((t.st.X.length - t.st.X.length) / b) := by
    rw [Nat.sub_self, Nat.zero_div]
    rfl
  obtain ⟨a1, a2⟩ := hrun { maxIter := some (.fin n), eps := eps, context := c } rfl fuel1 t ⟨0, by simp⟩ g0
  rw [h1] at a1 a2
  obtain ⟨b1, b2⟩ := a2 w1 rfl
  obtain ⟨c1, c2⟩ := hrun { maxIter := some (.fin m), eps := eps, context := c } rfl fuel2 t1 b1 b2
  rw [h2] at c1 c2
  obtain ⟨d1, d2⟩ := c2 w2 rfl
  obtain ⟨s, r1, r2, r3, r4, r5⟩ := C45_stepwise_run _
    (envOf_dataOnly hw (fun k => genAt e ctx z t.gen ((k - t.st.X.length) / b)) []) hI n m eps c fuel1 fuel2 t.st t1.st t2.st w1 w2 hk
    a1.symm c1.symm
  obtain ⟨f1, f2⟩ := hrun { maxIter := some (.fin (n + m : Nat)), eps := eps, context := c } rfl (fuel1 + fuel2) t ⟨0, by simp⟩ g0
  have f1' := f1.trans r1
  rcases hu : seededRun e { maxIter := some (.fin (n + m : Nat)), eps := eps, context := c } (fuel1 + fuel2) t with ⟨u, q⟩
  rw [hu] at f1' f2
  simp only [Prod.mk.injEq] at f1'
  obtain ⟨rfl, rfl⟩ := f1'
  refine ⟨u, rfl, r2, r3, r4, r5, ?_⟩
  rw [(f2 w2 rfl).2, d2]
  simp only [r2]

/-- The sequential evaluator suggests one location. -/
theorem batches_sequential (e : SeedBO S) (h : e.ev = .sequential) (z : Sizes) (hsz : Sized e z) : BatchesOf e 1 := by
  refine ⟨one_pos, fun s gs t m hm => ?_⟩
  have hnt : Steady e.ev e.deDup z := by
    intro n h'
    rw [h] at h'
    cases h'
  have h' : e.drawn _ _ t none none = .ok m := (seededNext_drawn e hsz hnt _ _ t none none).symm.trans hm
  simp only [SeedBO.drawn] at h'
  split at h'
  · cases h'
  · rw [h] at h'
    exact computeNext_one h'

/-- Local penalization suggests batches of one size. -/
theorem batches_penalized (e : SeedBO S) {n : Nat} (hn : 0 < n) (h : e.ev = .localPenalization n) (z : Sizes) (hsz : Sized e z) :
    BatchesOf e n := by
  refine ⟨hn, fun s gs t m hm => ?_⟩
  have hnt : Steady e.ev e.deDup z := by
    intro n h'
    rw [h] at h'
    cases h'
  have h' : e.drawn _ _ t none none = .ok m := (seededNext_drawn e hsz hnt _ _ t none none).symm.trans hm
  simp only [SeedBO.drawn] at h'
  split at h'
  · cases h'
  · rw [h] at h'
    exact computeNext_penalized hn h'

/-- What sorts the scores returns all positions, and Thompson sampling scores all locations. -/
def Scores (e : SeedBO S) : Prop :=
  ∀ gs t, (∀ s, ((e.eval gs t).env.oracle.batch.argsort s).length = s.length) ∧ ∀ x, ScoreShape ((e.eval gs t).normals x)

theorem anchorOracle_argsort (g : Gen S) (fuel : Nat) (sp : Space) (ctx : Ctx) (n : Nat) (s : S) (o : AcqOracle) :
    (anchorOracle g fuel sp ctx n s o).argsort = o.argsort := by
  unfold anchorOracle
  split <;> rfl

/-- Random batches without de-duplication have one size. -/
theorem batches_random (e : SeedBO S) {n : Nat} (h : e.ev = .random n) (hd : e.deDup = false) (z : Sizes) (hz : 0 < z.nr)
    (hsz : Sized e z) (hsc : Scores e) : BatchesOf e (1 + min (n - 1) z.nr) := by
  refine ⟨by omega, fun s gs t m hm => ?_⟩
  have hnt : Steady e.ev e.deDup z := by
    intro n h'
    rw [h] at h'
    cases h'
  have h' : e.drawn _ _ t none none = .ok m := (seededNext_drawn e hsz hnt _ _ t none none).symm.trans hm
  simp only [SeedBO.drawn] at h'
  split at h'
  · cases h'
  · rw [h, hd] at h'
    have hr : ∀ gs t, (e.eval gs t).env.numSamplesRandom = z.nr := fun gs t => congrArg Sizes.nr (hsz gs t)
    have := computeNext_random (by simpa only [drawnEnv, hr] using hz) (by
      simp only [drawnEnv, anchorOracle_argsort]
      exact (hsc _ _).1) h'
    simpa only [drawnEnv, hr] using this

/-- Batches by Thompson sampling without de-duplication have one size. -/
theorem batches_thompson (e : SeedBO S) {n : Nat} (hn : 0 < n) (h : e.ev = .thompson n) (hd : e.deDup = false) (z : Sizes)
    (hz : 0 < z.nt) (hsz : Sized e z) (hsc : Scores e) : BatchesOf e (min n z.nt) := by
  refine ⟨by omega, fun s gs t m hm => ?_⟩
  have hnt : Steady e.ev e.deDup z := fun _ _ => ⟨hd, hz⟩
  have h' : e.drawn _ _ t none none = .ok m := (seededNext_drawn e hsz hnt _ _ t none none).symm.trans hm
  simp only [SeedBO.drawn] at h'
  split at h'
  · cases h'
  · rw [h, hd] at h'
    have hr : ∀ gs t, (e.eval gs t).env.numSamplesThompson = z.nt := fun gs t => congrArg Sizes.nt (hsz gs t)
    have := computeNext_thompson (by simpa only [drawnEnv, hr] using hz) (by
      simp only [drawnEnv, anchorOracle_argsort]
      exact (hsc _ _).1) (by
      simp only [drawnEnv]
      exact (hsc _ _).2 _) h'
    simpa only [drawnEnv, hr] using this

/-- **C166 (runs in parts; partial: as `C166_stepwise_partial`).** Batches have one size, and runs can be split, for the
sequential evaluator and local penalization, and without de-duplication also for random batches and Thompson sampling. -/
theorem C166_evaluators_partial (e : SeedBO S) (z : Sizes)
    (hev : e.ev = .sequential ∨ (∃ b, 0 < b ∧ e.ev = .localPenalization b) ∨
      (e.deDup = false ∧ Scores e ∧ ((∃ b, e.ev = .random b ∧ 0 < z.nr) ∨ ∃ b, 0 < b ∧ e.ev = .thompson b ∧ 0 < z.nt)))
    (hw : StepWise e) (hsz : Sized e z)
    (hI : e.bo.interval = 1) (n m : Nat) (eps : ℚ) (c : Option Context) (ctx : Ctx)
    (hctx : contextManager e.bo.sp c = .ok ctx) (fuel1 fuel2 : Nat) (t t1 t2 : SeedState S) (w1 w2 : Stop)
    (hk : t.st.cost.kind ≠ .evaluationTime)
    (h1 : seededRun e { maxIter := some (.fin n), eps := eps, context := c } fuel1 t = (t1, .done w1))
    (h2 : seededRun e { maxIter := some (.fin m), eps := eps, context := c } fuel2 t1 = (t2, .done w2)) :
    ∃ u, seededRun e { maxIter := some (.fin (n + m : Nat)), eps := eps, context := c } (fuel1 + fuel2) t = (u, .done w2) ∧
      u.st.X = t2.st.X ∧ u.st.Y = t2.st.Y ∧ u.st.world.calls = t2.st.world.calls ∧ u.st.results = t2.st.results ∧
      u.gen = t2.gen := by
  have key : ∃ b, BatchesOf e b ∧ Steady e.ev e.deDup z := by
    rcases hev with h | ⟨b, hb, h⟩ | ⟨hd, hsc, ⟨b, h, hz⟩ | ⟨b, hb, h, hz⟩⟩
    · exact ⟨_, batches_sequential e h z hsz, fun n h' => by rw [h] at h'; cases h'⟩
    · exact ⟨_, batches_penalized e hb h z hsz, fun n h' => by rw [h] at h'; cases h'⟩
    · exact ⟨_, batches_random e h hd z hz hsz hsc, fun n h' => by rw [h] at h'; cases h'⟩
    · exact ⟨_, batches_thompson e hb h hd z hz hsz hsc, fun _ _ => ⟨hd, hz⟩⟩
  obtain ⟨b, hb, hnt⟩ := key
  exact C166_stepwise_partial e b hb hw z hsz hnt hI n m eps c ctx hctx fuel1 fuel2 t t1 t2 w1 w2 hk h1 h2

/-! ## Examples, and what a seed does not fix -/

/-- a generator that counts the numbers it has given -/
def exGen : Gen Nat where
  choice s k n := (fun i => (s + i) % k, s + n)
  unif s n := (fun i => (((s + i) % 10 : ℕ) : ℚ) / 10, s + n)
  normal s n := (fun i => (((s + i) % 10 : ℕ) : ℚ) / 10 - 1/2, s + n)

/-- two rows of a category, a continuous and a discrete variable: the generator ends six numbers further on -/
example : ((designSpace [{ name := some "c", type := some "categorical", domain := some (.flat [0, 1, 2]) },
        { name := some "x", domain := some (.flat [0, 1]) },
        { name := some "d", type := some "discrete", domain := some (.flat [5, 6]) }] none).map fun sp =>
      ((drawOf exGen sp 2 1).1.choice 0 1, (drawOf exGen sp 2 1).1.choice 2 1, (drawOf exGen sp 2 1).1.unif 0 1,
        (drawOf exGen sp 2 1).2)) = .ok (2, 0, 3 / 5, 7) := by decide +kernel

/-- the acquisition is the first coordinate, and the local optimizer stays where it starts -/
def exSeedEval : SeedEval where
  env := { exEnv with oracle := ⟨{ exAcq with opt := fun _ _ x => .ok x }, exAcq⟩ }
  lip := fun u => .ok (1 + u 0 0, 0)
  normals := fun z X => .ok (X.mapIdx fun i x => x.headD 0 + z i)

/-- the object of the examples; a fit takes `d` numbers -/
def exSeed (sp : Space) (ev : Evaluator) (deDup : Bool) (d : Nat) : SeedBO Nat where
  bo := { exBO sp with interval := 1 }
  gen := exGen
  fuel := 5
  ev := ev
  deDup := deDup
  eval := fun _ _ => exSeedEval
  fit := fun _ _ _ _ => .ok ()
  params := fun _ _ => .ok [0]
  fitDraw := (· + d)

/-- the state before a run with a seed -/
def exStart (seed : Nat) (X : Mat) : SeedState Nat := ⟨boInit X none .none, seed, []⟩

example (sp : Space) (ev : Evaluator) (d : Bool) (k : Nat) : Sized (exSeed sp ev d k) ⟨4, 6, 6⟩ := fun _ _ => rfl

example (sp : Space) (ev : Evaluator) (d : Bool) : StepWise (exSeed sp ev d 0) where
  fitDraw := fun _ => rfl
  fit := ⟨fun _ _ => .ok (), fun _ _ _ _ => rfl⟩
  params := ⟨fun _ => [0], fun _ _ => rfl⟩
  eval := ⟨fun _ _ _ => exSeedEval, fun _ _ => rfl⟩

example (sp : Space) (ev : Evaluator) (d : Bool) (k : Nat) (f : Nat → Vec → Py ℚ) :
    DrawAlike (exSeed sp ev d k) { exSeed sp ev d k with bo := { exBO sp with interval := 1, obj := some f } } :=
  ⟨rfl, rfl, rfl, rfl, rfl, rfl, rfl⟩

example : Steady .sequential true ⟨4, 6, 6⟩ ∧ Steady (.random 3) true ⟨4, 6, 6⟩ ∧ Steady (.localPenalization 2) true ⟨4, 6, 6⟩ ∧
    Steady (.thompson 2) false ⟨4, 6, 6⟩ :=
  ⟨fun _ h => by simp at h, fun _ h => by simp at h, fun _ h => by simp at h, fun _ _ => ⟨rfl, by decide⟩⟩

/-- a run of two iterations, in one part and in two, where fits do not draw -/
example : ((designSpace exLine none).map fun sp =>
      let e := exSeed sp .sequential false 0
      let r := seededRun e { maxIter := some (.fin 2) } 10 (exStart 3 [[1/2]])
      let q := seededRun e { maxIter := some (.fin 1) } 10
        (seededRun e { maxIter := some (.fin 1) } 10 (exStart 3 [[1/2]])).1
      ((r.2, r.1.st.X, r.1.gen), (q.2, q.1.st.X, q.1.gen)))
    = .ok ((.done .limit, [[1/2], [3/10], [0]], 11), (.done .limit, [[1/2], [3/10], [0]], 11)) := by decide +kernel

example (sp : Space) (ev : Evaluator) (d : Bool) (k : Nat) : Scores (exSeed sp ev d k) := by
  refine fun gs t => ⟨fun s => ?_, fun x X sc h => ?_⟩
  · have := (exAcq_good.argsort s).1.length_eq
    rw [List.length_range] at this
    exact this
  · simp only [exSeed, exSeedEval, Except.ok.injEq] at h
    rw [← h, List.length_mapIdx]

/-- batches of two, in one part and in two -/
example : ((designSpace exLine none).map fun sp =>
      let e := exSeed sp (.localPenalization 2) false 0
      let r := seededRun e { maxIter := some (.fin 2), eps := -1 } 10 (exStart 3 [[1/2]])
      let q := seededRun e { maxIter := some (.fin 1), eps := -1 } 10
        (seededRun e { maxIter := some (.fin 1), eps := -1 } 10 (exStart 3 [[1/2]])).1
      (r.2 == q.2, r.1.st.X == q.1.st.X, r.1.st.X.length, r.1.gen == q.1.gen))
    = .ok (true, true, 5, true) := by decide +kernel

/-- two objectives, one seed: the generator ends in the same state -/
example : ((designSpace exLine none).map fun sp =>
      let e := exSeed sp (.localPenalization 2) true 3
      let e' := { e with bo := { e.bo with obj := some fun _ x => .ok (x.headD 0 + 7) } }
      let r := seededRun e { maxIter := some (.fin 2), eps := -1 } 10 (exStart 3 [[1/2]])
      let q := seededRun e' { maxIter := some (.fin 2), eps := -1 } 10 (exStart 3 [[1/3], [2/3]])
      ((r.2, r.1.st.numAcq, r.1.gen), (q.2, q.1.st.numAcq, q.1.gen)))
    = .ok ((.done .limit, 2, 1028), (.done .limit, 2, 1028)) := by decide +kernel

/-- **C166 (fits that draw, counterexample).** With the default model, whose fits draw the starting points of their restarts, `n`
iterations followed by `m` are not `n + m` iterations, whatever the seed: the second run fits the model once more. Here one
iteration and one more, against two. -/
theorem C166_stepwise_counterexample : ((designSpace exLine none).map fun sp =>
      let e := exSeed sp .sequential false 3
      let r := seededRun e { maxIter := some (.fin 2) } 10 (exStart 3 [[1/2]])
      let q := seededRun e { maxIter := some (.fin 1) } 10
        (seededRun e { maxIter := some (.fin 1) } 10 (exStart 3 [[1/2]])).1
      ((r.2, r.1.st.X), (q.2, q.1.st.X)))
    = .ok ((.done .limit, [[1/2], [3/5], [3/10]]), (.done .limit, [[1/2], [3/5], [3/5]])) := by decide +kernel

/-- **C166 (suggestions first, counterexample).** Asking for a suggestion before a run changes the run with the same seed, although
the data are the same. -/
theorem C166_suggest_counterexample : ((designSpace exLine none).map fun sp =>
      let e := exSeed sp .sequential false 0
      let t : SeedState Nat := ⟨boInit [[1/2]] (some [1]) .none, 3, []⟩
      let r := seededRun e { maxIter := some (.fin 1) } 10 t
      let q := seededRun e { maxIter := some (.fin 1) } 10 (seededSuggest e none none none t).1
      ((r.2, r.1.st.X), (q.2, q.1.st.X)))
    = .ok ((.done .limit, [[1/2], [3/10]]), (.done .limit, [[1/2], [0]])) := by decide +kernel

/-- **C166 (Thompson sampling, counterexample).** With de-duplication, a batch by Thompson sampling draws one normal number for each
candidate that is not known: the state that it leaves the generator in depends on the data. -/
theorem C166_thompson_counterexample : ((designSpace exLine none).map fun sp =>
      let next (X : Mat) := seededNext exGen 5 exSeedEval (.thompson 2) sp none true X none none 3
      ((next [[1]]).1.toBool, (next [[1]]).2, (next [[1/2]]).1.toBool, (next [[1/2]]).2))
    = .ok (true, 15, true, 14) := by decide +kernel

end GPyOpt.Props
