import Verif.Props.NoRepeat
import Verif.Props.Search
import Verif.Props.Bandit

/-!
# C163: workers that ask and tell at different times

The objective is evaluated outside of the library by several workers. A worker that is free asks for locations: the user makes
an object on the data so far and calls `suggest_next_locations` with the locations that other workers still evaluate
(`pending_zipped_X`) and those that were given up (`ignored_zipped_X`).
-/

namespace GPyOpt.Props

open GPyOpt Spec

/-- What the user keeps: the data, the locations that are being evaluated, those that were given up, and everything that
was ever handed out. -/
structure Pool where
  X : Mat
  Y : Vec
  pending : Mat := []
  failed : Mat := []
  handed : Mat := []
  deriving DecidableEq

/-- An event: a worker asks (the object that is made, with its random numbers, and the context may be different every time), the
worker of the `k`-th pending location returns an output, or gives up. -/
inductive PoolStep
  | ask (env : BOEnv) (context : Option Context)
  | tell (k : Nat) (y : ℚ)
  | giveUp (k : Nat)

/-- The user's program. If a question raises, nothing is handed out. -/
def Pool.step (p : Pool) : PoolStep → Pool
  | .ask env context =>
    match (suggestNext env context (some p.pending) (some p.failed) (boInit p.X (some p.Y) .none)).2 with
    | .error _ => p
    | .ok m => { p with pending := p.pending ++ m, handed := p.handed ++ m }
  | .tell k y => match p.pending[k]? with
    | none => p
    | some x => { p with X := p.X ++ [x], Y := p.Y ++ [y], pending := p.pending.eraseIdx k }
  | .giveUp k => match p.pending[k]? with
    | none => p
    | some x => { p with failed := p.failed ++ [x], pending := p.pending.eraseIdx k }

/-- A schedule. -/
def Pool.run (p : Pool) (steps : List PoolStep) : Pool := steps.foldl Pool.step p

/-- The questions of a schedule use de-duplication and an evaluator that respects it; components may be anything. -/
def GoodStep (sp : Space) : PoolStep → Prop
  | .ask env context => ValidContext sp context ∧ ∃ ev envs,
      (ev = .sequential ∨ (∃ n ≥ 2, ev = .random n) ∨ (∃ n ≥ 1, ev = .thompson n)) ∧ (∀ s, GoodEnv (envs s)) ∧
      env.suggest = stdSuggest sp ev envs true
  | _ => True

/-- The suggestions of the evaluators that respect de-duplication are new locations of the domain. -/
theorem dedup_suggestions {config : List Desc} {cs : Option (List ConstrDict)} {sp : Space}
    (h : designSpace config cs = .ok sp) (hb : sp.hasBandit = false)
    (hs : ∀ k ∈ kindsOf config, Samplable k) (hvar : kindsOf config ≠ [])
    (context : Option Context) (hg : ValidContext sp context) (env : EvalEnv) (henv : GoodEnv env) (ev : Evaluator)
    (hev : ev = .sequential ∨ (∃ n ≥ 2, ev = .random n) ∨ (∃ n ≥ 1, ev = .thompson n))
    (X : Mat) (pending ignored : Option Mat) (m : Mat)
    (hm : computeNext ev env sp context true X pending ignored = .ok m) :
    m.Nodup ∧ ∀ z ∈ m, ObjDomain (kindsOf config) z ∧ Fresh X pending ignored z := by
  obtain ⟨h1, h2⟩ := C33_dedup_partial h hb hs hvar context hg env henv ev hev X pending ignored m hm
  refine ⟨h1, fun z hz => ⟨?_, h2 z hz⟩⟩
  rcases hev with rfl | ⟨n, hn, rfl⟩ | ⟨n, hn, rfl⟩
  · obtain ⟨z', rfl, hd, -⟩ := C28_sequential_partial h hb hs hvar context hg env henv.op henv.acq true X pending ignored m hm
    rw [List.mem_singleton] at hz
    exact hz ▸ hd
  · obtain ⟨-, -, -, hgood, -⟩ := C29_random_batch_partial h hb hs hvar context hg env henv n hn X pending ignored m hm
    exact (hgood z hz).1
  · obtain ⟨-, -, -, hgood, -⟩ := C30_thompson_batch_partial h hb hs hvar context hg env henv n hn X pending ignored m hm
    exact (hgood z hz).1

theorem suggestNext_suggest {env : BOEnv} {context : Option Context} {pending ignored : Option Mat} {s : BOState} {m : Mat}
    (hm : (suggestNext env context pending ignored s).2 = .ok m) :
    ∃ s2, s2.X = s.X ∧ s2.context = context ∧ env.suggest s2 pending ignored = .ok m := by
  unfold suggestNext at hm
  dsimp only at hm
  rcases hu : updateModel env { s with params := none, numAcq := 0, context := context } with ⟨s2, r⟩
  rw [hu] at hm
  obtain ⟨ps, fs, hfr⟩ := updateModel_frame hu
  cases r with
  | error e => simp at hm
  | ok u => exact ⟨s2, by rw [hfr], by rw [hfr], hm⟩

/-- What holds at every moment of a schedule. -/
structure PoolInv (D : Vec → Prop) (X0 : Mat) (p : Pool) : Prop where
  told : ∃ new, p.X = X0 ++ new ∧ p.handed.Perm (new ++ p.pending ++ p.failed)
  nodup : p.handed.Nodup
  fresh : ∀ z ∈ p.handed, z ∉ X0 ∧ D z
  aligned : p.X.length = p.Y.length

/-- The questions of a schedule are answered with new and different locations of `D`. -/
def AskFresh (D : Vec → Prop) : PoolStep → Prop
  | .ask env context => ∀ (s : BOState) (pending ignored : Option Mat) (m : Mat), s.context = context →
      env.suggest s pending ignored = .ok m → m.Nodup ∧ ∀ z ∈ m, D z ∧ Fresh s.X pending ignored z
  | _ => True

theorem pool_invariant (D : Vec → Prop) (X0 : Mat) (Y0 : Vec) (hXY : X0.length = Y0.length)
    (hz : ∀ z, D z → (∀ v ∈ z, v = 0) → z ∈ X0)
    (steps : List PoolStep) (hsteps : ∀ st ∈ steps, AskFresh D st) :
    let p := Pool.run { X := X0, Y := Y0 } steps
    p.handed.Nodup ∧ (∀ z ∈ p.handed, z ∉ X0 ∧ D z) ∧
      (∃ new, p.X = X0 ++ new ∧ p.handed.Perm (new ++ p.pending ++ p.failed)) ∧ p.X.length = p.Y.length := by
  suffices hinv : ∀ (steps : List PoolStep) (p : Pool), (∀ st ∈ steps, AskFresh D st) → PoolInv D X0 p →
      PoolInv D X0 (p.run steps) by
    have := hinv steps { X := X0, Y := Y0 } hsteps ⟨⟨[], by simp, by simp⟩, by simp, by simp, hXY⟩
    exact ⟨this.nodup, this.fresh, this.told, this.aligned⟩
  intro steps
  induction steps with
  | nil => exact fun p _ hp => hp
  | cons st steps ih =>
    intro p hst hp
    refine ih (p.step st) (fun st' h' => hst st' (List.mem_cons_of_mem _ h')) ?_
    obtain ⟨⟨new, hX, hperm⟩, hnd, hfr, hal⟩ := hp
    cases st with
    | ask env context =>
      have hask := hst _ (List.mem_cons_self ..)
      cases hm : (suggestNext env context (some p.pending) (some p.failed) (boInit p.X (some p.Y) .none)).2 with
      | error e =>
        have : p.step (.ask env context) = p := by simp [Pool.step, hm]
        rw [this]
        exact ⟨⟨new, hX, hperm⟩, hnd, hfr, hal⟩
      | ok m =>
        have e : p.step (.ask env context) = { p with pending := p.pending ++ m, handed := p.handed ++ m } := by
          simp [Pool.step, hm]
        obtain ⟨s2, hX2, hc2, hm2⟩ := suggestNext_suggest hm
        obtain ⟨hmnd, hmz⟩ := hask s2 _ _ m hc2 hm2
        rw [show s2.X = p.X from hX2] at hmz
        -- matrices of handed out locations are not zero
        have nz : ∀ A : Mat, (∀ z ∈ A, z ∈ p.handed) → ¬ AllZero (some A) := by
          rintro A hA ⟨rows, hr, hne, hzero⟩
          cases hr
          obtain ⟨r, hr⟩ := List.exists_mem_of_ne_nil _ hne
          obtain ⟨hX0, hd⟩ := hfr r (hA r hr)
          exact hX0 (hz r hd (hzero r hr))
        have hpen : ∀ z ∈ p.pending, z ∈ p.handed := fun z hz' => hperm.mem_iff.2 (by simp [hz'])
        have hfai : ∀ z ∈ p.failed, z ∈ p.handed := fun z hz' => hperm.mem_iff.2 (by simp [hz'])
        have hnew : ∀ z ∈ m, z ∉ p.handed := by
          intro z hzm hzh
          obtain ⟨f1, f2, f3⟩ := (hmz z hzm).2
          have := hperm.mem_iff.1 hzh
          simp only [List.mem_append] at this
          rcases this with (h1 | h1) | h1
          · exact f1 (by rw [hX]; simp [h1])
          · exact f2 (nz _ hpen) h1
          · exact f3 (nz _ hfai) h1
        rw [e]
        refine ⟨⟨new, hX, ?_⟩, ?_, ?_, hal⟩
        · show (p.handed ++ m).Perm (new ++ (p.pending ++ m) ++ p.failed)
          refine (hperm.append_right m).trans ?_
          rw [List.append_assoc, ← List.append_assoc new p.pending m, List.append_assoc (new ++ p.pending) m p.failed]
          exact List.Perm.append_left _ List.perm_append_comm
        · rw [List.nodup_append]
          refine ⟨hnd, hmnd, ?_⟩
          rintro a ha b hb' rfl
          exact hnew a hb' ha
        · intro z hz'
          rcases List.mem_append.1 hz' with h1 | h1
          · exact hfr z h1
          · refine ⟨fun h2 => (hmz z h1).2.1 (by rw [hX]; simp [h2]), (hmz z h1).1⟩
    | tell k y =>
      cases hk : p.pending[k]? with
      | none =>
        have : p.step (.tell k y) = p := by simp [Pool.step, hk]
        rw [this]
        exact ⟨⟨new, hX, hperm⟩, hnd, hfr, hal⟩
      | some x =>
        have e : p.step (.tell k y) =
            { p with X := p.X ++ [x], Y := p.Y ++ [y], pending := p.pending.eraseIdx k } := by simp [Pool.step, hk]
        rw [e]
        have hp := List.getElem?_eq_some_iff.1 hk
        have pp : p.pending.Perm (x :: p.pending.eraseIdx k) := by
          obtain ⟨hlt, rfl⟩ := hp
          exact (List.getElem_cons_eraseIdx_perm hlt).symm
        refine ⟨⟨new ++ [x], by simp [hX], ?_⟩, hnd, hfr, by simp [hal]⟩
        refine hperm.trans ?_
        refine (((List.Perm.refl new).append pp).append_right _).trans ?_
        simp
    | giveUp k =>
      cases hk : p.pending[k]? with
      | none =>
        have : p.step (.giveUp k) = p := by simp [Pool.step, hk]
        rw [this]
        exact ⟨⟨new, hX, hperm⟩, hnd, hfr, hal⟩
      | some x =>
        have e : p.step (.giveUp k) =
            { p with failed := p.failed ++ [x], pending := p.pending.eraseIdx k } := by simp [Pool.step, hk]
        rw [e]
        have pp : p.pending.Perm (x :: p.pending.eraseIdx k) := by
          obtain ⟨hlt, rfl⟩ := List.getElem?_eq_some_iff.1 hk
          exact (List.getElem_cons_eraseIdx_perm hlt).symm
        refine ⟨⟨new, hX, ?_⟩, hnd, hfr, hal⟩
        refine hperm.trans ?_
        refine (((List.Perm.refl new).append pp).append_right _).trans ?_
        show (new ++ x :: p.pending.eraseIdx k ++ p.failed).Perm (new ++ p.pending.eraseIdx k ++ (p.failed ++ [x]))
        rw [List.append_assoc, List.append_assoc, List.cons_append]
        refine List.Perm.append_left _ ?_
        rw [← List.append_assoc]
        exact (List.perm_append_singleton x _).symm

/-- The questions of the sequential, random and Thompson evaluators with de-duplication are answered so. -/
theorem goodStep_fresh {config : List Desc} {cs : Option (List ConstrDict)} {sp : Space}
    (h : designSpace config cs = .ok sp) (hb : sp.hasBandit = false)
    (hs : ∀ k ∈ kindsOf config, Samplable k) (hvar : kindsOf config ≠ []) {st : PoolStep} (hst : GoodStep sp st) :
    AskFresh (ObjDomain (kindsOf config)) st := by
  cases st with
  | ask env context =>
    obtain ⟨hv, ev, envs, hev, hgood, hsug⟩ := hst
    intro s pending ignored m hc hm
    rw [hsug] at hm
    unfold stdSuggest at hm
    rw [hc] at hm
    exact dedup_suggestions h hb hs hvar context hv (envs s) (hgood s) ev hev s.X _ _ m hm
  | tell k y => trivial
  | giveUp k => trivial

/-- C163 (partial: a location all of whose coordinates are zero must not be handed out). However many workers ask, tell and
give up in whatever order, with de-duplication no location is handed out twice, none that was in the initial data, and
only locations of the domain. At every moment each location that was handed out is in the data, pending or given up,
exactly once, and outputs belong to locations. -/
theorem C163_no_location_twice_partial {config : List Desc} {cs : Option (List ConstrDict)} {sp : Space}
    (h : designSpace config cs = .ok sp) (hb : sp.hasBandit = false)
    (hs : ∀ k ∈ kindsOf config, Samplable k) (hvar : kindsOf config ≠ [])
    (X0 : Mat) (Y0 : Vec) (hXY : X0.length = Y0.length)
    (hz : ∀ z, ObjDomain (kindsOf config) z → (∀ v ∈ z, v = 0) → z ∈ X0)
    (steps : List PoolStep) (hsteps : ∀ st ∈ steps, GoodStep sp st) :
    let p := Pool.run { X := X0, Y := Y0 } steps
    p.handed.Nodup ∧ (∀ z ∈ p.handed, z ∉ X0 ∧ ObjDomain (kindsOf config) z) ∧
      (∃ new, p.X = X0 ++ new ∧ p.handed.Perm (new ++ p.pending ++ p.failed)) ∧ p.X.length = p.Y.length := by
  exact pool_invariant _ X0 Y0 hXY hz steps fun st hst => goodStep_fresh h hb hs hvar (hsteps st hst)

/-- The same for a bandit variable, where a context is refused. -/
def GoodBanditStep (sp : Space) : PoolStep → Prop
  | .ask env _ => ∃ ev envs,
      (ev = .sequential ∨ (∃ n ≥ 2, ev = .random n) ∨ (∃ n ≥ 1, ev = .thompson n)) ∧
      (∀ s, GoodEnv (envs s) ∧ ∀ k, GoodAcq ((envs s).acqLP k)) ∧ env.suggest = stdSuggest sp ev envs true
  | _ => True

/-- C163 for a bandit variable (partial: an arm of zeros must not be handed out). No arm is handed out twice, none was in
the initial data, and there are at most as many as arms. -/
theorem C163_arms_partial {name : Option String} {arms : Mat} {cs : Option (List ConstrDict)} {sp : Space}
    (h : designSpace (banditConfig name arms) cs = .ok sp)
    (X0 : Mat) (Y0 : Vec) (hXY : X0.length = Y0.length) (hz : ∀ z ∈ arms, (∀ v ∈ z, v = 0) → z ∈ X0)
    (steps : List PoolStep) (hsteps : ∀ st ∈ steps, GoodBanditStep sp st) :
    let p := Pool.run { X := X0, Y := Y0 } steps
    p.handed.Nodup ∧ (∀ z ∈ p.handed, z ∉ X0 ∧ z ∈ arms) ∧ p.handed.length ≤ arms.length ∧
      (∃ new, p.X = X0 ++ new ∧ p.handed.Perm (new ++ p.pending ++ p.failed)) ∧ p.X.length = p.Y.length := by
  have := pool_invariant (· ∈ arms) X0 Y0 hXY hz steps fun st hst => by
    have hg := hsteps st hst
    cases st with
    | ask env context =>
      obtain ⟨ev, envs, hev, hgood, hsug⟩ := hg
      intro s pending ignored m hc hm
      rw [hsug] at hm
      unfold stdSuggest at hm
      have hsz : 1 ≤ Evaluator.size ev ∧ ev ≠ .random 1 ∧ ∀ n, ev ≠ .localPenalization n := by
        rcases hev with rfl | ⟨n, hn, rfl⟩ | ⟨n, hn, rfl⟩
        · simp [Evaluator.size]
        · refine ⟨by simp only [Evaluator.size]; omega, ?_, by simp⟩
          simp only [ne_eq, Evaluator.random.injEq]; omega
        · exact ⟨by simp only [Evaluator.size]; omega, by simp, by simp⟩
      obtain ⟨-, -, -, h4, h5⟩ := C122_arms h s.context (envs s) (hgood s).1 (hgood s).2 ev hsz.1 hsz.2.1 true s.X
        pending ignored m hm
      obtain ⟨h6, h7⟩ := h5 rfl hsz.2.2
      exact ⟨h6, fun z hz => ⟨h4 z hz, h7 z hz⟩⟩
    | tell k y => trivial
    | giveUp k => trivial
  obtain ⟨h1, h2, h3, h4⟩ := this
  exact ⟨h1, h2, (List.subperm_of_subset h1 fun z hz => (h2 z hz).2).length_le, h3, h4⟩

/-- C163. A finite domain: whatever the workers do, no more locations are handed out than are left. -/
theorem C163_finite_domain {config : List Desc} {cs : Option (List ConstrDict)} {sp : Space}
    (h : designSpace config cs = .ok sp) (hb : sp.hasBandit = false)
    (hs : ∀ k ∈ kindsOf config, Samplable k) (hvar : kindsOf config ≠ [])
    (X0 : Mat) (Y0 : Vec) (hXY : X0.length = Y0.length) (hX0 : X0.Nodup)
    (hz : ∀ z, ObjDomain (kindsOf config) z → (∀ v ∈ z, v = 0) → z ∈ X0)
    (D : Mat) (hD : ∀ x, ObjDomain (kindsOf config) x → x ∈ D) (hX0D : ∀ x ∈ X0, x ∈ D)
    (steps : List PoolStep) (hsteps : ∀ st ∈ steps, GoodStep sp st) :
    X0.length + (Pool.run { X := X0, Y := Y0 } steps).handed.length ≤ D.length := by
  obtain ⟨h1, h2, -, -⟩ := C163_no_location_twice_partial h hb hs hvar X0 Y0 hXY hz steps hsteps
  rw [← List.length_append]
  have hnd : (X0 ++ (Pool.run { X := X0, Y := Y0 } steps).handed).Nodup := by
    rw [List.nodup_append]
    refine ⟨hX0, h1, ?_⟩
    rintro a ha b hb' rfl
    exact (h2 a hb').1 ha
  have hsub : (X0 ++ (Pool.run { X := X0, Y := Y0 } steps).handed) ⊆ D := by
    intro a ha
    rcases List.mem_append.1 ha with h3 | h3
    · exact hX0D a h3
    · exact hD a (h2 a h3).2
  exact (List.subperm_of_subset hnd hsub).length_le

/-- Evaluators and settings for which pending and given up locations have no effect: no de-duplication, or local
penalization. -/
theorem computeNext_blind {ev : Evaluator} {deDup : Bool} (hev : deDup = false ∨ ∃ n, ev = .localPenalization n)
    (env : EvalEnv) (sp : Space) (context : Option Context) (X : Mat) (pending ignored : Option Mat) :
    computeNext ev env sp context deDup X pending ignored = computeNext ev env sp context false X none none := by
  rcases hev with rfl | ⟨n, rfl⟩
  · unfold computeNext
    simp
  · unfold computeNext computeBatch
    rfl

/-- C163 (negation, the default and local penalization). Without de-duplication, which is the default, and with local
penalization also with de-duplication, what is pending or given up has no effect. If two workers ask one after the other and
the objects are made with the same random numbers, then whatever the space, the data and the components, the second one gets
exactly the locations of the first one. -/
theorem C163_same_locations_counterexample {ev : Evaluator} {deDup : Bool}
    (hev : deDup = false ∨ ∃ n, ev = .localPenalization n) (sp : Space) (env : BOEnv) (envs : BOState → EvalEnv)
    (hsug : env.suggest = stdSuggest sp ev envs deDup) (context : Option Context) (p : Pool) (m : Mat)
    (hm : (p.step (.ask env context)).handed = p.handed ++ m) :
    (Pool.run p [.ask env context, .ask env context]).handed = p.handed ++ m ++ m := by
  have hblind : ∀ (pe ig : Option Mat) (s : BOState),
      (suggestNext env context pe ig s).2 = (suggestNext env context none none s).2 := by
    intro pe ig s
    unfold suggestNext
    dsimp only
    rcases updateModel env { s with params := none, numAcq := 0, context := context } with ⟨s2, r⟩
    cases r with
    | error e => rfl
    | ok u =>
      simp only [hsug, stdSuggest]
      rw [computeNext_blind hev, computeNext_blind hev _ _ _ _ none none]
  cases hq : (suggestNext env context none none (boInit p.X (some p.Y) .none)).2 with
  | error e =>
    simp only [Pool.run, List.foldl, Pool.step, hblind (some _) (some _), hq] at hm ⊢
    have : m = [] := by simpa using hm
    simp [this]
  | ok m' =>
    simp only [Pool.run, List.foldl, Pool.step, hblind (some _) (some _), hq] at hm ⊢
    have : m' = m := by simpa using hm
    rw [this]

/-- Without de-duplication two workers get the same location; also with local penalization and de-duplication. -/
example : ((designSpace (exGrid 6) none).map fun sp =>
      let e := { exSearch sp with suggest := stdSuggest sp .sequential (fun _ => exEnv) false }
      (Pool.run { X := [[5]], Y := [1] } [.ask e none, .ask e none]).handed) = .ok [[0], [0]] ∧
    ((designSpace (exGrid 6) none).map fun sp =>
      let e := { exSearch sp with suggest := stdSuggest sp (.localPenalization 2) (fun _ => exEnv) true }
      let p := Pool.run { X := [[5]], Y := [1] } [.ask e none]
      (p.handed.length, (p.step (.ask e none)).handed == p.handed ++ p.handed)) = .ok (2, true) := by
  decide +kernel

theorem tell_all (f : Vec → ℚ) (m : Mat) (p : Pool) (hp : p.pending = m) :
    p.run (m.map fun x => .tell 0 (f x)) = { p with X := p.X ++ m, Y := p.Y ++ m.map f, pending := [] } := by
  induction m generalizing p with
  | nil => cases p; simp_all [Pool.run]
  | cons x m ih =>
    have e : p.step (.tell 0 (f x)) = { p with X := p.X ++ [x], Y := p.Y ++ [f x], pending := m } := by
      simp [Pool.step, hp]
    simp only [List.map_cons, Pool.run, List.foldl_cons, e]
    refine (ih _ rfl).trans ?_
    simp

/-- C163. One worker that evaluates all that it is given before it asks again is the loop of C105: there is a schedule of
questions, each followed by the outputs of its locations, that ends with the same data and nothing pending. -/
theorem C163_one_worker (sp : Space) (ev : Evaluator) (deDup : Bool) (envs : BOState → EvalEnv) (env : BOEnv)
    (hsug : env.suggest = stdSuggest sp ev envs deDup) (f : Vec → ℚ) (c : Option Context) (k : Nat) (X X' : Mat) (Y Y' : Vec)
    (hr : askTell env f c .none k (X, Y) = .ok (X', Y')) :
    ∃ ms : List Mat, ms.length = k ∧
      Pool.run { X := X, Y := Y } (ms.flatMap fun m => .ask env c :: m.map fun x => .tell 0 (f x)) =
        { X := X', Y := Y', handed := ms.flatten } ∧ X' = X ++ ms.flatten ∧ Y' = Y ++ ms.flatten.map f := by
  have hnone : ∀ s : BOState, (suggestNext env c (some []) (some []) s).2 = (suggestNext env c none none s).2 := by
    intro s
    unfold suggestNext
    dsimp only
    rcases updateModel env { s with params := none, numAcq := 0, context := c } with ⟨s2, r⟩
    cases r with
    | error e => rfl
    | ok u =>
      simp only [hsug, stdSuggest]
      unfold computeNext
      have : ∀ X, dupMgr X (some []) (some []) = dupMgr X none none := fun X => by simp [dupMgr]
      simp only [this]
  suffices hgen : ∀ (k : Nat) (X : Mat) (Y : Vec) (H : Mat), askTell env f c .none k (X, Y) = .ok (X', Y') →
      ∃ ms : List Mat, ms.length = k ∧
        Pool.run { X := X, Y := Y, handed := H } (ms.flatMap fun m => .ask env c :: m.map fun x => .tell 0 (f x)) =
          { X := X', Y := Y', handed := H ++ ms.flatten } ∧ X' = X ++ ms.flatten ∧ Y' = Y ++ ms.flatten.map f by
    obtain ⟨ms, h1, h2, h3, h4⟩ := hgen k X Y [] hr
    exact ⟨ms, h1, by simpa using h2, h3, h4⟩
  intro k
  induction k with
  | zero =>
    intro X Y H hr
    simp only [askTell, Except.ok.injEq, Prod.mk.injEq] at hr
    obtain ⟨rfl, rfl⟩ := hr
    exact ⟨[], rfl, by simp [Pool.run], by simp, by simp⟩
  | succ k ih =>
    intro X Y H hr
    unfold askTell at hr
    cases hm : (suggestNext env c none none (boInit X (some Y) .none)).2 with
    | error e => simp [hm] at hr
    | ok m =>
      simp only [hm] at hr
      obtain ⟨ms, h1, h2, h3, h4⟩ := ih (X ++ m) (Y ++ m.map f) (H ++ m) hr
      refine ⟨m :: ms, by simp [h1], ?_, by simp [h3], by simp [h4]⟩
      have e : Pool.step { X := X, Y := Y, handed := H } (.ask env c) =
          { X := X, Y := Y, pending := m, handed := H ++ m } := by
        simp [Pool.step, hnone, hm]
      rw [List.flatMap_cons, List.cons_append]
      show Pool.run (Pool.step _ _) _ = _
      rw [e]
      unfold Pool.run
      rw [List.foldl_append]
      have ht := tell_all f m { X := X, Y := Y, pending := m, handed := H ++ m } rfl
      unfold Pool.run at ht
      rw [ht]
      refine h2.trans ?_
      simp

/-- C163 (negation, the origin). If the only pending location has zero coordinates then it is not taken into account: the
second worker gets it again. -/
theorem C163_origin_counterexample : ((designSpace (exGrid 4) none).map fun sp =>
      (Pool.run { X := [[3]], Y := [1] } [.ask (exSearch sp) none, .ask (exSearch sp) none]).handed) =
    .ok [[0], [0]] := by decide +kernel

/-- A schedule of three workers on the domain `0, …, 5` with `0` and `5` evaluated: two ask, the second one tells first, one
gives up, others ask again. The last question raises, because the four samples of the anchor points contain no new location
(C106): nothing is handed out. -/
example : ((designSpace (exGrid 6) none).map fun sp =>
      Pool.run { X := [[0], [5]], Y := [1, 2] } [.ask (exSearch sp) none, .ask (exSearch sp) none, .tell 1 7,
        .ask (exSearch sp) none, .giveUp 0, .ask (exSearch sp) none, .tell 0 8]) =
    .ok { X := [[0], [5], [2], [3]], Y := [1, 2, 7, 8], pending := [], failed := [[1]], handed := [[1], [2], [3]] } := by
  decide +kernel

/-- One worker that asks and tells in turn: the loop of C105 succeeds. -/
example : ((designSpace (exGrid 6) none).map fun sp =>
      askTell (exSearch sp) (fun x => x.sum) none .none 2 ([[0], [5]], [1, 2])) =
    .ok (.ok ([[0], [5], [1], [2]], [1, 2, 1, 2])) := by decide +kernel

/-- The hypotheses of the theorem are met by that domain and that schedule. -/
example (sp : Space) (h : designSpace (exGrid 6) none = .ok sp) :
    (∀ k ∈ kindsOf (exGrid 6), Samplable k) ∧ kindsOf (exGrid 6) ≠ [] ∧
      (∀ z, ObjDomain (kindsOf (exGrid 6)) z → (∀ v ∈ z, v = 0) → z ∈ ([[0], [5]] : Mat)) ∧
      GoodStep sp (.ask (exSearch sp) none) ∧ GoodStep sp (.tell 1 7) ∧ sp.hasBandit = false := by
  have hk : kindsOf (exGrid 6) = [.discrete [0, 1, 2, 3, 4, 5]] := by decide +kernel
  refine ⟨?_, by simp [hk], ?_, ⟨?_, .sequential, fun _ => exEnv, .inl rfl, fun _ => ?_, rfl⟩, trivial, ?_⟩
  · rw [hk]; simp [Samplable]
  · intro z hd hz
    rw [hk] at hd
    cases hd with
    | cons h1 h2 =>
      cases h2
      simp [hz _ (List.mem_cons_self ..)]
  · simp [ValidContext]
  · show GoodEnv exEnv
    exact ⟨⟨by decide, by decide, by decide⟩, exAcq_good, exAcq_good, by decide, by decide⟩
  · have hb : ((designSpace (exGrid 6) none).map fun sp => sp.hasBandit) = .ok false := by decide +kernel
    rw [h] at hb
    simpa [Except.map] using hb

/-- Three workers on four arms, one of which is evaluated: each gets another arm, a fourth question raises. -/
example : ((designSpace (banditConfig (some "b") exBanditArms) none).map fun sp =>
      let e := exFull sp
      (Pool.run { X := [[2, 5]], Y := [1] } [.ask e none, .ask e none, .tell 0 3, .ask e none, .ask e none]).handed) =
    .ok [[0, 1], [-1, 3], [4, 4]] := by decide +kernel

end GPyOpt.Props
