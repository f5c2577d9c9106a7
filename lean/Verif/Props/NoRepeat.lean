import Verif.Props.Batch
import Verif.Props.Records

/-!
# Property C44: no location is evaluated twice in a run
-/

namespace GPyOpt.Props

open GPyOpt Spec

/-- A round that raises adds the rows of a suggestion or nothing. -/
theorem boRound_raised_rows {env : BOEnv} {obj : Nat → Vec → Py ℚ} {mi mt : Limit} {eps : ℚ}
    {s s' : BOState} {e : Err} (h : boRound env obj mi mt eps s = .raised s' e) :
    s'.X = s.X ∨ ∃ s1 m, s1.X = s.X ∧ s1.context = s.context ∧ env.suggest s1 none none = .ok m ∧
      s'.X = s.X ++ m := by
  unfold boRound at h
  split_ifs at h with ht
  rcases hu : updateModel env s with ⟨s1, r⟩
  rw [hu] at h
  obtain ⟨ps, fs, hfr⟩ := updateModel_frame hu
  cases r with
  | error e' =>
    have : s' = s1 := by
      cases e' <;> first | (simp at h; done) | (simp at h; simp [h])
    subst this
    exact Or.inl (by rw [hfr])
  | ok u =>
    simp only at h
    split_ifs at h with hstop
    cases hsu : env.suggest s1 none none with
    | error e =>
      simp only [hsu, Round.raised.injEq] at h
      exact Or.inl (by rw [← h.1, hfr])
    | ok m =>
      simp only [hsu] at h
      rcases he : evaluateObjective env obj { s1 with X := s1.X ++ m } m with ⟨s2, r⟩
      rw [he] at h
      obtain ⟨f1, -⟩ := evaluateObjective_frame he
      cases r with
      | ok u => simp at h
      | error e =>
        simp only [Round.raised.injEq] at h
        obtain ⟨rfl, rfl⟩ := h
        exact Or.inr ⟨s1, m, by rw [hfr], by rw [hfr], hsu, by rw [f1, hfr]⟩

/-- If every suggestion is free of repetitions and of known locations then so is a run. -/
theorem trace_fresh {env : BOEnv} {obj : Nat → Vec → Py ℚ} {mi mt : Limit} {eps : ℚ}
    (P : BOState → Prop) (hP : ∀ s t : BOState, s.context = t.context → P s → P t) (R : Vec → Prop)
    (hs : ∀ s m, P s → env.suggest s none none = .ok m → m.Nodup ∧ ∀ z ∈ m, z ∉ s.X ∧ R z)
    {s s' : BOState} {bs : List (Mat × Vec)} (h : Trace env obj mi mt eps s bs s') (hp : P s) :
    s'.X = s.X ++ batchRows bs ∧ (batchRows bs).Nodup ∧ (∀ z ∈ batchRows bs, z ∉ s.X ∧ R z) ∧ P s' := by
  induction h with
  | nil s => simp [batchRows, hp]
  | @cons s s1 s' m ys bs hr hsp ht ih =>
    obtain ⟨i1, i2, i3, i4⟩ := ih (hP _ _ hsp.context.symm hp)
    obtain ⟨ps, fs, hfr⟩ := updateModel_frame (env := env) (s := s) (s1 := (updateModel env s).1)
      (r := (updateModel env s).2) (by rfl)
    obtain ⟨hm1, hm2⟩ := hs _ m (hP s _ (by rw [hfr]) hp) hsp.suggested
    have hX1 : (updateModel env s).1.X = s.X := by rw [hfr]
    rw [hX1] at hm2
    have hb : batchRows ((m, ys) :: bs) = m ++ batchRows bs := by simp [batchRows]
    rw [hb]
    rw [hsp.X] at i1 i3
    refine ⟨by rw [i1, List.append_assoc], ?_, ?_, i4⟩
    · rw [List.nodup_append]
      refine ⟨hm1, i2, ?_⟩
      intro a ha b hb hab
      subst hab
      exact (i3 a hb).1 (List.mem_append.2 (Or.inr ha))
    · intro z hz
      rcases List.mem_append.1 hz with hz | hz
      · exact hm2 z hz
      · exact ⟨fun hzX => (i3 z hz).1 (List.mem_append.2 (Or.inl hzX)), (i3 z hz).2⟩

/-- The same for a whole run, however it ends. -/
theorem run_fresh {env : BOEnv} (P : BOState → Prop)
    (hP : ∀ s t : BOState, s.context = t.context → P s → P t) (R : Vec → Prop)
    (hs : ∀ s m, P s → env.suggest s none none = .ok m → m.Nodup ∧ ∀ z ∈ m, z ∉ s.X ∧ R z)
    (a : RunArgs) (hg : ∀ s, s.context = a.context → P s) (fuel : Nat) (s : BOState) :
    ∃ new, (runOptimization env a fuel s).1.X = s.X ++ new ∧ new.Nodup ∧ ∀ z ∈ new, z ∉ s.X ∧ R z := by
  unfold runOptimization
  cases env.obj with
  | none => exact ⟨[], by simp, by simp, by simp⟩
  | some obj =>
    simp only
    rcases hst : runStart env obj a s with ⟨s0, r⟩
    have hX0 := (runStart_frame hst).1
    cases r with
    | error e => exact ⟨[], by simp [hX0], by simp, by simp⟩
    | ok u =>
      simp only
      have hv0 : P s0 := hg s0 (runStart_ok hst).context
      rcases hl : boLoop env obj a.limits.1 a.limits.2 a.eps fuel s0 with ⟨s2, r⟩
      obtain ⟨bs, sk, htr, -, hend⟩ := boLoop_trace hl
      obtain ⟨t1, t2, t3, t4⟩ := trace_fresh P hP R hs htr hv0
      rw [hX0] at t1 t3
      cases r with
      | running =>
        obtain ⟨rfl, -⟩ := hend
        exact ⟨batchRows bs, t1, t2, t3⟩
      | done why =>
        obtain ⟨ps, fs, rfl⟩ := (boRound_stop hend).frame
        simp only
        refine ⟨batchRows bs, ?_, t2, t3⟩
        rw [← t1]
        cases hY : sk.Y with
        | none => rfl
        | some Y =>
          simp only
          cases hr : computeResults sk.X Y <;> rfl
      | raised e =>
        simp only
        rcases boRound_raised_rows hend with hx | ⟨s1, m, hx1, hx2, hx3, hx4⟩
        · exact ⟨batchRows bs, by rw [hx]; exact t1, t2, t3⟩
        · obtain ⟨m1, m2⟩ := hs s1 m (hP sk s1 hx2.symm t4) hx3
          rw [hx1, t1] at m2
          refine ⟨batchRows bs ++ m, by rw [hx4, t1, List.append_assoc], ?_, ?_⟩
          · rw [List.nodup_append]
            refine ⟨t2, m1, ?_⟩
            intro a ha b hb hab
            subst hab
            exact (m2 a hb).1 (List.mem_append.2 (Or.inr ha))
          · intro z hz
            rcases List.mem_append.1 hz with hz | hz
            · exact t3 z hz
            · exact ⟨fun hzX => (m2 z hz).1 (List.mem_append.2 (Or.inl hzX)), (m2 z hz).2⟩

/-- C44. With de-duplication (and any evaluator but local penalization) a run, however it ends,
appends pairwise different locations to the data, none of which is a location of the initial data.
So no location is evaluated twice, nor one of the initial data. -/
theorem C44_no_repeated_evaluation {config : List Desc} {cs : Option (List ConstrDict)} {sp : Space}
    (h : designSpace config cs = .ok sp) (hb : sp.hasBandit = false)
    (hs : ∀ k ∈ kindsOf config, Samplable k) (hvar : kindsOf config ≠ [])
    (ev : Evaluator)
    (hev : ev = .sequential ∨ (∃ n ≥ 2, ev = .random n) ∨ (∃ n ≥ 1, ev = .thompson n))
    (envs : BOState → EvalEnv) (henvs : ∀ s, GoodEnv (envs s))
    (env : BOEnv) (hsug : env.suggest = stdSuggest sp ev envs true)
    (a : RunArgs) (hg : ValidContext sp a.context) (fuel : Nat) (s : BOState) :
    ∃ new, (runOptimization env a fuel s).1.X = s.X ++ new ∧ new.Nodup ∧ ∀ z ∈ new, z ∉ s.X := by
  have hP : ∀ s t : BOState, s.context = t.context → ValidContext sp s.context →
      ValidContext sp t.context := fun s t hst hv => hst ▸ hv
  have hfresh : ∀ (s : BOState) m, ValidContext sp s.context → env.suggest s none none = .ok m →
      m.Nodup ∧ ∀ z ∈ m, z ∉ s.X ∧ True := by
    intro s m hv hm
    rw [hsug] at hm
    obtain ⟨h1, h2⟩ := C33_dedup_partial h hb hs hvar s.context hv (envs s) (henvs s) ev hev s.X none none m hm
    exact ⟨h1, fun z hz => ⟨(h2 z hz).1, trivial⟩⟩
  obtain ⟨new, h1, h2, h3⟩ := run_fresh (fun s => ValidContext sp s.context) hP (fun _ => True) hfresh a
    (fun s hs => hs ▸ hg) fuel s
  exact ⟨new, h1, h2, fun z hz => (h3 z hz).1⟩

/-- A run of two iterations with the sequential evaluator on the example space, whose third round is
ended by the budget: the hypotheses are met and the new locations differ from the initial one. -/
def exFull (sp : Space) : BOEnv :=
  { exBO sp with
    obj := some fun _ x => .ok (x.headD 0)
    suggest := stdSuggest sp .sequential (fun _ => exEnv) true }

example : ((designSpace exConfig none).map fun sp =>
      let r := runOptimization (exFull sp) { maxIter := some (.fin 2) } 10
        (boInit [[-1, -1, 0, 2]] none .none)
      (r.2, r.1.X)) = .ok (.done .limit, [[-1, -1, 0, 2], [-1/2, -3/5, 0, 2], [-1, -1, 3, 1]]) := by
  decide +kernel

end GPyOpt.Props
