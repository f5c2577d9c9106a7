import Verif.Model.Driver
import Verif.Props.Interface

/-!
# Properties C111–C114: components from a configuration, the space, the file of a logger, the objective
-/

namespace GPyOpt.Props

open GPyOpt Spec

/-! ## C111: components -/

/-- The options the documentation of `GPModel` lists. -/
def documentedGP : List String :=
  ["kernel", "noise_var", "exact_feval", "optimizer", "max_iters", "optimize_restarts", "sparse", "num_inducing",
   "verbose", "ARD", "mean_function"]

/-- C111 (partial: all other models and acquisitions, see the negations below). The driver creates a model exactly if the
type is `GP` and all other options are options of Gaussian processes; it then has the options of the
configuration. It creates the acquisitions `EI` and `MPI` with the jitter of the configuration. It
creates every evaluator with the batch size of the configuration, which only the sequential one can do without. -/
theorem C111_components_partial :
    (∀ {α : Type} (name : α → Option String) (opts : Opts α) (m : ModelKind) (o : Opts α),
      driverModel name opts = .ok (m, o) ↔
        (∃ t, opts.lookup "type" = some t ∧ name t = some "GP") ∧ m = .gp false ∧
        (∀ k v, (k, v) ∈ o ↔ (k, v) ∈ opts ∧ k ≠ "type") ∧ o.Sublist opts ∧
        (∀ k v, (k, v) ∈ opts → k ≠ "type" → k ∈ documentedGP) ∧ o = opts.filter fun p => decide (p.1 ≠ "type")) ∧
    (∀ j, driverAcq "EI" (some j) = .ok (.ei, j) ∧ driverAcq "MPI" (some j) = .ok (.mpi, j)) ∧
    (∀ type k, ((type, k) = ("sequential", EvalKind.sequential) ∨ (type, k) = ("random", .randomBatch) ∨
        (type, k) = ("local_penalization", .localPenalization) ∨ (type, k) = ("thompson_sampling", .thompsonBatch)) →
      (∀ n, driverEvaluator type [("batch_size", n)] = .ok (k, n)) ∧
      driverEvaluator type [] = (if type = "sequential" then .ok (k, 1) else .error .typeError)) := by
  refine ⟨?_, fun j => ⟨rfl, rfl⟩, ?_⟩
  · intro α name opts m o
    have hfil : (opts.filter fun p => p.1 != "type") = opts.filter fun p => decide (p.1 ≠ "type") := by
      apply List.filter_congr
      intro p _
      by_cases h : p.1 = "type" <;> simp [h]
    have hmem : ∀ k v, (k, v) ∈ opts.filter (fun p => decide (p.1 ≠ "type")) ↔ (k, v) ∈ opts ∧ k ≠ "type" := by
      intro k v; simp
    have hall : ((opts.filter fun p => decide (p.1 ≠ "type")).map Prod.fst).all (fun k => gpModelParams.contains k)
        = true ↔ ∀ k v, (k, v) ∈ opts → k ≠ "type" → k ∈ documentedGP := by
      rw [List.all_eq_true]
      constructor
      · intro h k v hkv hk
        have := h k (List.mem_map.2 ⟨(k, v), (hmem k v).2 ⟨hkv, hk⟩, rfl⟩)
        rw [show gpModelParams = documentedGP from rfl] at this
        simpa using this
      · intro h k hk
        obtain ⟨⟨k', v⟩, hp, rfl⟩ := List.mem_map.1 hk
        obtain ⟨h1, h2⟩ := (hmem k' v).1 hp
        have := h k' v h1 h2
        rw [show gpModelParams = documentedGP from rfl]
        simpa using this
    constructor
    · intro h
      unfold driverModel at h
      cases ht : opts.lookup "type" with
      | none => simp [ht] at h
      | some t =>
        cases hn : name t with
        | none => simp [ht, hn] at h
        | some n =>
          by_cases hgp : n = "GP"
          · subst hgp
            simp only [ht, hn, selectModel, if_true, modelFromConfig, hfil, callKw] at h
            split at h
            · rename_i hc
              simp only [Except.ok.injEq, Prod.mk.injEq] at h
              obtain ⟨rfl, rfl⟩ := h
              exact ⟨⟨t, rfl, hn⟩, rfl, hmem, List.filter_sublist, hall.1 hc, rfl⟩
            · simp at h
          · simp only [ht, hn, selectModel, hgp, if_false] at h
            split_ifs at h <;> simp [modelFromConfig] at h
    · rintro ⟨⟨t, ht, hn⟩, rfl, -, -, hc, rfl⟩
      unfold driverModel
      simp only [ht, hn, selectModel, if_true, modelFromConfig, hfil, callKw]
      rw [if_pos (hall.2 hc)]
  · rintro type k h
    rcases h with h | h | h | h <;> (simp only [Prod.mk.injEq] at h; obtain ⟨rfl, rfl⟩ := h) <;>
      exact ⟨fun n => rfl, rfl⟩

/-- The default configuration of a model, and one with an unknown option. -/
example : driverModel some [("type", "GP"), ("num_inducing", "10")] = .ok (.gp false, [("num_inducing", "10")]) ∧
    driverModel some [("type", "GP"), ("samples", "10")] = .error .typeError := ⟨by decide, by decide⟩

/-- C111 (negation of the full property). The integrated acquisitions are silently replaced by the plain ones; the other
acquisitions and all models but `GP` cannot be created, whatever their options are. -/
theorem C111_components_counterexample :
    (∀ j, driverAcq "EI_MCMC" (some j) = .ok (.ei, j) ∧ driverAcq "MPI_MCMC" (some j) = .ok (.mpi, j)) ∧
    (∀ type ∈ ["LCB", "LCB_MCMC", "LP"], ∀ jitter, driverAcq type jitter = .error .attributeError) ∧
    (∀ jitter, driverAcq "ES" jitter = .error .notImplemented) ∧
    (∀ {α : Type} (name : α → Option String) (opts : Opts α) (t : α), opts.lookup "type" = some t →
      (∃ n ∈ ["GP_MCMC", "RF", "warpGP"], name t = some n) → driverModel name opts = .error .attributeError) := by
  refine ⟨fun j => ⟨rfl, rfl⟩, ?_, fun jitter => rfl, ?_⟩
  · intro type ht jitter
    simp only [List.mem_cons, List.not_mem_nil, or_false] at ht
    rcases ht with rfl | rfl | rfl <;> rfl
  · rintro α name opts t ht ⟨n, hn, hnt⟩
    simp only [List.mem_cons, List.not_mem_nil, or_false] at hn
    unfold driverModel
    rcases hn with rfl | rfl | rfl <;> simp [ht, hnt, selectModel, modelFromConfig]

/-- C111 (negation). No acquisition the driver creates can be used with the local penalization evaluator, which the driver
creates without an error. -/
theorem C111_local_penalization_counterexample :
    (∀ type jitter k j, driverAcq type jitter = .ok (k, j) → k.penalizable = false) ∧
    ∀ n, driverEvaluator "local_penalization" [("batch_size", n)] = .ok (.localPenalization, n) := by
  refine ⟨?_, fun n => rfl⟩
  intro type jitter k j h
  unfold driverAcq at h
  cases hs : selectAcquisition type with
  | error e => simp [hs] at h
  | ok a =>
    simp only [hs] at h
    cases a <;> cases jitter <;> simp only [acqFromConfig, Except.ok.injEq, Prod.mk.injEq, reduceCtorEq] at h <;>
      (obtain ⟨rfl, -⟩ := h; rfl)

/-! ## C112: the space of a configuration -/

/-- The dictionary of a configuration file means this descriptor. -/
structure Means (int : String → Py Nat) (literal : String → Py Dom) (d : ConfDesc) (e : Desc) : Prop where
  name : e.name = d.name
  type : e.type = d.type
  dim : ∃ n, e.dimensionality = some n ∧
    (d.dimensionality = some (.value n) ∨ ∃ s, d.dimensionality = some (.text s) ∧ int s = .ok n)
  domain : ∃ s dom, d.domain = some (.text s) ∧ literal s = .ok dom ∧ e.domain = some dom

theorem fromConfigStep_ok {int : String → Py Nat} {literal : String → Py Dom} {d : ConfDesc} {e : Desc}
    (h : Means int literal d e) :
    ∃ d', fromConfigStep int literal d = (d', none) ∧ d'.toDesc = e := by
  obtain ⟨n, h1, h2⟩ := h.dim
  obtain ⟨s, dom, h3, h4, h5⟩ := h.domain
  have hn := h.name
  have ht := h.type
  refine ⟨{ d with dimensionality := some (.value n), domain := some (.value dom) }, ?_, ?_⟩
  · unfold fromConfigStep
    rcases h2 with h2 | ⟨s', h2, h6⟩
    · simp only [h2, h3, h4]
    · simp only [h2, h6, h3, h4]
  · cases e
    simp only at h1 h5 hn ht
    subst h1 h5 hn ht
    rfl

theorem fromConfigStep_value {int : String → Py Nat} {literal : String → Py Dom} {d d' : ConfDesc}
    (h : fromConfigStep int literal d = (d', none)) :
    (∃ n, d'.dimensionality = some (.value n)) ∧ (∃ dom, d'.domain = some (.value dom)) := by
  unfold fromConfigStep at h
  cases hd : d.dimensionality with
  | none => simp [hd] at h
  | some dim =>
    simp only [hd] at h
    split at h
    · simp at h
    · rename_i n hn
      cases hdom : d.domain with
      | none => simp [hdom] at h
      | some v =>
        cases v with
        | value a => simp [hdom] at h
        | text s =>
          simp only [hdom] at h
          cases hl : literal s with
          | error e => simp [hl] at h
          | ok dom =>
            simp only [hl, Prod.mk.injEq, and_true] at h
            subst h
            exact ⟨⟨n, rfl⟩, ⟨dom, rfl⟩⟩

/-- C112 (partial: only the first call, see `C112_consumed_counterexample`). The first time the space of a configuration is
asked for it is the design space of the descriptors the texts mean, with the constraints of the
configuration. -/
theorem C112_space_partial (int : String → Py Nat) (literal : String → Py Dom) (space : List ConfDesc)
    (config : List Desc) (hm : List.Forall₂ (Means int literal) space config) (cs : List ConstrDict) :
    (cs = [] → (fromConfig int literal space cs).2 = designSpace config none) ∧
    (cs ≠ [] → (fromConfig int literal space cs).2 = designSpace config (some cs)) := by
  have key : ∃ ds, fromConfigLoop int literal space = (ds, none) ∧ ds.map ConfDesc.toDesc = config := by
    induction hm with
    | nil => exact ⟨[], rfl, rfl⟩
    | cons h _ ih =>
      obtain ⟨ds, h1, h2⟩ := ih
      obtain ⟨d', h3, h4⟩ := fromConfigStep_ok h
      refine ⟨d' :: ds, ?_, by simp [h4, h2]⟩
      simp only [fromConfigLoop, h3, h1]
  obtain ⟨ds, h1, h2⟩ := key
  unfold fromConfig
  rw [h1]
  dsimp only
  rw [h2]
  constructor
  · intro h; rw [if_pos h]
  · intro h; rw [if_neg h]

/-- C112 (negation of the full property). Asking for the space changes the configuration: if it succeeds for a configuration
with at least one variable then it raises `ValueError` the second time. -/
theorem C112_consumed_counterexample (int : String → Py Nat) (literal : String → Py Dom) (space : List ConfDesc)
    (hne : space ≠ []) (cs cs' : List ConstrDict) (sp : Space)
    (h : (fromConfig int literal space cs).2 = .ok sp) :
    (fromConfig int literal (fromConfig int literal space cs).1 cs').2 = .error .valueError ∧
    (fromConfig int literal space cs).1 ≠ space := by
  obtain ⟨d, ds, rfl⟩ := List.exists_cons_of_ne_nil hne
  have hstep : ∃ d', fromConfigStep int literal d = (d', none) := by
    cases hs : fromConfigStep int literal d with
    | mk d' e =>
      cases e with
      | none => exact ⟨d', rfl⟩
      | some e => simp [fromConfig, fromConfigLoop, hs] at h
  obtain ⟨d', hs⟩ := hstep
  obtain ⟨⟨n, hn⟩, dom, hd⟩ := fromConfigStep_value hs
  have hloop : (fromConfig int literal (d :: ds) cs).1 = d' :: (fromConfigLoop int literal ds).1 := by
    simp only [fromConfig, fromConfigLoop, hs]
    cases (fromConfigLoop int literal ds).2 <;> rfl
  rw [hloop]
  constructor
  · have : ∃ d'', fromConfigStep int literal d' = (d'', some .valueError) := by
      unfold fromConfigStep
      rw [hn]
      simp only [hd]
      exact ⟨_, rfl⟩
    obtain ⟨d'', h2⟩ := this
    simp only [fromConfig, fromConfigLoop, h2]
  · intro heq
    rw [List.cons.injEq] at heq
    have hv : fromConfigStep int literal d ≠ (d', none) := by
      rw [← heq.1]
      unfold fromConfigStep
      rw [hn]
      simp only [hd]
      simp
    exact hv hs

/-- C112. Whatever happens, the dictionaries stay in the configuration, in their order and with their names and types. -/
theorem C112_dictionaries (int : String → Py Nat) (literal : String → Py Dom) (space : List ConfDesc)
    (cs : List ConstrDict) :
    List.Forall₂ (fun d d' : ConfDesc => d'.name = d.name ∧ d'.type = d.type) space
      (fromConfig int literal space cs).1 := by
  have hstep : ∀ d, (fromConfigStep int literal d).1.name = d.name ∧ (fromConfigStep int literal d).1.type = d.type := by
    intro d
    unfold fromConfigStep
    dsimp only
    repeat' split
    all_goals exact ⟨rfl, rfl⟩
  have hloop : ∀ ds : List ConfDesc, List.Forall₂ (fun d d' : ConfDesc => d'.name = d.name ∧ d'.type = d.type) ds
      (fromConfigLoop int literal ds).1 := by
    intro ds
    induction ds with
    | nil => exact List.Forall₂.nil
    | cons d ds ih =>
      have h := hstep d
      unfold fromConfigLoop
      cases hs : fromConfigStep int literal d with
      | mk d' e =>
        rw [hs] at h
        cases e with
        | none => exact List.Forall₂.cons h ih
        | some e => exact List.Forall₂.cons h (List.forall₂_same.2 fun _ _ => ⟨rfl, rfl⟩)
  have h := hloop space
  unfold fromConfig
  cases hl : fromConfigLoop int literal space with
  | mk ds e =>
    rw [hl] at h
    cases e <;> exact h

/-- One variable of the example configuration of the repository. -/
def exConf : List ConfDesc :=
  [{ name := some "y", type := some "continuous", domain := some (.text "(-2,5)"), dimensionality := some (.text "1") }]

/-- readers of the two texts -/
def exInt (s : String) : Py Nat := if s = "1" then .ok 1 else .error .valueError

def exLiteral (s : String) : Py Dom := if s = "(-2,5)" then .ok (.flat [-2, 5]) else .error .valueError

example : List.Forall₂ (Means exInt exLiteral) exConf
    [{ name := some "y", type := some "continuous", domain := some (.flat [-2, 5]), dimensionality := some 1 }] := by
  refine List.Forall₂.cons ⟨rfl, rfl, ⟨1, rfl, Or.inr ⟨"1", rfl, by decide⟩⟩, ⟨_, _, rfl, by decide, rfl⟩⟩ List.Forall₂.nil

example : ∃ sp, (fromConfig exInt exLiteral exConf []).2 = .ok sp ∧ sp.objectiveDim = 1 := by
  refine ⟨_, rfl, ?_⟩
  decide +kernel

/-! ## C113: the file of a logger -/

/-- Well-formed calls: as many locations as outputs, at least one, and not final. -/
def GoodCall (c : IterCall) : Prop := c.X.length = c.Y.length ∧ c.Y ≠ [] ∧ c.final = false

/-- A row says the best so far: number and time of the last of the calls, and the best of all the data. -/
def SaysBest (calls : List IterCall) : LogLine → Prop
  | .head _ => False
  | .row n t y x => (∃ c, calls.getLast? = some c ∧ c.iter = n ∧ c.time = t) ∧
      (∃ c ∈ calls, (x, y) ∈ c.X.zip c.Y) ∧ ∀ c ∈ calls, ∀ y' ∈ c.Y, y ≤ y'

/-- The row for the data of a list of calls. -/
theorem loggerRow_best (calls : List IterCall) (hne : calls ≠ []) (hg : ∀ c ∈ calls, GoodCall c) :
    ∃ n t y x, loggerRow (calls.map IterCall.iter) (calls.map IterCall.time) (calls.map IterCall.X)
      (calls.map IterCall.Y) = .ok (n, t, y, x) ∧ SaysBest calls (.row n t y x) := by
  obtain ⟨c, hc⟩ : ∃ c, calls.getLast? = some c := by
    cases h : calls.getLast? with
    | none => exact absurd (List.getLast?_eq_none_iff.1 h) hne
    | some c => exact ⟨c, rfl⟩
  have hlen : List.Forall₂ (fun (X : Mat) (Y : Vec) => X.length = Y.length) (calls.map IterCall.X)
      (calls.map IterCall.Y) := by
    rw [List.forall₂_map_left_iff, List.forall₂_map_right_iff, List.forall₂_same]
    intro c hc
    exact (hg c hc).1
  have hflat : (calls.map IterCall.Y).flatten ≠ [] := by
    obtain ⟨c, cs, rfl⟩ := List.exists_cons_of_ne_nil hne
    have := (hg c (by simp)).2.1
    simp [this]
  obtain ⟨i, y, x, h1, h2, h3, h4⟩ := C79_logged_incumbent (calls.map IterCall.iter) (calls.map IterCall.time)
    (calls.map IterCall.X) (calls.map IterCall.Y) hlen hflat c.iter c.time (by simp [hc]) (by simp [hc])
  refine ⟨_, _, y, x, h1, ⟨c, hc, rfl, rfl⟩, ?_, ?_⟩
  · clear h1 h4 hc hne hflat hlen
    induction calls generalizing i with
    | nil => simp at h2
    | cons a cs ih =>
      have ha := (hg a (by simp)).1
      by_cases hi : i < a.Y.length
      · refine ⟨a, by simp, ?_⟩
        rw [List.map_cons, List.flatten_cons, List.getElem?_append_left hi] at h2
        rw [List.map_cons, List.flatten_cons, List.getElem?_append_left (by omega)] at h3
        apply List.mem_of_getElem? (i := i)
        rw [List.getElem?_zip_eq_some]
        exact ⟨h3, h2⟩
      · rw [List.map_cons, List.flatten_cons, List.getElem?_append_right (by omega)] at h2
        rw [List.map_cons, List.flatten_cons, List.getElem?_append_right (by omega)] at h3
        rw [ha] at h3
        obtain ⟨c', hc', hm⟩ := ih (fun c hc => hg c (List.mem_cons_of_mem _ hc)) (i - a.Y.length) h2 h3
        exact ⟨c', List.mem_cons_of_mem _ hc', hm⟩
  · intro c' hc' y' hy'
    have : y' ∈ (calls.map IterCall.Y).flatten := List.mem_flatten.2 ⟨c'.Y, List.mem_map_of_mem hc', hy'⟩
    obtain ⟨j, hj⟩ := List.getElem?_of_mem this
    exact (h4 j y' hj).1

theorem loggerAppends_append (s : LoggerState) (cs : List IterCall) (c : IterCall) :
    loggerAppends s (cs ++ [c]) = match loggerAppends s cs with
      | (s', some e) => (s', some e)
      | (s', none) => loggerAppend s' c := by
  induction cs generalizing s with
  | nil =>
    simp only [List.nil_append, loggerAppends]
    cases hh : loggerAppend s c with
    | mk s' e => cases e <;> rfl
  | cons a cs ih =>
    simp only [List.cons_append, loggerAppends]
    cases loggerAppend s a with
    | mk s' e =>
      cases e with
      | some e => rfl
      | none => exact ih s'

/-- The number of inputs in the first location. -/
def firstInputs (calls : List IterCall) : Nat := match calls with
  | [] => 0
  | c :: _ => (c.X.headD []).length

/-- The logger after well-formed calls. -/
structure LogInv (k : Nat) (calls : List IterCall) (s : LoggerState) : Prop where
  iters : s.iters = calls.map IterCall.iter
  times : s.times = calls.map IterCall.time
  Xs : s.Xs = calls.map IterCall.X
  Ys : s.Ys = calls.map IterCall.Y
  interval : s.interval = k
  clock : s.clock = (k : Int) - ((calls.length % k : Nat) : Int)
  headline : s.headline = decide (calls.length < k)
  file : ∃ rows, rows.length = calls.length / k ∧
    s.file = some (if calls.length < k then [] else .head (firstInputs calls) :: rows) ∧
    ∀ (j : Nat) (row : LogLine), rows[j]? = some row → SaysBest (calls.take ((j + 1) * k)) row

theorem loggerSave_eq {s : LoggerState} {lines : List LogLine} {n : Nat} {t y : ℚ} {x : Vec} (hf : s.file = some lines)
    (hX : s.Xs ≠ []) (hr : loggerRow s.iters s.times s.Xs s.Ys = .ok (n, t, y, x)) :
    loggerSave s = ({ s with
      file := some ((if s.headline then lines ++ [.head (((s.Xs.headD []).headD []).length)] else lines) ++ [.row n t y x])
      headline := false }, none) := by
  obtain ⟨X, Xs, hXs⟩ := List.exists_cons_of_ne_nil hX
  unfold loggerSave
  rw [hf, hr]
  cases hh : s.headline with
  | false => simp only [Bool.false_eq_true, if_false]
  | true => simp only [if_true, hXs, List.head?_cons, List.headD_cons]

theorem logInv_step {k : Nat} (hk : 0 < k) {calls : List IterCall} {s : LoggerState} (h : LogInv k calls s)
    (c : IterCall) (hg : ∀ a ∈ calls ++ [c], GoodCall a) :
    ∃ s', loggerAppend s c = (s', none) ∧ LogInv k (calls ++ [c]) s' := by
  have hmod := Nat.mod_lt calls.length hk
  have hfin : c.final = false := (hg c (by simp)).2.2
  obtain ⟨rows, r1, r2, r3⟩ := h.file
  have hrows : ∀ (j : Nat) (row : LogLine), rows[j]? = some row → SaysBest ((calls ++ [c]).take ((j + 1) * k)) row := by
    intro j row hj
    have hjl : j < calls.length / k := by
      rw [← r1]; exact (List.getElem?_eq_some_iff.1 hj).1
    have : (j + 1) * k ≤ calls.length := le_trans (Nat.mul_le_mul_right k hjl) (Nat.div_mul_le_self _ _)
    rw [List.take_append_of_le_length this]
    exact r3 j row hj
  by_cases hc : calls.length % k + 1 = k
  · -- the file is written
    have hlen : (calls.length + 1) % k = 0 := by
      rw [Nat.add_mod]
      rcases Nat.lt_or_ge 1 k with h1 | h1
      · rw [Nat.mod_eq_of_lt h1, hc, Nat.mod_self]
      · have : k = 1 := by omega
        subst this; rw [Nat.mod_one]
    have hdiv : (calls.length + 1) / k = calls.length / k + 1 := by
      rcases Nat.lt_or_ge 1 k with h1 | h1
      · rw [Nat.add_div hk, Nat.mod_eq_of_lt h1, hc, if_pos le_rfl, Nat.div_eq_of_lt h1]
      · have : k = 1 := by omega
        subst this
        rw [Nat.div_one, Nat.div_one]
    have hge : ¬ (calls ++ [c]).length < k := by
      rw [List.length_append, List.length_singleton]
      intro hlt
      rw [Nat.mod_eq_of_lt hlt] at hlen
      omega
    have hstep : saverStep s.interval s.clock c.final = ((k : Int), true) := by
      rw [h.interval, h.clock, hfin]
      unfold saverStep
      simp only [Bool.false_eq_true, if_false]
      rw [if_pos (by omega)]
    obtain ⟨n, t, y, x, l1, l2⟩ := loggerRow_best (calls ++ [c]) (by simp) hg
    have hnew : (calls ++ [c]).take ((rows.length + 1) * k) = calls ++ [c] := by
      apply List.take_of_length_le
      rw [r1, ← hdiv, List.length_append, List.length_singleton]
      exact (Nat.div_mul_cancel (Nat.dvd_of_mod_eq_zero hlen)).ge
    refine ⟨{ s with iters := s.iters ++ [c.iter], times := s.times ++ [c.time], Xs := s.Xs ++ [c.X],
                     Ys := s.Ys ++ [c.Y], clock := k, headline := false,
                     file := some (.head (firstInputs (calls ++ [c])) :: (rows ++ [.row n t y x])) }, ?_, ?_⟩
    · unfold loggerAppend
      rw [hstep]
      have hargs : loggerRow (s.iters ++ [c.iter]) (s.times ++ [c.time]) (s.Xs ++ [c.X]) (s.Ys ++ [c.Y])
          = .ok (n, t, y, x) := by
        rw [h.iters, h.times, h.Xs, h.Ys]
        simpa using l1
      have hsave := loggerSave_eq (s :=
        { s with iters := s.iters ++ [c.iter], times := s.times ++ [c.time], Xs := s.Xs ++ [c.X],
                 Ys := s.Ys ++ [c.Y] }) r2 (by simp) hargs
      dsimp only at hsave ⊢
      rw [hsave]
      dsimp only
      rw [h.headline]
      congr 3
      by_cases hlt : calls.length < k
      · have hr0 : rows = [] := by
          rw [Nat.div_eq_of_lt hlt] at r1
          exact List.length_eq_zero_iff.1 r1
        subst hr0
        simp only [hlt, decide_true, if_true]
        cases calls with
        | nil => rw [h.Xs]; rfl
        | cons a cs => rw [h.Xs]; rfl
      · simp only [hlt, decide_false, if_false, Bool.false_eq_true]
        cases calls with
        | nil => simp only [List.length_nil] at hlt; omega
        | cons a cs => rfl
    · refine ⟨by simp [h.iters], by simp [h.times], by simp [h.Xs], by simp [h.Ys], h.interval, ?_, ?_, ?_⟩
      · rw [List.length_append, List.length_singleton, hlen]; simp
      · simp only [hge, decide_false]
      · refine ⟨rows ++ [.row n t y x], ?_, ?_, ?_⟩
        · rw [List.length_append, List.length_append, List.length_singleton, List.length_singleton, hdiv, r1]
        · rw [if_neg hge]
        · intro j row hj
          by_cases hjl : j < rows.length
          · rw [List.getElem?_append_left hjl] at hj
            exact hrows j row hj
          · have hj2 : j = rows.length := by
              have := (List.getElem?_eq_some_iff.1 hj).1
              rw [List.length_append, List.length_singleton] at this
              omega
            subst hj2
            rw [List.getElem?_append_right le_rfl] at hj
            simp only [Nat.sub_self, List.getElem?_cons_zero, Option.some.injEq] at hj
            rw [← hj, hnew]
            exact l2
  · -- the file is not written
    have hlt : calls.length % k + 1 < k := by omega
    have hlen : (calls.length + 1) % k = calls.length % k + 1 := by
      rw [Nat.add_mod, Nat.mod_eq_of_lt (show 1 < k by omega), Nat.mod_eq_of_lt hlt]
    have hdiv : (calls.length + 1) / k = calls.length / k := by
      rw [Nat.add_div hk, Nat.mod_eq_of_lt (show 1 < k by omega), if_neg (by omega),
        Nat.div_eq_of_lt (show 1 < k by omega)]
      rfl
    have hiff : calls.length + 1 < k ↔ calls.length < k := by
      constructor
      · omega
      · intro h1
        rw [Nat.mod_eq_of_lt h1] at hlt
        exact hlt
    have hstep : saverStep s.interval s.clock c.final = ((k : Int) - ((calls.length % k + 1 : Nat) : Int), false) := by
      rw [h.interval, h.clock, hfin]
      unfold saverStep
      simp only [Bool.false_eq_true, if_false]
      rw [if_neg (by omega), if_pos (by omega)]
      simp only [Prod.mk.injEq, and_true]
      push_cast
      omega
    refine ⟨{ s with iters := s.iters ++ [c.iter], times := s.times ++ [c.time], Xs := s.Xs ++ [c.X],
                     Ys := s.Ys ++ [c.Y], clock := (k : Int) - ((calls.length % k + 1 : Nat) : Int) }, ?_, ?_⟩
    · unfold loggerAppend
      rw [hstep]
    · refine ⟨by simp [h.iters], by simp [h.times], by simp [h.Xs], by simp [h.Ys], h.interval, ?_, ?_, ?_⟩
      · rw [List.length_append, List.length_singleton, hlen]
      · rw [List.length_append, List.length_singleton, h.headline]
        simp [hiff]
      · refine ⟨rows, ?_, ?_, hrows⟩
        · rw [List.length_append, List.length_singleton, hdiv, r1]
        · rw [List.length_append, List.length_singleton, r2]
          cases calls with
          | nil => simp only [List.length_nil] at hlt hiff ⊢; simp [hk, hiff]
          | cons a cs => simp only [hiff]; rfl

/-- C113 (partial: the final iteration is missing, see `C113_final_counterexample`). The file of a logger with interval `k`
after any sequence of iterations: empty before the `k`-th one, then a headline with the number of inputs and one row for every
`k`-th iteration. Every row contains the number and the time of its iteration and the best output so far with its location.
If the file could not be opened nothing is ever written and nothing raises. -/
theorem C113_logger_file_partial (k : Nat) (hk : 0 < k) (calls : List IterCall) (hg : ∀ c ∈ calls, GoodCall c) :
    (∃ s, loggerAppends { interval := k, clock := k, file := some [] } calls = (s, none) ∧
      (calls.length < k → s.file = some []) ∧
      (k ≤ calls.length → ∃ rows, s.file = some (.head (firstInputs calls) :: rows) ∧
        rows.length = calls.length / k ∧
        ∀ (j : Nat) (row : LogLine), rows[j]? = some row → SaysBest (calls.take ((j + 1) * k)) row)) ∧
    (∃ s, loggerAppends { interval := k, clock := k, file := none } calls = (s, none) ∧ s.file = none) := by
  constructor
  · have key : ∀ calls : List IterCall, (∀ c ∈ calls, GoodCall c) →
        ∃ s, loggerAppends { interval := k, clock := k, file := some [] } calls = (s, none) ∧ LogInv k calls s := by
      intro calls
      induction calls using List.reverseRecOn with
      | nil =>
        intro _
        refine ⟨_, rfl, rfl, rfl, rfl, rfl, rfl, by simp, by simp [hk], [], by simp, by simp [hk], by simp⟩
      | append_singleton cs c ih =>
        intro hg
        obtain ⟨s, h1, h2⟩ := ih fun a ha => hg a (List.mem_append_left _ ha)
        obtain ⟨s', h3, h4⟩ := logInv_step hk h2 c hg
        exact ⟨s', by rw [loggerAppends_append, h1]; exact h3, h4⟩
    obtain ⟨s, h1, h2⟩ := key calls hg
    obtain ⟨rows, r1, r2, r3⟩ := h2.file
    refine ⟨s, h1, ?_, ?_⟩
    · intro hlt; rw [r2, if_pos hlt]
    · intro hge
      exact ⟨rows, by rw [r2, if_neg (by omega)], r1, r3⟩
  · have key : ∀ (calls : List IterCall) (s : LoggerState), s.file = none →
        ∃ s', loggerAppends s calls = (s', none) ∧ s'.file = none := by
      intro calls
      induction calls with
      | nil => intro s hs; exact ⟨s, rfl, hs⟩
      | cons c cs ih =>
        intro s hs
        have : ∃ s', loggerAppend s c = (s', none) ∧ s'.file = none := by
          unfold loggerAppend
          cases saverStep s.interval s.clock c.final with
          | mk cl b =>
            cases b with
            | false => exact ⟨_, rfl, hs⟩
            | true =>
              simp only [loggerSave, hs]
              exact ⟨_, rfl, rfl⟩
        obtain ⟨s', h1, h2⟩ := this
        obtain ⟨s'', h3, h4⟩ := ih s' h2
        exact ⟨s'', by simp only [loggerAppends, h1, h3], h4⟩
    exact key calls _ rfl

/-- C113 (negation of the full property). A final iteration is never written by a logger with a positive interval, however
good its outputs are. -/
theorem C113_final_counterexample (k : Nat) (hk : 0 < k) (calls : List IterCall) (hg : ∀ c ∈ calls, GoodCall c)
    (last : IterCall) (hl : last.final = true) :
    ∃ s s', loggerAppends { interval := k, clock := k, file := some [] } calls = (s, none) ∧
      loggerAppends { interval := k, clock := k, file := some [] } (calls ++ [last]) = (s', none) ∧
      s'.file = s.file := by
  have key : ∀ calls : List IterCall, (∀ c ∈ calls, GoodCall c) →
      ∃ s, loggerAppends { interval := k, clock := k, file := some [] } calls = (s, none) ∧ LogInv k calls s := by
    intro calls
    induction calls using List.reverseRecOn with
    | nil =>
      intro _
      refine ⟨_, rfl, rfl, rfl, rfl, rfl, rfl, by simp, by simp [hk], [], by simp, by simp [hk], by simp⟩
    | append_singleton cs c ih =>
      intro hg
      obtain ⟨s, h1, h2⟩ := ih fun a ha => hg a (List.mem_append_left _ ha)
      obtain ⟨s', h3, h4⟩ := logInv_step hk h2 c hg
      exact ⟨s', by rw [loggerAppends_append, h1]; exact h3, h4⟩
  obtain ⟨s, h1, h2⟩ := key calls hg
  have hmod := Nat.mod_lt calls.length hk
  have hstep : saverStep s.interval s.clock last.final = (s.clock, false) := by
    rw [h2.clock, hl]
    unfold saverStep
    simp only [if_true]
    rw [if_neg (by omega), if_neg (by omega)]
  refine ⟨s,
    { s with iters := s.iters ++ [last.iter], times := s.times ++ [last.time], Xs := s.Xs ++ [last.X],
             Ys := s.Ys ++ [last.Y] }, h1, ?_, rfl⟩
  · rw [loggerAppends_append, h1]
    dsimp only
    unfold loggerAppend
    rw [hstep]

/-- A line is a headline. -/
def IsHead : LogLine → Prop
  | .head _ => True
  | .row _ _ _ _ => False

/-- C113. Whatever the iterations are, and if the caller goes on after exceptions, the file is empty or has exactly one
headline, in the first line. -/
theorem C113_one_headline (interval clock : Int) (calls : List IterCall) (lines : List LogLine)
    (h : (calls.foldl (fun s c => (loggerAppend s c).1) { interval := interval, clock := clock, file := some [] }).file
      = some lines) :
    lines = [] ∨ ∃ n rows, lines = .head n :: rows ∧ ∀ r ∈ rows, ¬ IsHead r := by
  let Good : LoggerState → Prop := fun s => ∃ lines, s.file = some lines ∧
    ((s.headline = true ∧ lines = []) ∨
      (s.headline = false ∧ ∃ n rows, lines = LogLine.head n :: rows ∧ ∀ r ∈ rows, ¬ IsHead r))
  have hsave : ∀ s, Good s → Good (loggerSave s).1 := by
    rintro s ⟨lines, hf, hh⟩
    unfold loggerSave
    rw [hf]
    dsimp only
    rcases hh with ⟨h1, rfl⟩ | ⟨h1, n, rows, rfl, h2⟩
    · rw [if_pos h1]
      cases hX : s.Xs.head? with
      | none => exact ⟨[], hf, Or.inl ⟨h1, rfl⟩⟩
      | some X =>
        dsimp only
        cases loggerRow s.iters s.times s.Xs s.Ys with
        | error e => exact ⟨_, rfl, Or.inr ⟨rfl, _, [], rfl, by simp⟩⟩
        | ok r => exact ⟨_, rfl, Or.inr ⟨rfl, _, [.row r.1 r.2.1 r.2.2.1 r.2.2.2], rfl, by simp [IsHead]⟩⟩
    · rw [if_neg (by simp [h1])]
      dsimp only
      cases loggerRow s.iters s.times s.Xs s.Ys with
      | error e => exact ⟨_, rfl, Or.inr ⟨rfl, n, rows, rfl, h2⟩⟩
      | ok r =>
        refine ⟨_, rfl, Or.inr ⟨rfl, n, rows ++ [.row r.1 r.2.1 r.2.2.1 r.2.2.2], rfl, ?_⟩⟩
        intro l hl
        rcases List.mem_append.1 hl with hl | hl
        · exact h2 l hl
        · rw [List.mem_singleton] at hl; subst hl; exact id
  have happ : ∀ s c, Good s → Good (loggerAppend s c).1 := by
    rintro s c ⟨lines, hf, hh⟩
    have h1 : Good { s with iters := s.iters ++ [c.iter], times := s.times ++ [c.time], Xs := s.Xs ++ [c.X],
                            Ys := s.Ys ++ [c.Y] } := ⟨lines, hf, hh⟩
    have h2 := hsave _ h1
    unfold loggerAppend
    cases saverStep s.interval s.clock c.final with
    | mk cl b =>
      cases b with
      | false => exact ⟨lines, hf, hh⟩
      | true =>
        dsimp only
        cases hs : loggerSave { s with iters := s.iters ++ [c.iter], times := s.times ++ [c.time], Xs := s.Xs ++ [c.X],
                                       Ys := s.Ys ++ [c.Y] } with
        | mk s2 e =>
          rw [hs] at h2
          obtain ⟨l, g1, g2⟩ := h2
          cases e <;> exact ⟨l, g1, g2⟩
  have hall : ∀ (calls : List IterCall) (s : LoggerState), Good s →
      Good (calls.foldl (fun s c => (loggerAppend s c).1) s) := by
    intro calls
    induction calls with
    | nil => intro s hs; exact hs
    | cons c cs ih => intro s hs; exact ih _ (happ s c hs)
  obtain ⟨l, h1, h2⟩ := hall calls { interval := interval, clock := clock, file := some [] } ⟨[], rfl, Or.inl ⟨rfl, rfl⟩⟩
  rw [h] at h1
  obtain rfl : lines = l := Option.some.inj h1
  rcases h2 with ⟨-, h2⟩ | ⟨-, h2⟩
  · exact Or.inl h2
  · exact Or.inr h2

/-- An iteration without outputs raises after the headline was written; the next one adds its row. -/
example : (([⟨1, 5, [], [], false⟩, ⟨2, 6, [[2]], [4], false⟩] : List IterCall).foldl
    (fun s c => (loggerAppend s c).1) { interval := 1, clock := 1, file := some [] }).file
      = some [.head 0, .row 2 6 4 [2]] := by decide +kernel

/-- Three iterations logged every second time, then a final one. -/
example : (loggerAppends { interval := 2, clock := 2, file := some [] }
    [⟨1, 5, [[0], [1]], [3, 2], false⟩, ⟨2, 6, [[2]], [4], false⟩, ⟨3, 7, [[3]], [1], false⟩,
      ⟨4, 8, [[4]], [0], true⟩]).1.file = some [.head 1, .row 2 6 2 [1]] := by decide +kernel

/-! ## C114: loading the objective -/

/-- C114 (partial: absolute project paths and Python only, see the negations below). From an absolute project path the loader
returns the function with the name of the file, from the file in that directory, whatever the working
directory is, and leaves the project as the working directory. -/
theorem C114_loader_partial {F : Type} (files : Path → Option (List (String × F))) (cwd prj : Path) (hp : prj.abs = true)
    (file stem language : String) (hlang : language.toLower = "python") :
    (loadObjective files cwd (some prj) (some (file, some stem)) language).1 = prj ∧
    ∀ f, (loadObjective files cwd (some prj) (some (file, some stem)) language).2 = .ok f ↔
      ∃ m, files ⟨true, prj.parts ++ [file]⟩ = some m ∧ m.lookup stem = some f := by
  have hj : cwd.join prj = prj := by simp [Path.join, hp]
  have hj2 : prj.join ⟨false, [file]⟩ = ⟨true, prj.parts ++ [file]⟩ := by simp [Path.join, hp]
  have hj3 : prj.join ⟨true, prj.parts ++ [file]⟩ = ⟨true, prj.parts ++ [file]⟩ := by simp [Path.join]
  unfold loadObjective
  simp only [hlang, if_true, hj, hj2, hj3]
  cases hm : files ⟨true, prj.parts ++ [file]⟩ with
  | none => exact ⟨rfl, by simp⟩
  | some m =>
    cases hl : m.lookup stem with
    | none => simp [hl]
    | some f => simp [hl]

/-- C114 (negation of the full property). A relative project path is applied twice: the file is looked for in the
subdirectory of the same name, so that the loader fails although the file is there. -/
theorem C114_relative_path_counterexample :
    let files : Path → Option (List (String × Nat)) := fun p =>
      if p = ⟨true, ["home", "prj", "f.py"]⟩ then some [("f", 7)] else none
    (loadObjective files ⟨true, ["home"]⟩ (some ⟨false, ["prj"]⟩) (some ("f.py", some "f")) "PYTHON").2
      = .error .exception ∧
    (loadObjective files ⟨true, ["home"]⟩ (some ⟨true, ["home", "prj"]⟩) (some ("f.py", some "f")) "PYTHON").2 = .ok 7 := by
  intro files
  have hlow : "PYTHON".toLower = "python" := by decide +kernel
  constructor
  · simp only [loadObjective, hlow, if_true]
    rfl
  · exact ((C114_loader_partial files ⟨true, ["home"]⟩ ⟨true, ["home", "prj"]⟩ rfl "f.py" "f" "PYTHON" hlow).2 7).2
      ⟨[("f", 7)], by simp [files], rfl⟩

/-- C114 (negation). For every other language the loader raises `UnboundLocalError`, after changing the working directory. -/
theorem C114_language_counterexample {F : Type} (files : Path → Option (List (String × F))) (cwd prj : Path)
    (file : String) (stem : Option String) (language : String) (hlang : language.toLower ≠ "python") :
    loadObjective files cwd (some prj) (some (file, stem)) language = (cwd.join prj, .error .unboundLocal) := by
  unfold loadObjective
  simp only [hlang, if_false]

example : "MATLAB".toLower ≠ "python" := by decide +kernel

end GPyOpt.Props
