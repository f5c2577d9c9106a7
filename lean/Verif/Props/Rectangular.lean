import Verif.Model.Rows
import Verif.Props.Malformed
import Verif.Props.Constructor

/-!
# C142 in the optimization loop: data of another width
-/

namespace GPyOpt.Props

open GPyOpt Spec

theorem stackRows_ok {X S : Mat} {n : Nat} (hX : ∀ x ∈ X, x.length = n) (hS : ∀ x ∈ S, x.length = n) :
    stackRows X S = .ok (X ++ S) := by
  have hall : ∀ x ∈ X ++ S, x.length = n := by
    intro x hx
    rcases List.mem_append.1 hx with hx | hx
    · exact hX x hx
    · exact hS x hx
  unfold stackRows
  cases he : X ++ S with
  | nil => rfl
  | cons r m =>
    rw [he] at hall
    simp only
    rw [if_pos]
    rw [List.all_eq_true]
    intro q hq
    simp [hall q (by simp [hq]), hall r (by simp)]

theorem stackRows_error {X S : Mat} {n : Nat} {x : Vec} (hx : x ∈ X) (hn : x.length ≠ n) {q : Vec} (hq : q ∈ S)
    (hqn : q.length = n) : stackRows X S = .error .valueError := by
  unfold stackRows
  cases he : X ++ S with
  | nil => simp at he; rw [he.1] at hx; simp at hx
  | cons r m =>
    simp only
    rw [if_neg]
    intro hall
    rw [List.all_eq_true] at hall
    have hr : ∀ z ∈ X ++ S, z.length = r.length := by
      rw [he]
      intro z hz
      rcases List.mem_cons.1 hz with rfl | hz
      · rfl
      · simpa using hall z hz
    have h1 := hr x (List.mem_append_left _ hx)
    have h2 := hr q (List.mem_append_right _ hq)
    omega

/-- C142. Data with one entry per variable stay rectangular in any sequence of calls of the interface, whatever their
outcomes, and all later suggestions can be stacked onto them: the check of numpy that the model of the loop leaves out never
raises. -/
theorem C142_data_stay_rectangular {config : List Desc} {cs : Option (List ConstrDict)} {sp : Space}
    (h : designSpace config cs = .ok sp) (hb : sp.hasBandit = false)
    (hs : ∀ k ∈ kindsOf config, Samplable k) (hvar : kindsOf config ≠ [])
    (ev : Evaluator) (deDup : Bool) (hev : GoodEvaluator deDup ev)
    (envs : BOState → EvalEnv) (henvs : ∀ s, GoodEnv (envs s))
    (hacq : ∀ s k, GoodAcq ((envs s).acqLP k))
    (hns : ∀ s n, ev = .random n → n - 1 ≤ (envs s).numSamplesRandom)
    (env : BOEnv) (hsug : env.suggest = stdSuggest sp ev envs deDup)
    (s : BOState) (hX : ∀ x ∈ s.X, x.length = (kindsOf config).length)
    (hcalls : ∀ c ∈ s.world.calls, c.1.length = (kindsOf config).length)
    (ops : List Op) (hops : ∀ op ∈ ops, ValidContext sp (opContext op)) :
    (∀ x ∈ (afterAll env ops s).X, x.length = (kindsOf config).length) ∧
    (∀ c ∈ (afterAll env ops s).world.calls, c.1.length = (kindsOf config).length) ∧
    ∀ (s' : BOState) (m : Mat), s'.X = (afterAll env ops s).X → ValidContext sp s'.context →
      env.suggest s' none none = .ok m → stackRows s'.X m = .ok (s'.X ++ m) := by
  have hsg : ∀ (s : BOState) m, ValidContext sp s.context → env.suggest s none none = .ok m →
      ∀ x ∈ m, x.length = (kindsOf config).length := by
    intro s m hv hm x hx
    rw [hsug] at hm
    exact (suggestions_in_domain h hb hs hvar hv (henvs s) (hacq s) hev (hns s) hm x hx).1.length_eq.symm
  have key : ∀ (ops : List Op) (s : BOState), (∀ op ∈ ops, ValidContext sp (opContext op)) →
      Inside (fun x => x.length = (kindsOf config).length) s →
      Inside (fun x => x.length = (kindsOf config).length) (afterAll env ops s) := by
    intro ops
    induction ops with
    | nil => intro s _ hs; exact hs
    | cons op ops ih =>
      intro s hops hs
      refine ih _ (fun op' h' => hops op' (List.mem_cons_of_mem _ h')) ?_
      cases op with
      | suggest c p i =>
        obtain ⟨ps, fs, hfr⟩ := suggest_frame (env := env) (c := c) (p := p) (i := i) (s := s)
        simp only [Op.after, hfr]
        exact ⟨hs.calls, hs.rows⟩
      | run a fuel =>
        exact run_inside (P := ValidContext sp) hsg a (hops (.run a fuel) (by simp)) fuel hs
  have hI := key ops s hops ⟨hcalls, hX⟩
  refine ⟨hI.rows, hI.calls, fun s' m he hv hm => stackRows_ok (n := (kindsOf config).length) ?_ (hsg s' m hv hm)⟩
  rw [he]; exact hI.rows

/-- C142 (negation): data with a superfluous entry are accepted when the model is built, and every suggestion is then refused
with a `ValueError` when it is stacked onto the data: the user's mistake is reported in the first iteration and not when the
data are given. -/
theorem C142_wide_data_counterexample {config : List Desc} {cs : Option (List ConstrDict)} {sp : Space}
    (h : designSpace config cs = .ok sp) (hb : sp.hasBandit = false) (row : Vec) (superfluous : ℚ)
    (hrow : ObjDomain (kindsOf config) row) (m : Mat) (hm : m ≠ []) (hmd : ∀ x ∈ m, ObjDomain (kindsOf config) x) :
    sp.unzipInputs [row ++ [superfluous]] = .ok [encodeRow (kindsOf config) row] ∧
    stackRows [row ++ [superfluous]] m = .error .valueError := by
  have henc : List.Forall₂ Encodable (kindsOf config) row := by
    refine hrow.imp ?_
    intro k x hx
    cases k with
    | continuous lo hi => trivial
    | discrete vals => trivial
    | categorical labels => exact hx
    | bandit arms => exact hx
  have hacc : List.Forall₂ Accepted (kindsOf config) ((row ++ [superfluous]).take (kindsOf config).length) := by
    rw [List.take_append_of_le_length hrow.length_eq.le, List.take_of_length_le hrow.length_eq.ge]
    refine henc.imp ?_
    intro k x hx
    cases k with
    | continuous lo hi => trivial
    | discrete vals => trivial
    | categorical labels =>
      obtain ⟨i, hi, rfl⟩ := hx
      have h0 : (0 : ℚ) ≤ i := Nat.cast_nonneg i
      have h1 : (0 : ℚ) ≤ labels.length := Nat.cast_nonneg _
      exact ⟨List.ne_nil_of_length_pos (by omega), by linarith, by exact_mod_cast hi⟩
    | bandit arms => exact hx
  constructor
  · rw [(C142_encode_array h hb [row ++ [superfluous]]).1 (by simpa using hacc)]
    have hz : List.zipWith takenFor (kindsOf config) (row ++ [superfluous])
        = List.zipWith takenFor (kindsOf config) row := by
      have hlen := hrow.length_eq
      clear hacc henc hmd hrow h
      generalize kindsOf config = ks at hlen
      induction ks generalizing row with
      | nil => rfl
      | cons k ks ih =>
        cases row with
        | nil => simp at hlen
        | cons a r => simp only [List.cons_append, List.zipWith_cons_cons]; rw [ih r (by simpa using hlen)]
    obtain ⟨-, -, -, hid⟩ := C142_silent_change h hb row (by
      rw [List.take_append_of_le_length hrow.length_eq.le] at hacc; exact hacc)
    simp only [List.map_cons, List.map_nil, hz, atleast2d]
    rw [hid.2 henc]
  · obtain ⟨q, t, rfl⟩ := List.exists_cons_of_ne_nil hm
    refine stackRows_error (n := (kindsOf config).length) (x := row ++ [superfluous]) (by simp) ?_ (q := q) (by simp)
      (hmd q (by simp)).length_eq.symm
    have := hrow.length_eq
    simp
    omega

/-- Data with a superfluous entry for the space of a number and a category. -/
example : ObjDomain (kindsOf exMixed) [1/2, 2] ∧ stackRows [[1/2, 2, 99]] [[1/4, 0]] = .error .valueError ∧
    stackRows [[1/2, 2]] [[1/4, 0]] = .ok [[1/2, 2], [1/4, 0]] := by
  refine ⟨?_, by decide +kernel, by decide +kernel⟩
  have : kindsOf exMixed = [.continuous 0 1, .categorical [5, 6, 7]] := rfl
  rw [this]
  refine .cons ?_ (.cons ⟨2, by simp, by norm_num⟩ .nil)
  constructor <;> norm_num

end GPyOpt.Props
