import Verif.Lemmas.Layout
import Mathlib.Data.List.Nodup

/-!
# Properties C01–C14: design spaces

`config` is the user's list of descriptors; `Spec.kindsOf config` is the list of
one-dimensional variables it denotes.
-/

namespace GPyOpt.Props

open GPyOpt Spec

/-- A concrete mixed configuration used for the non-vacuity examples: a continuous variable of
dimensionality 2, a discrete one and a categorical one. -/
def exConfig : List Desc :=
  [ { name := some "x", type := some "continuous", domain := some (.flat [-1, 1]), dimensionality := some 2 },
    { name := some "d", type := some "discrete", domain := some (.flat [3, 0, 7]) },
    { type := some "categorical", domain := some (.flat [0, 1, 2]) } ]

theorem exConfig_kinds : kindsOf exConfig =
    [.continuous (-1) 1, .continuous (-1) 1, .discrete [3, 0, 7], .categorical [0, 1, 2]] := by
  decide

/-- the example configuration is accepted -/
theorem exConfig_ok : ∃ sp, designSpace exConfig none = .ok sp ∧ sp.hasBandit = false := by
  refine ⟨_, rfl, ?_⟩; decide

/-! ## C01 / C02: encoding and decoding -/

/-- C01. Encoding a non-empty matrix of encodable rows succeeds, gives row by row the encoding of
the specification, and decoding gives back the same matrix. -/
theorem C01_zip_unzip {config : List Desc} {cs : Option (List ConstrDict)} {sp : Space}
    (h : designSpace config cs = .ok sp) (hb : sp.hasBandit = false) (X : Mat) (hX : X ≠ [])
    (hrows : ∀ r ∈ X, List.Forall₂ Encodable (kindsOf config) r) :
    sp.unzipInputs X = .ok (X.map (encodeRow (kindsOf config))) ∧
      sp.zipInputs (X.map (encodeRow (kindsOf config))) = .ok X := by
  rw [← space_kinds_eq h] at *
  constructor
  · have : mapE sp.objectiveToModel X = .ok (X.map (encodeRow sp.kinds)) := by
      apply mapE_map_ok
      intro r hr
      have := objectiveToModelFrom_ok (hrows r hr) [] []
      simpa [sp.objectiveToModel_of hb, Space.kinds] using this
    cases X with
    | nil => exact absurd rfl hX
    | cons r X => simp [Space.unzipInputs, hb, this, atleast2d]
  · have : mapE sp.modelToObjective (X.map (encodeRow sp.kinds)) = .ok X := by
      rw [mapE_eq_ok, List.forall₂_map_left_iff, List.forall₂_same]
      intro r hr
      have := modelToObjectiveFrom_ok (hrows r hr) [] []
      simpa [Space.modelToObjective, Space.kinds] using this
    cases X with
    | nil => exact absurd rfl hX
    | cons r X => simp only [Space.zipInputs, hb]; rw [this]; simp [atleast2d]

example : List.Forall₂ Encodable (kindsOf exConfig) [1/2, -3, 7, 2] := by
  rw [exConfig_kinds]
  exact .cons trivial (.cons trivial (.cons trivial (.cons ⟨2, by decide, by norm_num⟩ .nil)))

/-- C02. Decoding in-domain model rows gives in-domain objective rows, and encoding these gives
back the same rows. -/
theorem C02_unzip_zip {config : List Desc} {cs : Option (List ConstrDict)} {sp : Space}
    (h : designSpace config cs = .ok sp) (hb : sp.hasBandit = false) (Z : Mat) (hZ : Z ≠ [])
    (hrows : ∀ z ∈ Z, ModelDomain (kindsOf config) z) :
    ∃ X, sp.zipInputs Z = .ok X ∧ (∀ x ∈ X, ObjDomain (kindsOf config) x) ∧
      sp.unzipInputs X = .ok Z := by
  have hnb := space_noBandit h hb
  rw [space_kinds_eq h] at hnb
  have : ∃ X : Mat, Z = X.map (encodeRow (kindsOf config)) ∧ ∀ x ∈ X, ObjDomain (kindsOf config) x := by
    clear hZ
    induction Z with
    | nil => exact ⟨[], rfl, by simp⟩
    | cons z Z ih =>
      obtain ⟨X, h1, h2⟩ := ih (fun z hz => hrows z (by simp [hz]))
      obtain ⟨x, hx1, hx2⟩ := exists_encodeRow hnb (hrows z (by simp))
      refine ⟨x :: X, by simp [h1, hx2], ?_⟩
      intro x' hx'
      rcases List.mem_cons.1 hx' with rfl | hx'
      · exact hx1
      · exact h2 x' hx'
  obtain ⟨X, rfl, hX⟩ := this
  have hX' : X ≠ [] := by simpa using hZ
  have := C01_zip_unzip h hb X hX' (fun r hr => encodable_of_objDomain (hX r hr))
  exact ⟨X, this.2, hX, this.1⟩

/-- C02. Encoding is injective on domain points. -/
theorem C02_encode_injective {config : List Desc} {cs : Option (List ConstrDict)} {sp : Space}
    (h : designSpace config cs = .ok sp) (hb : sp.hasBandit = false) (x y : Vec)
    (hx : List.Forall₂ Encodable (kindsOf config) x) (hy : List.Forall₂ Encodable (kindsOf config) y)
    (he : sp.unzipInputs [x] = sp.unzipInputs [y]) : x = y := by
  have h1 := C01_zip_unzip h hb [x] (by simp) (by simpa using hx)
  have h2 := C01_zip_unzip h hb [y] (by simp) (by simpa using hy)
  rw [h1.1, h2.1] at he
  simp only [Except.ok.injEq] at he
  rw [he, h2.2] at h1
  simpa using h1.2.symm

example : ModelDomain (kindsOf exConfig) [1/2, -1, 7, 0, 0, 1] := by
  rw [exConfig_kinds]
  refine ⟨[[1/2], [-1], [7], [0, 0, 1]], .cons ⟨_, rfl, by norm_num, by norm_num⟩
    (.cons ⟨_, rfl, by norm_num, by norm_num⟩ (.cons ⟨_, by simp, rfl⟩
    (.cons ⟨2, by decide, by decide⟩ .nil))), rfl⟩

/-! ## C03–C05: rounding -/

/-- C05. Rounding any vector of the model dimension succeeds with one row which is, variable by
variable, the (first) nearest admissible block. -/
theorem C05_round_nearest {config : List Desc} {cs : Option (List ConstrDict)} {sp : Space}
    (h : designSpace config cs = .ok sp) (hb : sp.hasBandit = false)
    (hne : ∀ k ∈ kindsOf config, NonEmptyDom k) (hvar : kindsOf config ≠ [])
    (x : Vec) (hx : x.length = ((kindsOf config).map width).sum) :
    ∃ bin bout : List Vec, x = bin.flatten ∧
      List.Forall₂ (fun k b => b.length = width k) (kindsOf config) bin ∧
      sp.roundOptimum x = .ok [bout.flatten] ∧
      List.Forall₂ (fun kb b => Nearest kb.1 kb.2 b) ((kindsOf config).zip bin) bout := by
  have hnb := space_noBandit h hb
  rw [← space_kinds_eq h] at *
  obtain ⟨bin, rfl, hbin⟩ := exists_blocks sp.kinds x hx
  obtain ⟨bout, h1, h2⟩ := roundPieces_spec hnb hne hbin [] []
  refine ⟨bin, bout, rfl, hbin, ?_, h2⟩
  have hbo : bout ≠ [] := by
    intro hc
    subst hc
    have := h2.length_eq
    have h3 := hbin.length_eq
    simp only [List.length_zip, List.length_nil] at this
    have : sp.kinds.length = 0 := by unfold Space.kinds at *; omega
    exact hvar (List.length_eq_zero_iff.1 this)
  simp only [List.nil_append, List.append_nil, List.length_nil] at h1
  simp [Space.roundOptimum, h1, concatPieces_flat hbo]

/-- C03. Rounding any vector of the model dimension gives a single row of the domain. -/
theorem C03_round_in_domain {config : List Desc} {cs : Option (List ConstrDict)} {sp : Space}
    (h : designSpace config cs = .ok sp) (hb : sp.hasBandit = false)
    (hne : ∀ k ∈ kindsOf config, NonEmptyDom k) (hvar : kindsOf config ≠ [])
    (x : Vec) (hx : x.length = ((kindsOf config).map width).sum) :
    ∃ r, sp.roundOptimum x = .ok [r] ∧ ModelDomain (kindsOf config) r := by
  obtain ⟨bin, bout, _, h2, h3, h4⟩ := C05_round_nearest h hb hne hvar x hx
  exact ⟨_, h3, bout, forall₂_zip_nearest_valid h2.length_eq h4, rfl⟩

/-- C04. Rounding leaves domain points unchanged. -/
theorem C04_round_fixed {config : List Desc} {cs : Option (List ConstrDict)} {sp : Space}
    (h : designSpace config cs = .ok sp) (hb : sp.hasBandit = false)
    (hne : ∀ k ∈ kindsOf config, NonEmptyDom k) (hvar : kindsOf config ≠ [])
    (x : Vec) (hx : ModelDomain (kindsOf config) x) : sp.roundOptimum x = .ok [x] := by
  have hnb := space_noBandit h hb
  rw [← space_kinds_eq h] at *
  obtain ⟨bin, hv, rfl⟩ := hx
  have hlen : List.Forall₂ (fun k b => b.length = width k) sp.kinds bin := by
    clear hvar hne
    generalize sp.kinds = ks at *
    induction hv with
    | nil => exact .nil
    | @cons k b ks bs h1 _ ih =>
      exact .cons (validBlock_length (hnb k (by simp)) h1) (ih (fun k hk => hnb k (by simp [hk])))
  obtain ⟨bout, h1, h2⟩ := roundPieces_spec hnb hne hlen [] []
  have := forall₂_zip_nearest_self hnb hv h2
  subst this
  have hbo : bout ≠ [] := by
    intro hc
    subst hc
    have h3 := hlen.length_eq
    exact hvar (List.length_eq_zero_iff.1 (by unfold Space.kinds at *; simpa using h3))
  simp only [List.nil_append, List.append_nil, List.length_nil] at h1
  simp [Space.roundOptimum, h1, concatPieces_flat hbo]

/-- C04. Rounding is idempotent. -/
theorem C04_round_idempotent {config : List Desc} {cs : Option (List ConstrDict)} {sp : Space}
    (h : designSpace config cs = .ok sp) (hb : sp.hasBandit = false)
    (hne : ∀ k ∈ kindsOf config, NonEmptyDom k) (hvar : kindsOf config ≠ [])
    (x : Vec) (hx : x.length = ((kindsOf config).map width).sum) :
    ∃ r, sp.roundOptimum x = .ok [r] ∧ sp.roundOptimum2d [r] = .ok [r] := by
  obtain ⟨r, h1, h2⟩ := C03_round_in_domain h hb hne hvar x hx
  exact ⟨r, h1, C04_round_fixed h hb hne hvar r h2⟩

example : (∀ k ∈ kindsOf exConfig, NonEmptyDom k) ∧ kindsOf exConfig ≠ [] ∧
    ([5, 1/3, 2, 1/4, 1/2, 1/2] : Vec).length = ((kindsOf exConfig).map width).sum := by
  rw [exConfig_kinds]
  refine ⟨?_, by simp, by decide⟩
  intro k hk
  simp at hk
  rcases hk with rfl | rfl | rfl <;> simp [NonEmptyDom]

/-- the value computed by the model on this vector (5 is clipped, 2 → 3, first maximum) -/
example : (designSpace exConfig none).bind (fun sp => sp.roundOptimum [5, 1/3, 2, 1/4, 1/2, 1/2])
    = .ok [[1, 1/3, 3, 0, 1, 0]] := by decide +kernel

/-! ## C06: bandits -/

/-- C06 (partial: one bandit variable). Rounding returns one row, the first nearest arm. -/
theorem C06_round_bandit_partial {config : List Desc} {cs : Option (List ConstrDict)} {sp : Space}
    {arms : Mat} (h : designSpace config cs = .ok sp) (hk : kindsOf config = [.bandit arms])
    (hne : arms ≠ []) (x : Vec) (hx : x.length = width (.bandit arms)) :
    ∃ a, sp.roundOptimum x = .ok [a] ∧ Nearest (.bandit arms) x a ∧ a ∈ arms := by
  rw [← space_kinds_eq h] at hk
  obtain ⟨a, h1, h2⟩ := roundBandit_spec hne hx
  refine ⟨a, ?_, h2, nearest_valid h2⟩
  unfold Space.kinds at hk
  rw [List.map_eq_singleton_iff] at hk
  obtain ⟨v, hv, hvk⟩ := hk
  have hs : slice x 0 (width (.bandit arms)) = x := by
    rw [slice, List.drop_zero, List.take_of_length_le (by omega)]
  simp [Space.roundOptimum, hv, roundPieces, hvk, dimInModel_eq_width, hs, Kind.round, h1,
    concatPieces, concatRows, pieceWidth]

/-- Two bandit variables with one-column arms. -/
def exBandits : List Desc :=
  [ { type := some "bandit", domain := some (.rows [[0], [1]]) },
    { type := some "bandit", domain := some (.rows [[5], [6]]) } ]

/-- C06 (negation of the full property): with two bandit variables the rounded value has two
rows instead of one row of two columns. -/
theorem C06_round_bandit_counterexample :
    (designSpace exBandits none).bind (fun sp => sp.roundOptimum [1, 5]) = .ok [[1], [5]] := by
  decide +kernel

/-! ## C07: column layout -/

/-- C07. The columns recorded for the `i`-th variable start where the blocks of the previous
ones end, and have the width of the variable. -/
theorem C07_layout {config : List Desc} {cs : Option (List ConstrDict)} {sp : Space}
    (h : designSpace config cs = .ok sp) (hb : sp.hasBandit = false)
    (i : Nat) (v : EVar) (hv : sp.expanded[i]? = some v) :
    v.idxObj = i ∧ (kindsOf config)[i]? = some v.kind ∧
      v.idxModel = (List.range (width v.kind)).map
        ((((kindsOf config).take i).map width).sum + ·) := by
  have hnb := space_noBandit h hb
  have hk := space_kinds_eq h
  obtain ⟨vars, _, _, _, _, he, _⟩ := designSpace_ok h
  have hk2 : sp.kinds = (vars.flatMap Var.expand).map EVar.kind := by
    rw [Space.kinds, he, computeIndices_kinds]
  rw [← hk]
  rw [hk2] at hnb ⊢
  have hv' := hv
  rw [he] at hv
  obtain ⟨h1, h2⟩ := computeIndices_get _ hnb 0 0 i v hv
  refine ⟨by omega, ?_, by simpa using h2⟩
  rw [← hk2, Space.kinds, List.getElem?_map, hv']
  rfl

/-- C07. Together the recorded columns are exactly `0 .. model_dimensionality-1`, each once. -/
theorem C07_tiling {config : List Desc} {cs : Option (List ConstrDict)} {sp : Space}
    (h : designSpace config cs = .ok sp) (hb : sp.hasBandit = false) :
    sp.expanded.flatMap EVar.idxModel = List.range sp.modelDim ∧
      sp.modelDim = ((kindsOf config).map width).sum := by
  have hnb := space_noBandit h hb
  obtain ⟨vars, _, _, _, _, he, _⟩ := designSpace_ok h
  have hk2 : sp.kinds = (vars.flatMap Var.expand).map EVar.kind := by
    rw [Space.kinds, he, computeIndices_kinds]
  refine ⟨?_, by rw [modelDim_eq, space_kinds_eq h]⟩
  rw [he, computeIndices_flatMap _ (hk2 ▸ hnb), modelDim_eq, hk2]
  simp

/-- C07. The recorded columns of a variable hold, in the encoded row, the encoding of the value
of this variable. -/
theorem C07_columns_hold_encoding {config : List Desc} {cs : Option (List ConstrDict)} {sp : Space}
    (h : designSpace config cs = .ok sp) (hb : sp.hasBandit = false) (row : Vec)
    (hrow : List.Forall₂ Encodable (kindsOf config) row) (v : EVar) (hv : v ∈ sp.expanded) :
    ∃ z x, sp.unzipInputs [row] = .ok [z] ∧ row[v.idxObj]? = some x ∧
      v.idxModel.map (fun c => z[c]?) = (encodeVal v.kind x).map some := by
  obtain ⟨i, hi⟩ := List.getElem?_of_mem hv
  obtain ⟨h1, h2, h3⟩ := C07_layout h hb i v hi
  have hil : i < row.length := by
    have := hrow.length_eq
    have := (List.getElem?_eq_some_iff.1 h2).1
    omega
  refine ⟨encodeRow (kindsOf config) row, row[i], (C01_zip_unzip h hb [row] (by simp)
    (by simpa using hrow)).1, by rw [h1]; exact List.getElem?_eq_getElem hil, ?_⟩
  have hblock := encodeRow_block hrow i v.kind row[i] h2 (List.getElem?_eq_getElem hil)
  rw [h3, map_range_getElem?, hblock]
  rw [encodeRow_length hrow]
  have hi2 := (List.getElem?_eq_some_iff.1 h2)
  obtain ⟨hlt, hk⟩ := hi2
  have : (((kindsOf config).take i).map width).sum + width v.kind
      = (((kindsOf config).take (i + 1)).map width).sum := by
    rw [List.take_add_one, List.getElem?_eq_getElem hlt, hk]
    simp
  rw [this]
  conv => rhs; rw [← List.take_append_drop (i + 1) (kindsOf config)]
  rw [List.map_append, List.sum_append]
  omega

/-- C07 (negation for bandits): for a bandit with two columns only one column is recorded. -/
theorem C07_bandit_counterexample :
    (designSpace [{ type := some "bandit", domain := some (.rows [[0, 0], [1, 1]]) }] none).map
      (fun sp => (sp.expanded.flatMap EVar.idxModel, sp.modelDim)) = .ok ([0], 2) := by
  decide +kernel

/-! ## C08: validation -/

/-- The descriptor's domain has the shape its type requires (as far as the code's own checks
presuppose), and a descriptor with a positive `dimensionality` also has a name. -/
def Shaped (d : Desc) : Prop :=
  (∀ dom, d.domain = some dom →
    (d.type.getD "continuous" = "continuous" → ∃ lo hi r, dom = .flat (lo :: hi :: r)) ∧
    (d.type = some "discrete" ∨ d.type = some "categorical" → ∃ vals, dom = .flat vals) ∧
    (d.type = some "bandit" → ∃ a as, dom = .rows (a :: as))) ∧
  (∀ n, d.dimensionality = some (n + 1) → d.name.isSome)

/-- What a descriptor must satisfy according to the documentation. -/
def DescValid (d : Desc) : Prop :=
  d.domain.isSome ∧ d.type.getD "continuous" ∈ ["continuous", "discrete", "categorical", "bandit"] ∧
    ∀ arms, d.type = some "bandit" → d.domain = some (.rows arms) →
      ∀ a ∈ arms, ∀ b ∈ arms, a.length = b.length

theorem createVariable_shaped {d : Desc} (hs : Shaped d) (nm : String) {dom : Dom}
    (hd : d.domain = some dom) :
    (DescValid d → ∃ v, createVariable nm (d.type.getD "continuous") dom d.dimensionality = .ok v) ∧
    (¬ DescValid d →
      createVariable nm (d.type.getD "continuous") dom d.dimensionality = .error .invalidConfig) := by
  obtain ⟨h1, h2, h3⟩ := hs.1 dom hd
  unfold createVariable
  by_cases c1 : d.type.getD "continuous" = "continuous"
  · obtain ⟨lo, hi, r, rfl⟩ := h1 c1
    rw [if_pos c1]
    refine ⟨fun _ => ⟨_, rfl⟩, fun hn => absurd ?_ hn⟩
    refine ⟨by simp [hd], by simp [c1], ?_⟩
    intro arms hb
    rw [hb] at c1; simp at c1
  have ht : ∃ t, d.type = some t := by
    cases h : d.type with
    | none => rw [h] at c1; simp at c1
    | some t => exact ⟨t, rfl⟩
  obtain ⟨t, ht⟩ := ht
  rw [if_neg c1]
  simp only [ht, Option.getD_some] at h1 h2 h3 c1 ⊢
  by_cases c2 : t = "bandit"
  · subst c2
    obtain ⟨a, as, rfl⟩ := h3 rfl
    simp only [if_pos]
    constructor
    · intro hv
      have : (as.all fun b => b.length == a.length) = true := by
        rw [List.all_eq_true]
        intro b hb
        simpa using hv.2.2 _ ht hd b (by simp [hb]) a (by simp)
      rw [if_pos this]
      exact ⟨_, rfl⟩
    · intro hn
      have : ¬ (as.all fun b => b.length == a.length) = true := by
        intro hall
        apply hn
        refine ⟨by simp [hd], by simp [ht], ?_⟩
        intro arms _ harms
        rw [hd] at harms
        cases harms
        rw [List.all_eq_true] at hall
        have key : ∀ b ∈ a :: as, b.length = a.length := by
          intro b hb
          rcases List.mem_cons.1 hb with rfl | hb
          · rfl
          · simpa using hall b hb
        intro b hb c hc
        rw [key b hb, key c hc]
      rw [if_neg this]
  rw [if_neg c2]
  by_cases c3 : t = "discrete"
  · subst c3
    obtain ⟨vals, rfl⟩ := h2 (.inl rfl)
    rw [if_pos rfl]
    exact ⟨fun _ => ⟨_, rfl⟩, fun hn => absurd ⟨by simp [hd], by simp [ht], by simp [ht]⟩ hn⟩
  rw [if_neg c3]
  by_cases c4 : t = "categorical"
  · subst c4
    obtain ⟨vals, rfl⟩ := h2 (.inr rfl)
    rw [if_pos rfl]
    exact ⟨fun _ => ⟨_, rfl⟩, fun hn => absurd ⟨by simp [hd], by simp [ht], by simp [ht]⟩ hn⟩
  rw [if_neg c4]
  refine ⟨fun hv => ?_, fun _ => rfl⟩
  have := hv.2.1
  simp [ht, c1, c2, c3, c4] at this

theorem translateFrom_shaped {config : List Desc} (hs : ∀ d ∈ config, Shaped d) : ∀ i,
    ((∀ d ∈ config, DescValid d) → ∃ vs, translateFrom i config = .ok vs) ∧
    ((∃ d ∈ config, ¬ DescValid d) → translateFrom i config = .error .invalidConfig) := by
  induction config with
  | nil => intro i; exact ⟨fun _ => ⟨[], rfl⟩, by simp⟩
  | cons d ds ih =>
    intro i
    obtain ⟨ih1, ih2⟩ := ih (fun d hd => hs d (by simp [hd])) (i + 1)
    cases hd : d.domain with
    | none =>
      refine ⟨fun hv => ?_, fun _ => by simp [translateFrom, hd]⟩
      have := (hv d (by simp)).1
      simp [hd] at this
    | some dom =>
      obtain ⟨c1, c2⟩ := createVariable_shaped (hs d (by simp)) (d.name.getD ("var_" ++ toString i)) hd
      constructor
      · intro hv
        obtain ⟨v, hv1⟩ := c1 (hv d (by simp))
        obtain ⟨vs, hvs⟩ := ih1 (fun d hd => hv d (by simp [hd]))
        exact ⟨v :: vs, translateFrom_cons_ok.2 ⟨dom, v, vs, hd, hv1, hvs, rfl⟩⟩
      · intro hex
        by_cases hvd : DescValid d
        · obtain ⟨v, hv1⟩ := c1 hvd
          have : translateFrom (i + 1) ds = .error .invalidConfig := by
            apply ih2
            obtain ⟨d', hd', hn⟩ := hex
            rcases List.mem_cons.1 hd' with rfl | hd'
            · exact absurd hvd hn
            · exact ⟨d', hd', hn⟩
          simp only [translateFrom, hd]
          rw [hv1, this]
        · have := c2 hvd
          simp only [translateFrom, hd]
          rw [this]

theorem expandConfig_shaped {config : List Desc} (hs : ∀ d ∈ config, Shaped d) :
    ∃ cx, expandConfig config = .ok cx := by
  have : ∃ r, mapE expandDesc config = .ok r := by
    apply mapE_total
    intro d hd
    cases hdim : d.dimensionality with
    | none => exact ⟨[d], by simp [expandDesc, hdim]⟩
    | some n => cases n with
      | zero => exact ⟨[], by simp [expandDesc, hdim]⟩
      | succ n =>
        obtain ⟨s, hs⟩ := Option.isSome_iff_exists.1 ((hs d hd).2 n hdim)
        exact ⟨_, by simp [expandDesc, hdim, hs]; rfl⟩
  obtain ⟨r, hr⟩ := this
  exact ⟨r.flatten, by simp [expandConfig, hr]⟩

/-- C08 (partial: descriptors with a `dimensionality` have a name). A configuration of shaped
descriptors is accepted exactly when every descriptor is valid and bandits are not mixed with
other variables; otherwise the error is `InvalidConfigError`. -/
theorem C08_validation_partial (config : List Desc) (cs : Option (List ConstrDict))
    (hs : ∀ d ∈ config, Shaped d) :
    ((∃ sp, designSpace config cs = .ok sp) ↔
      (∀ d ∈ config, DescValid d) ∧
      ¬ ((∃ d ∈ config, d.type = some "bandit") ∧ (∃ d ∈ config, d.type ≠ some "bandit"))) ∧
    ((∃ sp, designSpace config cs = .ok sp) ∨ designSpace config cs = .error .invalidConfig) := by
  obtain ⟨t1, t2⟩ := translateFrom_shaped hs 0
  obtain ⟨cx, hcx⟩ := expandConfig_shaped hs
  by_cases hv : ∀ d ∈ config, DescValid d
  · obtain ⟨vs, hvs⟩ := t1 hv
    have hrel := translateFrom_rel hvs
    have hb1 : vs.any (fun v => v.kind.isBandit) = true ↔ ∃ d ∈ config, d.type = some "bandit" := by
      clear hvs t1 t2 hcx hv hs
      induction hrel with
      | nil => simp
      | @cons d v ds vs h1 _ ih =>
        simp only [List.any_cons, Bool.or_eq_true, ih, List.mem_cons, exists_eq_or_imp, h1.2.1]
    have hb2 : vs.any (fun v => !v.kind.isBandit) = true ↔ ∃ d ∈ config, d.type ≠ some "bandit" := by
      clear hvs t1 t2 hcx hv hs hb1
      induction hrel with
      | nil => simp
      | @cons d v ds vs h1 _ ih =>
        simp only [List.any_cons, Bool.or_eq_true, ih, List.mem_cons, exists_eq_or_imp, ne_eq,
          ← h1.2.1]
        simp
    by_cases hmix : (∃ d ∈ config, d.type = some "bandit") ∧ (∃ d ∈ config, d.type ≠ some "bandit")
    · have ht : translateSpace config = .error .invalidConfig := by
        simp [translateSpace, hvs, hb1.2 hmix.1, hb2.2 hmix.2]
      have hd : designSpace config cs = .error .invalidConfig := by simp [designSpace, ht]
      rw [hd]
      exact ⟨⟨by simp, fun h => absurd hmix h.2⟩, .inr rfl⟩
    · have ht : translateSpace config = .ok vs := by
        simp only [translateSpace, hvs]
        rw [if_neg]
        simpa only [Bool.and_eq_true, hb1, hb2] using hmix
      have hd : ∃ sp, designSpace config cs = .ok sp := by simp [designSpace, ht, hcx]
      exact ⟨⟨fun _ => ⟨hv, hmix⟩, fun _ => hd⟩, .inl hd⟩
  · have hex : ∃ d ∈ config, ¬ DescValid d := by push Not at hv; exact hv
    have hd : designSpace config cs = .error .invalidConfig := by
      simp [designSpace, translateSpace, t2 hex]
    rw [hd]
    exact ⟨⟨by simp, fun h => absurd h.1 hv⟩, .inr rfl⟩

example : (∀ d ∈ exConfig, Shaped d) ∧ (∀ d ∈ exConfig, DescValid d) := by
  constructor
  · intro d hd
    simp [exConfig] at hd
    rcases hd with rfl | rfl | rfl <;> simp [Shaped]
  · intro d hd
    simp [exConfig] at hd
    rcases hd with rfl | rfl | rfl <;> simp [DescValid]

/-- C08 (negation of the full property): a valid descriptor with a `dimensionality` but no
`name` (names are optional, `space.py:179`) is refused with `KeyError`. -/
theorem C08_validation_counterexample :
    (designSpace [{ type := some "continuous", domain := some (.flat [0, 1]), dimensionality := some 2 }]
      none).map (fun _ => ()) = .error .keyError := by decide

/-! ## C09: lookup by name -/

theorem computeIndices_idxObj (l : List EVar) (o m i : Nat) (v : EVar)
    (h : (computeIndices o m l)[i]? = some v) : v.idxObj = o + i := by
  induction l generalizing o m i with
  | nil => simp [computeIndices] at h
  | cons w l ih =>
    cases i with
    | zero =>
      simp only [computeIndices, List.getElem?_cons_zero, Option.some.injEq] at h
      rw [← h]
      rfl
    | succ i =>
      simp only [computeIndices, List.getElem?_cons_succ] at h
      rw [ih _ _ _ h]
      omega

/-- C09. With distinct expanded names the lookup returns the variable itself. -/
theorem C09_find_variable {config : List Desc} {cs : Option (List ConstrDict)} {sp : Space}
    (h : designSpace config cs = .ok sp)
    (hd : (sp.expanded.map EVar.name).Nodup) (i : Nat) (v : EVar) (hv : sp.expanded[i]? = some v) :
    sp.findVariable v.name = .ok v ∧ v.idxObj = i := by
  refine ⟨?_, ?_⟩
  swap
  · obtain ⟨vars, _, _, _, _, he, _⟩ := designSpace_ok h
    rw [he] at hv
    simpa using computeIndices_idxObj _ 0 0 i v hv
  have hmem : v ∈ sp.expanded.reverse := by simpa using List.mem_of_getElem? hv
  have : sp.expanded.reverse.find? (fun w => w.name == v.name) = some v := by
    have hd' : (sp.expanded.reverse.map EVar.name).Nodup := by
      rw [List.map_reverse, List.nodup_reverse]; exact hd
    generalize sp.expanded.reverse = l at hmem hd'
    induction l with
    | nil => simp at hmem
    | cons w l ih =>
      rw [List.find?_cons]
      by_cases hw : w.name = v.name
      · simp only [hw, BEq.rfl]
        rcases List.mem_cons.1 hmem with rfl | hmem
        · rfl
        · simp only [List.map_cons, List.nodup_cons] at hd'
          exact absurd (hw ▸ List.mem_map_of_mem hmem) hd'.1
      · have : (w.name == v.name) = false := by simpa using hw
        simp only [this]
        rcases List.mem_cons.1 hmem with rfl | hmem
        · exact absurd rfl hw
        · exact ih hmem (by simp only [List.map_cons, List.nodup_cons] at hd'; exact hd'.2)
  simp [Space.findVariable, this]

/-- C09. An unknown name raises `InvalidVariableNameError`; a found variable has the name. -/
theorem C09_unknown_name (sp : Space) (name : String) :
    (name ∉ sp.expanded.map EVar.name → sp.findVariable name = .error .invalidVariableName) ∧
    (∀ v, sp.findVariable name = .ok v → v ∈ sp.expanded ∧ v.name = name) := by
  constructor
  · intro h
    have : sp.expanded.reverse.find? (fun v => v.name == name) = none := by
      rw [List.find?_eq_none]
      intro v hv hc
      exact h (by simp at hc; exact hc ▸ List.mem_map_of_mem (by simpa using hv))
    simp [Space.findVariable, this]
  · intro v hv
    unfold Space.findVariable at hv
    cases hf : sp.expanded.reverse.find? (fun v => v.name == name) with
    | none => simp [hf] at hv
    | some w =>
      simp [hf] at hv
      subst hv
      exact ⟨by simpa using List.mem_of_find?_eq_some hf, by simpa using List.find?_some hf⟩

example : (designSpace exConfig none).map (fun sp => sp.expanded.map EVar.name)
    = .ok ["x_1", "x_2", "d", "var_2"] := by decide +kernel

/-- The hypothesis of distinct names is needed: a variable `x` of dimensionality 2 and a variable
`x_1` collide, and the lookup of the first component of `x` returns the other variable. -/
theorem C09_collision :
    (designSpace [ { name := some "x", domain := some (.flat [0, 1]), dimensionality := some 2 },
        { name := some "x_1", domain := some (.flat [5, 6]) } ] none).bind
      (fun sp => (sp.findVariable "x_1").map EVar.idxObj) = .ok 2 := by decide +kernel

/-! ## C10: legacy bounds -/

theorem boundsToSpaceFrom_good (bounds : List (ℚ × ℚ)) : ∀ k,
    List.Forall₂ GoodDesc (boundsToSpaceFrom k bounds)
      (bounds.map fun b => Kind.continuous b.1 b.2) := by
  induction bounds with
  | nil => intro k; exact .nil
  | cons b bs ih =>
    intro k
    refine .cons ⟨by simp [kindOf, kindOfType], by simp, .inr ⟨rfl, rfl⟩⟩ (ih (k + 1))

/-- C10. A space built from `bounds_to_space(bounds)` has exactly these bounds. -/
theorem C10_bounds_to_space (bounds : List (ℚ × ℚ)) :
    ∃ sp, designSpace (boundsToSpace bounds) none = .ok sp ∧ sp.getBounds = .ok bounds := by
  obtain ⟨sp, h1, h2, _⟩ := designSpace_of_good (boundsToSpaceFrom_good bounds 0) none
  refine ⟨sp, h1, ?_⟩
  have : mapE (fun v : EVar => v.kind.getBounds) sp.expanded = .ok (bounds.map fun b => [b]) := by
    rw [mapE_eq_ok]
    unfold Space.kinds at h2
    generalize sp.expanded = ex at h2
    clear h1
    induction bounds generalizing ex with
    | nil => simp at h2; subst h2; exact .nil
    | cons b bs ih =>
      cases ex with
      | nil => simp at h2
      | cons v ex =>
        simp only [List.map_cons, List.cons.injEq] at h2
        exact .cons (by rw [h2.1]; rfl) (ih ex h2.2)
  rw [Space.getBounds, this, Except_map_ok]
  congr 1
  clear this h1 h2
  induction bounds with
  | nil => rfl
  | cons b bs ih => simp [ih]

/-! ## C11: constraints -/

theorem fixConstr_constraint (c : ConstrDict) : (fixConstr c).constraint = constraintOf c := by
  unfold fixConstr constraintOf
  cases c.constrain <;> rfl

/-- C11. Whenever the indicator is computed, there is one weight per row, which is 1 if all
constraints are `≤ 0` on the row, and 0 if some constraint is positive on it. -/
theorem C11_indicator {config : List Desc} {cs : List ConstrDict} {sp : Space}
    (h : designSpace config (some cs) = .ok sp) (X : Mat) (w : List ℚ)
    (hw : sp.indicatorConstraints X = .ok w) :
    w.length = X.length ∧ ∀ (i : Nat) (r : Vec), X[i]? = some r →
      (w[i]? = some 1 ∧ ∀ c ∈ cs, ∃ f v, constraintOf c = some f ∧ f r = .ok v ∧ v ≤ 0) ∨
      (w[i]? = some 0 ∧ ∃ c ∈ cs, ∃ f v, constraintOf c = some f ∧ f r = .ok v ∧ 0 < v) := by
  obtain ⟨_, _, _, _, _, _, hc⟩ := designSpace_ok h
  simp only [Space.indicatorConstraints, hc, Option.map_some] at hw
  obtain ⟨h1, h2⟩ := applyConstrs_ok _ _ _ _ (by simp) (by simp) hw
  refine ⟨h1, ?_⟩
  intro i r hr
  rcases h2 i r 1 hr (by rw [List.getElem?_map, hr]; rfl) with ⟨h3, _, h4⟩ | ⟨h3, h4⟩
  · refine .inl ⟨h3, fun c hc => ?_⟩
    have := h4 (fixConstr c) (List.mem_map_of_mem hc)
    rwa [fixConstr_constraint] at this
  · right
    refine ⟨h3, ?_⟩
    rcases h4 with h4 | ⟨c', hc', h5⟩
    · norm_num at h4
    · obtain ⟨c, hcm, rfl⟩ := List.mem_map.1 hc'
      exact ⟨c, hcm, by rwa [fixConstr_constraint] at h5⟩

/-- C11. The indicator is computed whenever all constraints can be evaluated on all rows, and is
constantly one without constraints. -/
theorem C11_indicator_total {config : List Desc} {cs : List ConstrDict} {sp sp0 : Space}
    (h : designSpace config (some cs) = .ok sp) (h0 : designSpace config none = .ok sp0) (X : Mat)
    (hc : ∀ c ∈ cs, ∃ f, constraintOf c = some f ∧ ∀ r ∈ X, ∃ v, f r = .ok v) :
    (∃ w, sp.indicatorConstraints X = .ok w) ∧ sp0.indicatorConstraints X = .ok (X.map fun _ => 1) := by
  obtain ⟨_, _, _, _, _, _, hcs⟩ := designSpace_ok h
  obtain ⟨_, _, _, _, _, _, hcs0⟩ := designSpace_ok h0
  constructor
  · simp only [Space.indicatorConstraints, hcs, Option.map_some]
    apply applyConstrs_total
    intro c' hc'
    obtain ⟨c, hcm, rfl⟩ := List.mem_map.1 hc'
    rw [fixConstr_constraint]
    exact hc c hcm
  · simp [Space.indicatorConstraints, hcs0]

/-- a constraint `x[:,0] - 1` given with the legacy key -/
example : ((designSpace exConfig (some [{ constrain := some fun r => (npGet r 0).map (· - 1) }])).bind
    fun sp => sp.indicatorConstraints [[0], [1], [2]]) = .ok [1, 1, 0] := by decide +kernel

/-! ## C12: bounds -/

/-- C12. `get_bounds` has one interval per model column, and contains every domain point. -/
theorem C12_bounds {config : List Desc} {cs : Option (List ConstrDict)} {sp : Space}
    (h : designSpace config cs = .ok sp) (hb : sp.hasBandit = false)
    (hne : ∀ k ∈ kindsOf config, NonEmptyDom k) :
    ∃ bs, sp.getBounds = .ok bs ∧ bs.length = ((kindsOf config).map width).sum ∧
      ∀ z, ModelDomain (kindsOf config) z →
        List.Forall₂ (fun (i : ℚ × ℚ) x => i.1 ≤ x ∧ x ≤ i.2) bs z := by
  have hnb := space_noBandit h hb
  rw [← space_kinds_eq h] at *
  unfold Space.getBounds Space.kinds at *
  generalize sp.expanded = ex at hnb hne ⊢
  clear h hb
  induction ex with
  | nil =>
    refine ⟨[], rfl, rfl, ?_⟩
    rintro z ⟨bs, hbs, rfl⟩
    cases hbs
    exact .nil
  | cons v ex ih =>
    obtain ⟨bs, h1, h2, h3⟩ := ih (fun k hk => hnb k (by simp_all)) (fun k hk => hne k (by simp_all))
    obtain ⟨b0, h4, h5, h6, _⟩ := kind_getBounds_spec (hnb v.kind (by simp)) (hne v.kind (by simp))
    rw [Except_map_eq_ok] at h1
    obtain ⟨bss, hm, rfl⟩ := h1
    refine ⟨b0 ++ bss.flatten, ?_, ?_, ?_⟩
    · simp [mapE, h4, hm]
    · simp only [List.length_append, h5, h2, List.map_cons, List.sum_cons]
    · rintro z ⟨blocks, hbl, rfl⟩
      obtain ⟨b, bl', hb1, hb2, rfl⟩ := List.forall₂_cons_left_iff.1 hbl
      rw [List.flatten_cons]
      exact List.rel_append (h6 b hb1) (h3 _ ⟨bl', hb2, rfl⟩)

/-- C12. The bounds of a discrete variable are attained, those of a continuous one are its
domain, those of a categorical one are (0,1) for every category. -/
theorem C12_bounds_values (k : Kind) (hne : NonEmptyDom k) :
    (∀ lo hi, k = .continuous lo hi → k.getBounds = .ok [(lo, hi)]) ∧
    (∀ vals, k = .discrete vals → ∃ a b, k.getBounds = .ok [(a, b)] ∧ a ∈ vals ∧ b ∈ vals ∧
      ∀ v ∈ vals, a ≤ v ∧ v ≤ b) ∧
    (∀ labels, k = .categorical labels → k.getBounds = .ok (labels.map fun _ => (0, 1))) := by
  refine ⟨?_, ?_, ?_⟩
  · rintro lo hi rfl; rfl
  · rintro vals rfl
    obtain ⟨a, ha, ha1, ha2⟩ := pyMin_spec hne
    obtain ⟨b, hb, hb1, hb2⟩ := pyMax_spec hne
    exact ⟨a, b, by simp [Kind.getBounds, ha, hb], ha1, hb1, fun v hv => ⟨ha2 v hv, hb2 v hv⟩⟩
  · rintro labels rfl
    simp [Kind.getBounds, List.map_const']

/-! ## C07: the columns of decoding, rounding and the bounds -/

/-- The recorded columns of a variable pick its block out of any concatenation of blocks of the widths of the
variables. -/
theorem columns_of_blocks {α : Type} {config : List Desc} {cs : Option (List ConstrDict)} {sp : Space}
    (h : designSpace config cs = .ok sp) (hb : sp.hasBandit = false) {bs : List (List α)}
    (hbs : List.Forall₂ (fun k (b : List α) => b.length = width k) (kindsOf config) bs) (i : Nat) (v : EVar)
    (hv : sp.expanded[i]? = some v) :
    ∃ b, bs[i]? = some b ∧ v.idxModel.map (fun c => bs.flatten[c]?) = b.map some := by
  obtain ⟨-, h2, h3⟩ := C07_layout h hb i v hv
  rw [h3]
  clear h3 hv
  have key : ∀ (ks : List Kind) (bs : List (List α)) (i : Nat) (k : Kind),
      List.Forall₂ (fun k (b : List α) => b.length = width k) ks bs → ks[i]? = some k →
      ∃ b, bs[i]? = some b ∧ ((ks.take i).map width).sum + width k ≤ bs.flatten.length ∧
        slice bs.flatten ((ks.take i).map width).sum (width k) = b := by
    intro ks bs i k hf
    induction hf generalizing i with
    | nil => intro hk; simp at hk
    | @cons k0 b0 ks bs h0 hf ih =>
      intro hk
      cases i with
      | zero =>
        simp only [List.getElem?_cons_zero, Option.some.injEq] at hk
        subst hk
        refine ⟨b0, rfl, ?_, ?_⟩
        · simp [h0]
        · simp [slice, ← h0]
      | succ i =>
        simp only [List.getElem?_cons_succ] at hk
        obtain ⟨b, g1, g2, g3⟩ := ih i hk
        refine ⟨b, by simpa using g1, ?_, ?_⟩
        · simp only [List.take_succ_cons, List.map_cons, List.sum_cons, List.flatten_cons, List.length_append, h0]
          omega
        · rw [← g3]
          simp only [List.take_succ_cons, List.map_cons, List.sum_cons, List.flatten_cons, slice, ← h0]
          rw [← List.drop_drop, List.drop_left]
  obtain ⟨b, g1, g2, g3⟩ := key _ _ i v.kind hbs h2
  exact ⟨b, g1, by rw [map_range_getElem? _ _ _ g2, g3]⟩

theorem forall₂_nearest_width {ks : List Kind} {bin bout : List Vec} (hnb : ∀ k ∈ ks, ∀ arms, k ≠ .bandit arms)
    (h1 : List.Forall₂ (fun k (b : Vec) => b.length = width k) ks bin)
    (h2 : List.Forall₂ (fun (kb : Kind × Vec) b => Nearest kb.1 kb.2 b) (ks.zip bin) bout) :
    List.Forall₂ (fun k (b : Vec) => b.length = width k) ks bout := by
  induction h1 generalizing bout with
  | nil => cases h2; exact .nil
  | @cons k b ks bin h0 _ ih =>
    obtain ⟨b', bout', h3, h4, rfl⟩ := List.forall₂_cons_left_iff.1 h2
    refine .cons ?_ (ih (fun k hk => hnb k (by simp [hk])) h4)
    cases k with
    | continuous lo hi => obtain ⟨x, r, -, rfl, -⟩ := h3; rfl
    | discrete vals => obtain ⟨x, r, i, -, rfl, -⟩ := h3; rfl
    | categorical labels => obtain ⟨i, m, -, rfl, -⟩ := h3; simp [oneHot_length, width]
    | bandit arms => exact absurd rfl (hnb _ (by simp) arms)

/-- C07. Rounding replaces what is in the recorded columns of a variable by the nearest admissible block of this
variable. -/
theorem C07_columns_round {config : List Desc} {cs : Option (List ConstrDict)} {sp : Space}
    (h : designSpace config cs = .ok sp) (hb : sp.hasBandit = false)
    (hne : ∀ k ∈ kindsOf config, NonEmptyDom k) (x : Vec) (hx : x.length = sp.modelDim) (v : EVar)
    (hv : v ∈ sp.expanded) :
    ∃ r a b : Vec, sp.roundOptimum x = .ok [r] ∧ v.idxModel.map (fun c => x[c]?) = a.map some ∧
      v.idxModel.map (fun c => r[c]?) = b.map some ∧ Nearest v.kind a b := by
  obtain ⟨i, hi⟩ := List.getElem?_of_mem hv
  obtain ⟨-, h2, -⟩ := C07_layout h hb i v hi
  have hnb := space_noBandit h hb
  rw [space_kinds_eq h] at hnb
  rw [(C07_tiling h hb).2] at hx
  obtain ⟨bin, bout, rfl, g1, g2, g3⟩ := C05_round_nearest h hb hne (List.ne_nil_of_mem (List.mem_of_getElem? h2)) x hx
  obtain ⟨a, a1, a2⟩ := columns_of_blocks h hb g1 i v hi
  obtain ⟨b, b1, b2⟩ := columns_of_blocks h hb (forall₂_nearest_width hnb g1 g3) i v hi
  refine ⟨bout.flatten, a, b, g2, a2, b2, ?_⟩
  have hz : ((kindsOf config).zip bin)[i]? = some (v.kind, a) := by
    rw [List.getElem?_zip_eq_some]
    exact ⟨h2, a1⟩
  obtain ⟨l1, e1⟩ := List.getElem?_eq_some_iff.1 hz
  obtain ⟨l2, e2⟩ := List.getElem?_eq_some_iff.1 b1
  have := (List.forall₂_iff_get.1 g3).2 i l1 l2
  simp only [List.get_eq_getElem] at this
  rw [e1, e2] at this
  exact this

/-- C07. Decoding a point of the domain reads the value of a variable from the recorded columns of this variable. -/
theorem C07_columns_decode {config : List Desc} {cs : Option (List ConstrDict)} {sp : Space}
    (h : designSpace config cs = .ok sp) (hb : sp.hasBandit = false) (z : Vec) (hz : ModelDomain (kindsOf config) z)
    (v : EVar) (hv : v ∈ sp.expanded) :
    ∃ (row : Vec) (x : ℚ), sp.zipInputs [z] = .ok [row] ∧ row[v.idxObj]? = some x ∧ ValidObj v.kind x ∧
      v.idxModel.map (fun c => z[c]?) = (encodeVal v.kind x).map some := by
  have hnb := space_noBandit h hb
  rw [space_kinds_eq h] at hnb
  obtain ⟨row, h1, rfl⟩ := exists_encodeRow hnb hz
  obtain ⟨i, hi⟩ := List.getElem?_of_mem hv
  obtain ⟨e1, e2, -⟩ := C07_layout h hb i v hi
  have h2 := C01_zip_unzip h hb [row] (by simp) (by simpa using encodable_of_objDomain h1)
  obtain ⟨z, x, g1, g2, g3⟩ := C07_columns_hold_encoding h hb row (encodable_of_objDomain h1) v hv
  rw [h2.1] at g1
  simp only [List.map_cons, List.map_nil, Except.ok.injEq, List.cons.injEq, and_true] at g1
  subst g1
  refine ⟨row, x, h2.2, g2, ?_, g3⟩
  rw [e1] at g2
  obtain ⟨l1, q1⟩ := List.getElem?_eq_some_iff.1 e2
  obtain ⟨l2, q2⟩ := List.getElem?_eq_some_iff.1 g2
  have := (List.forall₂_iff_get.1 h1).2 i l1 l2
  simp only [List.get_eq_getElem] at this
  rwa [q1, q2] at this

/-- C07. The bounds in the recorded columns of a variable are those of this variable. -/
theorem C07_columns_bounds {config : List Desc} {cs : Option (List ConstrDict)} {sp : Space}
    (h : designSpace config cs = .ok sp) (hb : sp.hasBandit = false) (hne : ∀ k ∈ kindsOf config, NonEmptyDom k)
    (v : EVar) (hv : v ∈ sp.expanded) :
    ∃ bs own : List (ℚ × ℚ), sp.getBounds = .ok bs ∧ v.kind.getBounds = .ok own ∧
      v.idxModel.map (fun c => bs[c]?) = own.map some := by
  obtain ⟨i, hi⟩ := List.getElem?_of_mem hv
  have hnb := space_noBandit h hb
  have hk := space_kinds_eq h
  have hw : ∀ l : List EVar, (∀ v ∈ l, (∀ arms, v.kind ≠ .bandit arms) ∧ NonEmptyDom v.kind) →
      ∃ bss, mapE (fun v : EVar => v.kind.getBounds) l = .ok bss ∧
        List.Forall₂ (fun k (b : List (ℚ × ℚ)) => b.length = width k) (l.map EVar.kind) bss := by
    intro l
    induction l with
    | nil => intro _; exact ⟨[], rfl, .nil⟩
    | cons w l ih =>
      intro hl
      obtain ⟨bss, h1, h2⟩ := ih fun w hw => hl w (by simp [hw])
      obtain ⟨b0, h4, h5, -⟩ := kind_getBounds_spec (hl w (by simp)).1 (hl w (by simp)).2
      exact ⟨b0 :: bss, by simp [mapE, h4, h1], .cons h5 h2⟩
  obtain ⟨bss, h1, h2⟩ := hw sp.expanded fun w hw => by
    have hm : w.kind ∈ sp.kinds := List.mem_map_of_mem hw
    exact ⟨hnb _ hm, hne _ (hk ▸ hm)⟩
  rw [show sp.expanded.map EVar.kind = kindsOf config from hk] at h2
  obtain ⟨own, g1, g2⟩ := columns_of_blocks h hb h2 i v hi
  refine ⟨bss.flatten, own, by simp [Space.getBounds, h1], ?_, g2⟩
  rw [mapE_eq_ok] at h1
  obtain ⟨l1, q1⟩ := List.getElem?_eq_some_iff.1 hi
  obtain ⟨l2, q2⟩ := List.getElem?_eq_some_iff.1 g1
  have := (List.forall₂_iff_get.1 h1).2 i l1 l2
  simp only [List.get_eq_getElem] at this
  rwa [q1, q2] at this

example : (designSpace exConfig none).bind (fun sp => sp.getBounds.map fun bs =>
    sp.expanded.map fun v => v.idxModel.map fun c => bs[c]?) =
    (designSpace exConfig none).bind (fun sp => mapE (fun v : EVar => v.kind.getBounds.map (List.map some)) sp.expanded) := by
  decide +kernel

/-! ## C13: the expanded configuration -/

/-- C13. The expanded configuration has one descriptor per expanded variable, with the same kind;
any selection of these descriptors builds a space with exactly the selected variables. -/
theorem C13_expanded_config {config : List Desc} {cs : Option (List ConstrDict)} {sp : Space}
    (h : designSpace config cs = .ok sp) (hb : sp.hasBandit = false) :
    sp.configExpanded.length = sp.objectiveDim ∧
    ∀ (idx : List Nat) (ds : List Desc) (cs' : Option (List ConstrDict)),
      mapE (npGet sp.configExpanded) idx = .ok ds →
      ∃ sp', designSpace ds cs' = .ok sp' ∧ sp'.hasBandit = false ∧
        mapE (npGet (kindsOf config)) idx = .ok (kindsOf ds) ∧
        sp'.expanded.map EVar.kind = kindsOf ds := by
  have hg := expandConfig_good h hb
  have hlen : sp.configExpanded.length = sp.kinds.length := hg.length_eq
  refine ⟨by rw [hlen, Space.kinds, List.length_map]; rfl, ?_⟩
  intro idx ds cs' hds
  have : ∃ ks, mapE (npGet sp.kinds) idx = .ok ks ∧ List.Forall₂ GoodDesc ds ks := by
    induction idx generalizing ds with
    | nil => simp [mapE] at hds; subst hds; exact ⟨[], rfl, .nil⟩
    | cons i idx ih =>
      obtain ⟨d, ds', h1, h2, rfl⟩ := mapE_cons_ok.1 hds
      obtain ⟨ks, h3, h4⟩ := ih ds' h2
      rw [npGet_ok] at h1
      obtain ⟨hi, hd⟩ := List.getElem?_eq_some_iff.1 h1
      have hi' : i < sp.kinds.length := by omega
      have := (List.forall₂_iff_get.1 hg).2 i hi hi'
      simp only [List.get_eq_getElem, hd] at this
      exact ⟨sp.kinds[i] :: ks, mapE_cons_ok.2 ⟨_, _, by rw [npGet_ok]; exact List.getElem?_eq_getElem hi', h3, rfl⟩,
        .cons this h4⟩
  obtain ⟨ks, h1, h2⟩ := this
  obtain ⟨sp', h3, h4, h5, _⟩ := designSpace_of_good h2 cs'
  have h6 := space_kinds_eq h3
  refine ⟨sp', h3, h5, ?_, h6⟩
  rw [← h6, h4, ← space_kinds_eq h, h1]

theorem expandNames {config : List Desc} (hn : ∀ d ∈ config, d.name ≠ none ∧ d.dimensionality ≠ some 1)
    (hb : ∀ d ∈ config, d.type ≠ some "bandit") : ∀ {i : Nat} {vs : List Var} {dss : List (List Desc)},
    translateFrom i config = .ok vs → mapE expandDesc config = .ok dss →
    dss.flatten.map Desc.name = (vs.flatMap Var.expand).map (fun v => some v.name) := by
  induction config with
  | nil =>
    intro i vs dss h1 h2
    simp [translateFrom] at h1
    simp [mapE] at h2
    subst h1 h2
    rfl
  | cons d ds ih =>
    intro i vs dss h1 h2
    obtain ⟨dom, v, vs', g1, g2, g3, rfl⟩ := translateFrom_cons_ok.1 h1
    obtain ⟨e, es, he, hes, rfl⟩ := mapE_cons_ok.1 h2
    have hih := ih (fun d hd => hn d (by simp [hd])) (fun d hd => hb d (by simp [hd])) g3 hes
    rw [List.flatten_cons, List.map_append, List.flatMap_cons, List.map_append, hih]
    congr 1
    obtain ⟨s, hs⟩ := Option.ne_none_iff_exists'.1 (hn d (by simp)).1
    obtain ⟨c1, c2, c3, c4⟩ := createVariable_ok g2
    have hvb : v.kind.isBandit = false := by
      rw [Bool.eq_false_iff]
      intro hc
      have := c3.1 hc
      cases ht : d.type with
      | none => rw [ht] at this; simp at this
      | some t => rw [ht] at this; exact hb d (by simp) (by rw [ht]; simpa using this)
    have hexp : Var.expand v = (List.range v.dimensionality).map fun k =>
        ⟨if v.dimensionality > 1 then v.name ++ "_" ++ toString (k + 1) else v.name, v.kind, 0, []⟩ := by
      unfold Var.expand
      cases hk : v.kind with
      | bandit a => simp [hk, Kind.isBandit] at hvb
      | _ => rfl
    rw [hexp, c4 hvb, c2, hs]
    simp only [expandDesc, hs] at he
    have h1' := (hn d (by simp)).2
    match hd : d.dimensionality with
    | none =>
      simp only [hd, Except.ok.injEq] at he
      subst he
      simp [hs, List.range_succ]
    | some 0 =>
      simp only [hd, Except.ok.injEq] at he
      subst he
      simp
    | some 1 => exact absurd hd h1'
    | some (n + 2) =>
      simp only [hd, Except.ok.injEq] at he
      subst he
      simp [Function.comp_def]

/-- C13, names. If every descriptor has a name and none asks for dimensionality 1 explicitly, then the
descriptors of the expanded configuration have the names of the expanded variables. -/
theorem C13_names {config : List Desc} {cs : Option (List ConstrDict)} {sp : Space}
    (h : designSpace config cs = .ok sp) (hb : sp.hasBandit = false)
    (hn : ∀ d ∈ config, d.name ≠ none ∧ d.dimensionality ≠ some 1) :
    sp.configExpanded.map Desc.name = sp.expanded.map (fun v => some v.name) := by
  have hb' := (hasBandit_eq_false h).1 hb
  unfold designSpace at h
  cases h1 : translateSpace config with
  | error e => simp [h1] at h
  | ok vars =>
    simp only [h1] at h
    cases h2 : expandConfig config with
    | error e => simp [h2] at h
    | ok cx =>
      simp only [h2, Except.ok.injEq] at h
      subst h
      simp only
      unfold expandConfig at h2
      rw [Except_map_eq_ok] at h2
      obtain ⟨dss, h3, rfl⟩ := h2
      rw [expandNames hn hb' (translateSpace_ok h1).1 h3]
      have := congrArg (List.map some) (computeIndices_names (vars.flatMap Var.expand) 0 0)
      simpa [List.map_map, Function.comp_def] using this.symm

/-- C13 (negation for the other descriptors): with an explicit dimensionality 1 the variable is called `x`
but its descriptor `x_1`, and an unnamed variable has no name in the expanded configuration. -/
theorem C13_names_counterexample :
    (designSpace [{ name := some "x", domain := some (.flat [0, 1]), dimensionality := some 1 },
        { domain := some (.flat [0, 1]) }] none).map
      (fun sp => (sp.configExpanded.map Desc.name, sp.expanded.map EVar.name))
      = .ok ([some "x_1", none], ["x", "var_1"]) := by decide +kernel

example : (designSpace exConfig none).map (fun sp => sp.configExpanded.map Desc.name)
    = .ok [some "x_1", some "x_2", some "d", none] := by decide +kernel

/-! ## C14: dimension counts -/

/-- C14. Dimension counts and dimension lists of non-bandit spaces. -/
theorem C14_dimensions {config : List Desc} {cs : Option (List ConstrDict)} {sp : Space}
    (h : designSpace config cs = .ok sp) (hb : sp.hasBandit = false) :
    sp.dimensionality = (kindsOf config).length ∧ sp.objectiveDim = (kindsOf config).length ∧
    (∃ c, sp.getContinuousDims = .ok c ∧ c.Pairwise (· < ·) ∧
      (∀ i, i ∈ c ↔ ∃ lo hi, (kindsOf config)[i]? = some (.continuous lo hi)) ∧
      sp.getContinuousBounds.length = c.length) ∧
    (∃ d, sp.getDiscreteDims = .ok d ∧ d.Pairwise (· < ·) ∧
      (∀ i, i ∈ d ↔ ∃ vals, (kindsOf config)[i]? = some (.discrete vals))) := by
  have hk := space_kinds_eq h
  have hd := dimensionality_eq h hb
  have hl : sp.expanded.length = (kindsOf config).length := by rw [← hk, Space.kinds, List.length_map]
  refine ⟨by omega, by rw [Space.objectiveDim]; omega, ?_, ?_⟩
  · have h1 := dimsWhere_ok Kind.isContinuous sp.expanded (List.range sp.dimensionality) (by
      intro i hi; rw [List.mem_range] at hi; omega)
    refine ⟨_, h1, List.pairwise_lt_range.filter _, ?_, ?_⟩
    · intro i
      rw [List.mem_filter, List.mem_range, ← hk, Space.kinds, List.getElem?_map]
      cases hv : sp.expanded[i]? with
      | none => simp
      | some v =>
        have := (List.getElem?_eq_some_iff.1 hv).1
        cases hkv : v.kind <;> simp [hkv, Kind.isContinuous, hd, this]
    · rw [getContinuousBounds_eq h hb, hd]
      have key : ∀ (ex : List EVar), ((ex.map EVar.kind).filterMap contBound).length
          = ((List.range ex.length).filter
              fun i => (ex[i]?.map (fun v => v.kind.isContinuous)).getD false).length := by
        intro ex
        induction ex with
        | nil => rfl
        | cons v ex ih =>
          rw [List.length_cons, List.range_succ_eq_map, List.filter_cons, List.filter_map]
          simp only [List.getElem?_cons_zero, Option.map_some, Option.getD_some, List.map_cons,
            List.filterMap_cons]
          obtain ⟨nm, k, o, m⟩ := v
          have ih' : (((List.range ex.length).filter ((fun i => (Option.map
              (fun v : EVar => v.kind.isContinuous) (EVar.mk nm k o m :: ex)[i]?).getD false)
                ∘ Nat.succ)).map Nat.succ).length
              = ((ex.map EVar.kind).filterMap contBound).length := by
            rw [ih, List.length_map]; rfl
          cases k with
          | continuous lo hi =>
            simp only [contBound, Kind.isContinuous, if_true, List.length_cons] at ih' ⊢
            rw [ih']
          | _ =>
            simp only [contBound, Kind.isContinuous, Bool.false_eq_true, if_false] at ih' ⊢
            rw [ih']
      exact key sp.expanded
  · have h1 := dimsWhere_ok Kind.isDiscrete sp.expanded (List.range sp.dimensionality) (by
      intro i hi; rw [List.mem_range] at hi; omega)
    refine ⟨_, h1, List.pairwise_lt_range.filter _, ?_⟩
    intro i
    rw [List.mem_filter, List.mem_range, ← hk, Space.kinds, List.getElem?_map]
    cases hv : sp.expanded[i]? with
    | none => simp
    | some v =>
      have := (List.getElem?_eq_some_iff.1 hv).1
      cases hkv : v.kind <;> simp [hkv, Kind.isDiscrete, hd, this]

example : (designSpace exConfig none).bind (fun sp => sp.getContinuousDims) = .ok [0, 1] := by
  decide +kernel

/-- C14. For a bandit variable with several columns the continuous dimensions (and hence
`input_dim`) cannot be asked: `IndexError`. -/
theorem C14_bandit_failure :
    (designSpace [{ type := some "bandit", domain := some (.rows [[0, 0], [1, 1]]) }] none).bind
      (fun sp => sp.getContinuousDims) = .error .indexError ∧
    (designSpace [{ type := some "bandit", domain := some (.rows [[0, 0], [1, 1]]) }] none).bind
      (fun sp => sp.inputDim) = .error .indexError := by
  constructor <;> decide +kernel

end GPyOpt.Props
