import Verif.Spec.Correspond
import Verif.Lemmas.UnitsNext

/-! # Lemmas about corresponding problems: suggestions -/

namespace GPyOpt

open Spec Props

/-- What the suggestions of two corresponding problems need: rows of the model correspond under `E`,
rows of the objective under `O`, free columns under `F`; the designs of the kinds `des` (without repeated
rows or not, type) draw corresponding samples. Rounding corresponds at the rows in `ok`; samples and rounded
rows are in `dom`, where decoding corresponds. -/
structure Corr (sp : Space) (c : Ctx) (sp' : Space) (c' : Ctx) (E F O : Vec → Vec)
    (same : DesignOracle → DesignOracle → Prop) (des : Bool → String → Prop) (ok dom : Vec → Prop) : Prop where
  noBandit : sp.hasBandit = false
  samples : ∀ unique t n o o', des unique t → same o o' →
    anchorSamples sp' (some c') unique t n o' = (anchorSamples sp (some c) unique t n o).map (List.map E)
  samplesDom : ∀ unique t n o o' X, des unique t → same o o' →
    anchorSamples sp (some c) unique t n o = .ok X → ∀ r ∈ X, dom r
  domLen : ∀ x, dom x → x.length = sp.modelDim
  start : ∀ x, x.length = sp.modelDim →
    x0NoContext (some c') (E x) = (x0NoContext (some c) x).map F
  expand : ∀ x, x.length = c.noncontextIndex.length →
    c'.expandVector sp' (F x) = (c.expandVector sp x).map E
  round : ∀ x, x.length = sp.modelDim → ok x →
    sp'.roundOptimum2d [E x] = (sp.roundOptimum2d [x]).map (List.map E)
  roundDom : ∀ x m, x.length = sp.modelDim → ok x → sp.roundOptimum2d [x] = .ok m → ∀ r ∈ m, dom r
  roundOk : ∀ x m, x.length = sp.modelDim → ok x → sp.roundOptimum2d [x] = .ok m → ∀ r ∈ m, ok r
  zip : ∀ m, m ≠ [] → (∀ r ∈ m, dom r) →
    sp'.zipInputs (m.map E) = (sp.zipInputs m).map (List.map O)
  inj : ∀ x y, x.length = sp.expanded.length → y.length = sp.expanded.length → O x = O y → x = y

/-- Lists of rows that hold corresponding rows. -/
def SamePoints (n : Nat) (O : Vec → Vec) (p p' : List Vec) : Prop :=
  ∀ z : Vec, z.length = n → (O z ∈ p' ↔ z ∈ p)

/-- Duplicate managers that hold corresponding rows. -/
inductive SameDup (n : Nat) (O : Vec → Vec) : Option DupMgr → Option DupMgr → Prop
  | none : SameDup n O none none
  | some {dm dm' : DupMgr} (h : SamePoints n O dm.points dm'.points) : SameDup n O (some dm) (some dm')

theorem SameDup.isSome {n : Nat} {O : Vec → Vec} {d d' : Option DupMgr} (h : SameDup n O d d') :
    d'.isSome = d.isSome := by cases h <;> rfl

namespace Corr

variable {sp sp' : Space} {c c' : Ctx} {E F O : Vec → Vec} {same : DesignOracle → DesignOracle → Prop}
  {des : Bool → String → Prop} {ok dom : Vec → Prop}

/-- The pair of a location and a value, the location mapped. -/
def mapPt (E : Vec → Vec) (p : Vec × ℚ) : Vec × ℚ := (E p.1, p.2)

theorem zipTuple (h : Corr sp c sp' c' E F O same des ok dom) {x : Vec} (hx : dom x) :
    zipTuple sp' (E x) = (zipTuple sp x).map O := by
  have := h.zip [x] (by simp) (by simpa using hx)
  simp only [List.map_cons, List.map_nil] at this
  simp only [GPyOpt.zipTuple, this]
  simp only [Space.zipInputs, h.noBandit, Bool.false_eq_true, if_false, mapE]
  cases sp.modelToObjective x with
  | error e => rfl
  | ok y => simp [atleast2d]

theorem zipTuple_length (h : Corr sp c sp' c' E F O same des ok dom) {x z : Vec} (hz : GPyOpt.zipTuple sp x = .ok z) :
    z.length = sp.expanded.length := by
  obtain ⟨m, h1, rfl⟩ := Except_map_eq_ok.1 hz
  have h2 := zipInputs_length h.noBandit (by simp) h1
  simp only [Space.zipInputs, h.noBandit, Bool.false_eq_true, if_false, mapE] at h1
  cases hy : sp.modelToObjective x with
  | error e => simp [hy] at h1
  | ok y =>
    simp [hy, atleast2d] at h1
    subst h1
    simpa using h2

theorem isDup (h : Corr sp c sp' c' E F O same des ok dom) {dup dup' : Option DupMgr}
    (hd : SameDup sp.expanded.length O dup dup') {x : Vec} (hx : dom x) :
    isDup dup' sp' (E x) = isDup dup sp x := by
  cases hd with
  | none => rfl
  | @some dm dm' hp =>
    have h1 := h.zipTuple hx
    have h2 := fun z => h.zipTuple_length (x := x) (z := z)
    simp only [GPyOpt.zipTuple] at h1 h2
    simp only [GPyOpt.isDup, DupMgr.isUnzippedDup, DupMgr.isZippedDup]
    cases hz : sp.zipInputs [x] with
    | error e =>
      rw [hz] at h1
      cases hz' : sp'.zipInputs [E x] with
      | error e' => rw [hz'] at h1; simpa using h1
      | ok m => rw [hz'] at h1; simp at h1
    | ok m =>
      rw [hz] at h1
      cases hz' : sp'.zipInputs [E x] with
      | error e' => rw [hz'] at h1; simp at h1
      | ok m' =>
        rw [hz'] at h1
        simp only [Except_map_ok, Except.ok.injEq] at h1
        have hl := h2 m.flatten (by rw [hz]; rfl)
        simp only [Except_map_ok, h1, hp _ hl]

theorem fNoContext (h : Corr sp c sp' c' E F O same des ok dom) {f f' : Vec → Py ℚ} (hf : ∀ x, x.length = sp.modelDim → f' (E x) = f x)
    {y : Vec} (hy : y.length = c.noncontextIndex.length) :
    fNoContext (some c') sp' f' (F y) = fNoContext (some c) sp f y := by
  simp only [GPyOpt.fNoContext, h.expand y hy]
  cases hxx : c.expandVector sp y with
  | error e => rfl
  | ok xx => simp [hf xx (Spec.OtherUnits.expandVector_length hxx)]

theorem applyOptimizer (h : Corr sp c sp' c' E F O same des ok dom) {dup dup' : Option DupMgr}
    (hd : SameDup sp.expanded.length O dup dup') {opt opt' : (Vec → Py ℚ) → Vec → Py Vec}
    (ho : SameWork c.noncontextIndex.length F opt opt') (hok : OptOk sp c ok opt) {f f' : Vec → Py ℚ}
    (hf : ∀ x, x.length = sp.modelDim → f' (E x) = f x) {x0 : Vec} (hx0 : dom x0) :
    applyOptimizer sp' (some c') dup' opt' f' (E x0)
      = (applyOptimizer sp (some c) dup opt f x0).map (mapPt E) := by
  unfold GPyOpt.applyOptimizer
  rw [h.start x0 (h.domLen _ hx0), h.isDup hd hx0]
  cases hx : GPyOpt.x0NoContext (some c) x0 with
  | error e => rfl
  | ok xs =>
    simp only [Except_map_ok]
    cases GPyOpt.isDup dup sp x0 with
    | error e => rfl
    | ok b =>
      cases b with
      | true => rfl
      | false =>
        simp only
        have hlen : xs.length = c.noncontextIndex.length := mapE_length hx
        obtain ⟨ho1, ho2⟩ := ho (GPyOpt.fNoContext (some c) sp f) (GPyOpt.fNoContext (some c') sp' f') xs hlen
          fun y hy => h.fNoContext hf hy
        rw [ho1]
        cases hy : opt (GPyOpt.fNoContext (some c) sp f) xs with
        | error e => rfl
        | ok y =>
          simp only [Except_map_ok, addContext, h.expand _ (ho2 y hy)]
          cases he : c.expandVector sp y with
          | error e => rfl
          | ok yc =>
            have hyc := Spec.OtherUnits.expandVector_length he
            simp only [Except_map_ok, h.round _ hyc (hok _ _ _ _ hy he)]
            cases hr : sp.roundOptimum2d [yc] with
            | error e => rfl
            | ok m =>
              match m with
              | [] => rfl
              | [r] =>
                have hrl := h.roundDom yc [r] hyc (hok _ _ _ _ hy he) hr r (by simp)
                simp only [Except_map_ok, List.map_cons, List.map_nil, h.isDup hd hrl, hf r (h.domLen _ hrl), hf x0 (h.domLen _ hx0)]
                cases GPyOpt.isDup dup sp r with
                | error e => rfl
                | ok b =>
                  cases b with
                  | true => cases f x0 <;> rfl
                  | false => cases f r <;> rfl
              | _ :: _ :: _ => rfl

theorem applyOptimizer_dom (h : Corr sp c sp' c' E F O same des ok dom) {dup : Option DupMgr}
    {opt : (Vec → Py ℚ) → Vec → Py Vec} (hok : OptOk sp c ok opt) {f : Vec → Py ℚ} {x0 : Vec} (hx : dom x0)
    {p : Vec × ℚ} (hp : GPyOpt.applyOptimizer sp (some c) dup opt f x0 = .ok p) : dom p.1 := by
  unfold GPyOpt.applyOptimizer at hp
  split at hp
  · cases hp
  split at hp
  · cases hp
  · cases hp
  split at hp
  · cases hp
  rename_i y hopt
  split at hp
  · cases hp
  rename_i yc hy
  split at hp
  · cases hp
  · rename_i r hr
    have hl := h.roundDom yc _ (Spec.OtherUnits.expandVector_length hy) (hok _ _ _ _ hopt hy) hr r (by simp)
    split at hp
    · cases hp
    · split at hp
      · cases hp
      · cases hp; exact hx
    · split at hp
      · cases hp
      · cases hp; exact hl
  · cases hp

theorem applyOptimizer_ok (h : Corr sp c sp' c' E F O same des ok dom) {dup : Option DupMgr}
    {opt : (Vec → Py ℚ) → Vec → Py Vec} (hok : OptOk sp c ok opt) {f : Vec → Py ℚ} {x0 : Vec} (hx : ok x0)
    {p : Vec × ℚ} (hp : GPyOpt.applyOptimizer sp (some c) dup opt f x0 = .ok p) : ok p.1 := by
  unfold GPyOpt.applyOptimizer at hp
  split at hp
  · cases hp
  split at hp
  · cases hp
  · cases hp
  split at hp
  · cases hp
  rename_i y hopt
  split at hp
  · cases hp
  rename_i yc hy
  split at hp
  · cases hp
  · rename_i r hr
    have hl := h.roundOk yc _ (Spec.OtherUnits.expandVector_length hy) (hok _ _ _ _ hopt hy) hr r (by simp)
    split at hp
    · cases hp
    · split at hp
      · cases hp
      · cases hp; exact hx
    · split at hp
      · cases hp
      · cases hp; exact hl
  · cases hp

theorem optimizedPoints (h : Corr sp c sp' c' E F O same des ok dom) {dup dup' : Option DupMgr}
    (hd : SameDup sp.expanded.length O dup dup') {opt opt' : Nat → (Vec → Py ℚ) → Vec → Py Vec}
    (ho : ∀ k, SameWork c.noncontextIndex.length F (opt k) (opt' k)) (hok : ∀ k, OptOk sp c ok (opt k))
    {f f' : Vec → Py ℚ} (hf : ∀ x, x.length = sp.modelDim → f' (E x) = f x) {A : Mat} (hA : ∀ a ∈ A, dom a) :
    optimizedPoints sp' (some c') dup' opt' f' (A.map E)
      = (optimizedPoints sp (some c) dup opt f A).map (List.map (mapPt E)) := by
  unfold GPyOpt.optimizedPoints
  rw [List.zipIdx_map]
  refine Spec.OtherUnits.mapE_conv A.zipIdx fun a ha => h.applyOptimizer hd (ho a.2) (hok a.2) hf (hA a.1 ?_)
  obtain ⟨_, _, h3⟩ := List.mem_zipIdx ha
  rw [h3]; exact List.getElem_mem _

theorem samples_length (hnb : sp.hasBandit = false) {unique : Bool} {t : String} {n : Nat}
    {o : DesignOracle} {X : Mat} (hX : anchorSamples sp (some c) unique t n o = .ok X) :
    ∀ r ∈ X, r.length = sp.modelDim := by
  unfold anchorSamples anchorSpace at hX
  simp only [hnb, Bool.false_eq_true, if_false] at hX
  split at hX
  · cases hX
  rename_i q hq
  split at hq
  · cases hq
  split at hq
  · cases hq
  cases hq
  split at hX
  · cases hX
  split at hX
  · cases hX
  rw [mapE_eq_ok] at hX
  intro r hr
  obtain ⟨z, -, hz⟩ := forall₂_mem_right hX hr
  exact Spec.OtherUnits.expandVector_length hz

theorem nonDuplicates_map (X : Mat) : ∀ flags : List Bool,
    nonDuplicates (X.map E) flags = (nonDuplicates X flags).map E := by
  induction X with
  | nil => intro flags; rfl
  | cons x X ih =>
    intro flags
    cases flags with
    | nil => rfl
    | cons b flags =>
      have := ih flags
      simp only [nonDuplicates, List.map_cons, List.zip_cons_cons, List.filterMap_cons] at this ⊢
      cases b <;> simp [this]

theorem nonDuplicates_mem {X : Mat} {flags : List Bool} {r : Vec} (hr : r ∈ nonDuplicates X flags) : r ∈ X := by
  unfold nonDuplicates at hr
  obtain ⟨q, hq, hqa⟩ := List.mem_filterMap.1 hr
  have hmem := (List.of_mem_zip (a := q.1) (b := q.2) hq).1
  split_ifs at hqa
  cases hqa
  exact hmem

theorem anchorPoints (h : Corr sp c sp' c' E F O same des ok dom) {dup dup' : Option DupMgr}
    (hd : SameDup sp.expanded.length O dup dup') {unique : Bool} {t : String} (hq : des unique t) (n numAnchor : Nat)
    {o o' : DesignOracle} (ho : same o o') {score score' : Mat → Py (List ℚ)}
    (hs : ∀ X, (∀ r ∈ X, r.length = sp.modelDim) → score' (X.map E) = score X) (argsort : List ℚ → List Nat) :
    anchorPoints sp' (some c') dup' unique t n numAnchor o' score' argsort
      = (anchorPoints sp (some c) dup unique t n numAnchor o score argsort).map (List.map E) := by
  unfold GPyOpt.anchorPoints
  rw [h.samples _ _ _ o o' hq ho]
  cases hX : GPyOpt.anchorSamples sp (some c) unique t n o with
  | error e => rfl
  | ok X =>
    have hl := h.samplesDom _ _ _ _ _ _ hq ho hX
    have hf : mapE (GPyOpt.isDup dup' sp') (X.map E) = mapE (GPyOpt.isDup dup sp) X := by
      have := Spec.OtherUnits.mapE_conv (f := GPyOpt.isDup dup sp) (f' := GPyOpt.isDup dup' sp')
        (g := E) (k := id) X fun x hx => by
          rw [h.isDup hd (hl x hx)]; cases GPyOpt.isDup dup sp x <;> rfl
      rw [this]
      cases mapE (GPyOpt.isDup dup sp) X <;> simp
    simp only [Except_map_ok, hf]
    cases mapE (GPyOpt.isDup dup sp) X with
    | error e => rfl
    | ok flags =>
      simp only [nonDuplicates_map, List.map_eq_nil_iff, hs _ fun r hr => h.domLen _ (hl r (nonDuplicates_mem hr))]
      split_ifs
      · rfl
      · cases score (nonDuplicates X flags) with
        | error e => rfl
        | ok s => exact Spec.OtherUnits.mapE_npGet_map _ _ _

theorem anchorPoints_dom (h : Corr sp c sp' c' E F O same des ok dom) {dup : Option DupMgr} {unique : Bool}
    {t : String} (hq : des unique t) {n numAnchor : Nat} {o o' : DesignOracle} (ho : same o o') {score : Mat → Py (List ℚ)}
    {argsort : List ℚ → List Nat} {A : Mat}
    (hA : GPyOpt.anchorPoints sp (some c) dup unique t n numAnchor o score argsort = .ok A) :
    ∀ a ∈ A, dom a := by
  unfold GPyOpt.anchorPoints at hA
  split at hA
  · cases hA
  rename_i X hX
  have hX' := h.samplesDom _ _ _ _ _ _ hq ho hX
  split at hA
  · cases hA
  rename_i flags hfl
  simp only at hA
  split_ifs at hA
  split at hA
  · cases hA
  rw [mapE_eq_ok] at hA
  intro a ha
  obtain ⟨i, -, hi⟩ := forall₂_mem_right hA ha
  exact hX' _ (nonDuplicates_mem (List.mem_of_getElem? (npGet_ok.1 hi)))

theorem objectiveScores_map {N : Nat} {f f' : Vec → Py ℚ} (hf : ∀ x, x.length = N → f' (E x) = f x) (X : Mat)
    (hX : ∀ r ∈ X, r.length = N) :
    objectiveScores f' (X.map E) = objectiveScores f X := by
  unfold objectiveScores
  have := Spec.OtherUnits.mapE_conv (f := f) (f' := f') (g := E) (k := id) X fun x hx => by
    rw [hf x (hX x hx)]; cases f x <;> rfl
  rw [this]
  cases mapE f X <;> simp

theorem randomScores_map (X : Mat) : randomScores (X.map E) = randomScores X := by
  simp [randomScores]

theorem acqAnchors (h : Corr sp c sp' c' E F O same des ok dom) {dup dup' : Option DupMgr}
    (hd : SameDup sp.expanded.length O dup dup') (op : AcqOptions)
    (hq : ∀ t, anchorDesign op.anchorLogic = some t → des false t) {o o' : AcqOracle}
    (ho : CorrOracle sp.modelDim c.noncontextIndex.length E F same o o') {f f' : Vec → Py ℚ} (hf : ∀ x, x.length = sp.modelDim → f' (E x) = f x) :
    acqAnchors sp' c' dup' op o' f' = (acqAnchors sp c dup op o f).map (List.map E) := by
  unfold GPyOpt.acqAnchors
  rw [ho.argsort]
  split_ifs
  · rename_i h1
    exact h.anchorPoints hd (hq _ (by simp [anchorDesign, h1])) _ _ ho.design (objectiveScores_map hf) _
  · rename_i h1 h2
    exact h.anchorPoints hd (hq _ (by simp [anchorDesign, h2])) _ _ ho.design ho.thompson _
  · rfl

theorem acqAnchors_dom (h : Corr sp c sp' c' E F O same des ok dom) {dup : Option DupMgr} {op : AcqOptions}
    (hq : ∀ t, anchorDesign op.anchorLogic = some t → des false t) {o o' : AcqOracle}
    (ho : same o.design o'.design) {f : Vec → Py ℚ} {A : Mat} (hA : GPyOpt.acqAnchors sp c dup op o f = .ok A) :
    ∀ a ∈ A, dom a := by
  unfold GPyOpt.acqAnchors at hA
  split_ifs at hA
  · rename_i h1
    exact h.anchorPoints_dom (hq _ (by simp [anchorDesign, h1])) ho hA
  · rename_i h1 h2
    exact h.anchorPoints_dom (hq _ (by simp [anchorDesign, h2])) ho hA

theorem acqOptimize (h : Corr sp c sp' c' E F O same des ok dom) {dup dup' : Option DupMgr}
    (hd : SameDup sp.expanded.length O dup dup') (op : AcqOptions)
    (hq : ∀ t, anchorDesign op.anchorLogic = some t → des false t) {o o' : AcqOracle}
    (ho : CorrOracle sp.modelDim c.noncontextIndex.length E F same o o') (hok : ∀ k, OptOk sp c ok (o.opt k)) {f f' : Vec → Py ℚ}
    (hf : ∀ x, x.length = sp.modelDim → f' (E x) = f x) :
    acqOptimize sp' c' dup' op o' f' = (acqOptimize sp c dup op o f).map (mapPt E) := by
  unfold GPyOpt.acqOptimize
  rw [h.acqAnchors hd op hq ho hf]
  cases chooseOptimizer op.optimizerName with
  | error e => rfl
  | ok _ =>
    simp only
    cases hA : GPyOpt.acqAnchors sp c dup op o f with
    | error e => rfl
    | ok A =>
      simp only [Except_map_ok, h.optimizedPoints hd ho.opt hok hf (h.acqAnchors_dom hq ho.design hA)]
      cases GPyOpt.optimizedPoints sp (some c) dup o.opt f A with
      | error e => rfl
      | ok pts =>
        have hv : (pts.map (mapPt E)).map Prod.snd = pts.map Prod.snd := by
          rw [List.map_map]; rfl
        simp only [Except_map_ok, hv]
        cases argmin (pts.map Prod.snd) with
        | error e => rfl
        | ok i =>
          simp only [npGet, List.getElem?_map]
          cases pts[i]? <;> rfl

theorem acqOptimize_dom (h : Corr sp c sp' c' E F O same des ok dom) {dup : Option DupMgr} {op : AcqOptions}
    (hq : ∀ t, anchorDesign op.anchorLogic = some t → des false t) {o o' : AcqOracle}
    (ho : same o.design o'.design) (hok : ∀ k, OptOk sp c ok (o.opt k)) {f : Vec → Py ℚ} {p : Vec × ℚ}
    (hp : GPyOpt.acqOptimize sp c dup op o f = .ok p) : dom p.1 := by
  unfold GPyOpt.acqOptimize at hp
  split at hp
  · cases hp
  split at hp
  · cases hp
  rename_i A hA
  split at hp
  · cases hp
  rename_i pts hpts
  split at hp
  · cases hp
  have hm := List.mem_of_getElem? (npGet_ok.1 hp)
  unfold GPyOpt.optimizedPoints at hpts
  rw [mapE_eq_ok] at hpts
  obtain ⟨a, ha, hap⟩ := forall₂_mem_right hpts hm
  refine h.applyOptimizer_dom (hok a.2) (h.acqAnchors_dom hq ho hA a.1 ?_) hap
  obtain ⟨_, _, h3⟩ := List.mem_zipIdx ha
  rw [h3]; exact List.getElem_mem _

/-! ### Batches -/

theorem SamePoints.cons (h : Corr sp c sp' c' E F O same des ok dom) {p p' : List Vec}
    (hp : SamePoints sp.expanded.length O p p') {z : Vec} (hz : z.length = sp.expanded.length) :
    SamePoints sp.expanded.length O (z :: p) (O z :: p') := by
  intro y hy
  rw [List.mem_cons, List.mem_cons, hp y hy]
  constructor
  · rintro (h1 | h1)
    · exact .inl (h.inj _ _ hy hz h1)
    · exact .inr h1
  · rintro (rfl | h1)
    · exact .inl rfl
    · exact .inr h1

theorem batchLoop (h : Corr sp c sp' c' E F O same des ok dom) {oa oa' : Nat → Vec → Py Vec} (batchSize : Nat) (A : Mat)
    (hA : ∀ a ∈ A, dom a)
    (hl : ∀ k, ∀ a ∈ A, ∀ x, oa k a = .ok x → dom x)
    (hoa : ∀ k, ∀ a ∈ A, oa' k (E a) = (oa k a).map E) : ∀ (k : Nat) (batch : Mat) (seen seen' : List Vec),
    SamePoints sp.expanded.length O seen seen' →
    batchLoop sp' oa' batchSize k (A.map E) (batch.map E) seen'
      = (batchLoop sp oa batchSize k A batch seen).map (List.map E) := by
  induction A with
  | nil => intro k batch seen seen' _; rfl
  | cons a A ih =>
    intro k batch seen seen' hs
    have ih := ih (fun b hb => hA b (by simp [hb])) (fun k b hb => hl k b (by simp [hb]))
      fun k b hb => hoa k b (by simp [hb])
    simp only [List.map_cons, GPyOpt.batchLoop, hoa k a (by simp)]
    cases hx : oa k a with
    | error e => rfl
    | ok x =>
      simp only [Except_map_ok, h.zipTuple (hl k a (by simp) x hx)]
      cases hzx : GPyOpt.zipTuple sp x with
      | error e => rfl
      | ok zx =>
        have l1 := h.zipTuple_length hzx
        simp only [Except_map_ok, hs zx l1]
        have hb : ∀ y, batch.map E ++ [E y] = (batch ++ [y]).map E := fun y => by simp
        simp only [hb, List.length_map]
        by_cases g1 : zx ∉ seen
        · simp only [if_pos g1]
          by_cases g2 : (batch ++ [x]).length = batchSize
          · simp only [if_pos g2, Except_map_ok]
          · simp only [if_neg g2]
            exact ih _ _ _ _ (SamePoints.cons h hs l1)
        · simp only [if_neg g1, h.zipTuple (hA a (by simp))]
          cases hza : GPyOpt.zipTuple sp a with
          | error e => rfl
          | ok za =>
            have l2 := h.zipTuple_length hza
            simp only [Except_map_ok, hs za l2]
            by_cases g3 : za ∉ seen
            · simp only [if_pos g3]
              by_cases g2 : (batch ++ [a]).length = batchSize
              · simp only [if_pos g2, Except_map_ok]
              · simp only [if_neg g2]
                exact ih _ _ _ _ (SamePoints.cons h hs l2)
            · simp only [if_neg g3]
              by_cases g2 : batch.length = batchSize
              · simp only [if_pos g2, Except_map_ok]
              · simp only [if_neg g2]
                exact ih _ _ _ _ hs

theorem vstack_map (m : Mat) : vstack (m.map E) = (vstack m).map (List.map E) := by
  unfold vstack
  simp only [List.map_eq_nil_iff]
  split_ifs <;> rfl

theorem dedupBatch (h : Corr sp c sp' c' E F O same des ok dom) {dm dm' : DupMgr}
    (hd : SamePoints sp.expanded.length O dm.points dm'.points) {anchors anchors' : Py Mat}
    (ha : anchors' = anchors.map (List.map E)) (hal : ∀ A, anchors = .ok A → ∀ a ∈ A, dom a)
    {x0 x0' : Py (Option Vec)} (hx : x0' = x0.map (Option.map E))
    (hxl : ∀ x, x0 = .ok (some x) → dom x ∧ npAny [E x] = npAny [x])
    {oa oa' : Nat → Vec → Py Vec}
    (hl : ∀ A, anchors = .ok A → ∀ k, ∀ a ∈ A, ∀ x, oa k a = .ok x → dom x)
    (hoa : ∀ A, anchors = .ok A → ∀ k, ∀ a ∈ A, oa' k (E a) = (oa k a).map E) (batchSize : Nat) :
    dedupBatch sp' dm' anchors' x0' oa' batchSize
      = (dedupBatch sp dm anchors x0 oa batchSize).map (List.map E) := by
  subst ha hx
  have hlp : ∀ (A batch : Mat) (seen seen' : List Vec), anchors = .ok A →
      SamePoints sp.expanded.length O seen seen' →
      (match GPyOpt.batchLoop sp' oa' batchSize 0 (A.map E) (batch.map E) seen' with
        | .error e => (.error e : Py Mat)
        | .ok b => vstack b)
      = (match GPyOpt.batchLoop sp oa batchSize 0 A batch seen with
        | .error e => (.error e : Py Mat)
        | .ok b => vstack b).map (List.map E) := by
    intro A batch seen seen' hA hs
    rw [h.batchLoop _ _ (hal A hA) (hl A hA) (hoa A hA) _ _ _ _ hs]
    cases GPyOpt.batchLoop sp oa batchSize 0 A batch seen with
    | error e => rfl
    | ok b => simp only [Except_map_ok, vstack_map]
  unfold GPyOpt.dedupBatch
  cases anchors with
  | error e => rfl
  | ok A =>
    simp only [Except_map_ok]
    cases x0 with
    | error e => rfl
    | ok x0 =>
      cases x0 with
      | none =>
        simp only [Except_map_ok, Option.map_none]
        exact hlp A [] dm.points _ rfl hd
      | some x =>
        obtain ⟨hxl, hany⟩ := hxl x rfl
        simp only [Except_map_ok, Option.map_some, hany]
        cases npAny [x] with
        | false => exact hlp A [] dm.points _ rfl hd
        | true =>
          simp only [if_true, h.zipTuple hxl]
          cases hzx : GPyOpt.zipTuple sp x with
          | error e => rfl
          | ok zx => exact hlp A [x] (zx :: dm.points) _ rfl (SamePoints.cons h hd (h.zipTuple_length hzx))

theorem thompsonOptimize (h : Corr sp c sp' c' E F O same des ok dom) {dup dup' : Option DupMgr}
    (hd : SameDup sp.expanded.length O dup dup') {o o' : AcqOracle}
    (ho : CorrOracle sp.modelDim c.noncontextIndex.length E F same o o') (hok : ∀ k, OptOk sp c ok (o.opt k)) {f f' : Vec → Py ℚ}
    (hf : ∀ x, x.length = sp.modelDim → f' (E x) = f x) (k : Nat) {a : Vec} (ha : dom a) (hoa : ok a) :
    thompsonOptimize sp' c' dup' o' f' k (E a) = (thompsonOptimize sp c dup o f k a).map E := by
  unfold GPyOpt.thompsonOptimize
  rw [h.applyOptimizer hd (ho.opt k) (hok k) hf ha]
  cases hp : GPyOpt.applyOptimizer sp (some c) dup (o.opt k) f a with
  | error e => rfl
  | ok p =>
    have hl := h.domLen _ (h.applyOptimizer_dom (hok k) ha hp)
    simp only [Except_map_ok, mapPt, h.round _ hl (h.applyOptimizer_ok (hok k) hoa hp)]
    cases sp.roundOptimum2d [p.1] with
    | error e => rfl
    | ok m =>
      match m with
      | [] => rfl
      | [r] => rfl
      | _ :: _ :: _ => rfl

theorem thompsonOptimize_dom (h : Corr sp c sp' c' E F O same des ok dom) {dup : Option DupMgr} {o : AcqOracle}
    (hok : ∀ k, OptOk sp c ok (o.opt k)) {f : Vec → Py ℚ} {k : Nat} {a x : Vec} (ha : dom a) (hoa : ok a)
    (hx : GPyOpt.thompsonOptimize sp c dup o f k a = .ok x) : dom x := by
  unfold GPyOpt.thompsonOptimize at hx
  split at hx
  · cases hx
  rename_i hp
  have hl := h.domLen _ (h.applyOptimizer_dom (hok k) ha hp)
  split at hx
  · cases hx
  · rename_i hr
    cases hx
    exact h.roundDom _ _ hl (h.applyOptimizer_ok (hok k) hoa hp) hr _ (by simp)
  · cases hx

theorem thompsonBatch (h : Corr sp c sp' c' E F O same des ok dom) {dup dup' : Option DupMgr}
    (hd : SameDup sp.expanded.length O dup dup') (hq : des dup.isSome "random") (numSamples batchSize : Nat) {o o' : BatchOracle}
    (ho : CorrOracle sp.modelDim c.noncontextIndex.length E F same o.batch o'.batch) (hok : ∀ k, OptOk sp c ok (o.batch.opt k))
    (hA : ∀ A, thompsonBatchAnchors sp c dup numSamples batchSize o.batch = .ok A → ∀ a ∈ A, ok a)
    {f f' : Vec → Py ℚ} (hf : ∀ x, x.length = sp.modelDim → f' (E x) = f x) :
    thompsonBatch sp' c' dup' numSamples batchSize o' f'
      = (thompsonBatch sp c dup numSamples batchSize o f).map (List.map E) := by
  have hoA := hA
  replace hA : thompsonBatchAnchors sp' c' dup' numSamples batchSize o'.batch
      = (thompsonBatchAnchors sp c dup numSamples batchSize o.batch).map (List.map E) := by
    unfold thompsonBatchAnchors
    rw [ho.argsort, hd.isSome]
    exact h.anchorPoints hd hq _ _ ho.design ho.thompson _
  cases hd with
  | @some dm dm' hp =>
    exact h.dedupBatch (x0 := .ok none) hp hA (fun A hA => h.anchorPoints_dom hq ho.design hA) rfl
      (fun x hx => by cases hx)
      (fun A hA k a ha x hx =>
        h.thompsonOptimize_dom hok (h.anchorPoints_dom hq ho.design hA a ha) (hoA A hA a ha) hx)
      (fun A hA k a ha =>
        h.thompsonOptimize (.some hp) ho hok hf k (h.anchorPoints_dom hq ho.design hA a ha) (hoA A hA a ha)) batchSize
  | none =>
    unfold GPyOpt.thompsonBatch
    simp only [hA]
    cases hA' : thompsonBatchAnchors sp c none numSamples batchSize o.batch with
    | error e => rfl
    | ok A =>
      simp only [Except_map_ok]
      rw [List.zipIdx_map, ← List.map_take]
      rw [Spec.OtherUnits.mapE_conv (f := fun ka : Vec × Nat => GPyOpt.thompsonOptimize sp c none o.batch f ka.2 ka.1)
        (k := E) (A.zipIdx.take batchSize) fun a ha => by
          have : a.1 ∈ A := by
            have := List.mem_of_mem_take ha
            obtain ⟨_, _, h3⟩ := List.mem_zipIdx this
            rw [h3]; exact List.getElem_mem _
          exact h.thompsonOptimize .none ho hok hf a.2 (h.anchorPoints_dom hq ho.design hA' a.1 this) (hoA A hA' a.1 this)]
      cases mapE (fun ka : Vec × Nat => GPyOpt.thompsonOptimize sp c none o.batch f ka.2 ka.1)
          (A.zipIdx.take batchSize) with
      | error e => rfl
      | ok b => simp only [Except_map_ok, vstack_map]

theorem randomBatch (h : Corr sp c sp' c' E F O same des ok dom) {dup dup' : Option DupMgr}
    (hd : SameDup sp.expanded.length O dup dup')
    (hz : dup.isSome → ∀ x, x.length = sp.modelDim → npAny [E x] = npAny [x]) (op : AcqOptions)
    (hq : ∀ t, anchorDesign op.anchorLogic = some t → des false t) (hq' : des dup.isSome "random")
    (numSamples batchSize : Nat) {o o' : BatchOracle}
    (ho : CorrOracle sp.modelDim c.noncontextIndex.length E F same o.acq o'.acq) (hok : ∀ k, OptOk sp c ok (o.acq.opt k))
    (hb : CorrOracle sp.modelDim c.noncontextIndex.length E F same o.batch o'.batch)
    {f f' : Vec → Py ℚ} (hf : ∀ x, x.length = sp.modelDim → f' (E x) = f x) :
    randomBatch sp' c' dup' op numSamples batchSize o' f'
      = (randomBatch sp c dup op numSamples batchSize o f).map (List.map E) := by
  have hA : randomBatchAnchors sp' c' dup' numSamples batchSize o'.batch
      = (randomBatchAnchors sp c dup numSamples batchSize o.batch).map (List.map E) := by
    unfold randomBatchAnchors
    rw [hb.argsort, hd.isSome]
    exact h.anchorPoints hd hq' _ _ hb.design (fun X _ => randomScores_map X) _
  have hO := h.acqOptimize hd op hq ho hok hf
  cases hd with
  | @some dm dm' hp =>
    refine h.dedupBatch hp hA (fun A hA => h.anchorPoints_dom hq' hb.design hA) ?_ ?_
      (fun A hA k a ha x hx => ?_) (fun A hA k a ha => rfl) batchSize
    · rw [hO]
      cases GPyOpt.acqOptimize sp c (some dm) op o.acq f <;> rfl
    · intro x hx
      obtain ⟨p, hp1, hp2⟩ := Except_map_eq_ok.1 hx
      have := h.acqOptimize_dom hq ho.design hok hp1
      cases hp2
      exact ⟨this, hz rfl _ (h.domLen _ this)⟩
    · cases hx
      exact h.anchorPoints_dom hq' hb.design hA a ha
  | none =>
    unfold GPyOpt.randomBatch
    simp only [hA, hO]
    cases GPyOpt.acqOptimize sp c none op o.acq f with
    | error e => rfl
    | ok p =>
      simp only [Except_map_ok, mapPt]
      cases randomBatchAnchors sp c none numSamples batchSize o.batch with
      | error e => rfl
      | ok A => simp [List.map_take]

theorem lpLoop_map {N : Nat} {opt opt' : Nat → LPState → Py Vec}
    (ho : ∀ k s, CentresOver N s → opt' k (mapLP E s) = (opt k s).map E)
    (hl : ∀ k s x, opt k s = .ok x → x.length = N) (cst : ℚ × ℚ) :
    ∀ (todo k : Nat) (batch : Mat) (s : LPState) (tr : List LPState), (∀ r ∈ batch, r.length = N) →
      lpLoop opt' cst todo k (batch.map E) (mapLP E s) (tr.map (mapLP E))
        = (lpLoop opt cst todo k batch s tr).map
            fun r => (r.1.map E, mapLP E r.2.1, r.2.2.map (mapLP E)) := by
  intro todo
  induction todo with
  | zero => intros; rfl
  | succ todo ih =>
    intro k batch s tr hb
    have hu : (mapLP E s).update (some (batch.map E)) (some cst)
        = mapLP E (s.update (some batch) (some cst)) := rfl
    have hc : CentresOver N (s.update (some batch) (some cst)) := by
      intro m hm
      cases hm
      exact hb
    simp only [lpLoop, hu, ho _ _ hc]
    cases hx : opt k (s.update (some batch) (some cst)) with
    | error e => rfl
    | ok x =>
      simp only [Except_map_ok]
      rw [← ih]
      · simp
      · intro r hr
        rcases List.mem_append.1 hr with hr | hr
        · exact hb r hr
        · rw [List.mem_singleton] at hr
          subst hr
          exact hl _ _ _ hx

theorem lpBatch_map {N : Nat} {opt opt' : Nat → LPState → Py Vec}
    (ho : ∀ k s, CentresOver N s → opt' k (mapLP E s) = (opt k s).map E)
    (hl : ∀ k s x, opt k s = .ok x → x.length = N) (consts : Py (ℚ × ℚ)) (n : Nat) (s : LPState) :
    (lpBatch opt' consts n (mapLP E s)).map Prod.fst
      = ((lpBatch opt consts n s).map Prod.fst).map (List.map E) := by
  have hu : (mapLP E s).update none none = mapLP E (s.update none none) := rfl
  have hc : CentresOver N (s.update none none) := fun m hm => by cases hm
  unfold lpBatch
  simp only [hu, ho _ _ hc]
  cases hx : opt 0 (s.update none none) with
  | error e => rfl
  | ok x =>
    simp only [Except_map_ok]
    split_ifs
    · cases consts with
      | error e => rfl
      | ok cst =>
        have := lpLoop_map ho hl cst (n - 1) 1 [x] (s.update none none) [s.update none none]
          (by simpa using hl _ _ _ hx)
        simp only [List.map_cons, List.map_nil] at this
        simp only [this]
        cases lpLoop opt cst (n - 1) 1 [x] (s.update none none) [s.update none none] <;> rfl
    · rfl

theorem computeBatch (h : Corr sp c sp' c' E F O same des ok dom) {env env' : EvalEnv}
    (he : CorrEnv sp.modelDim c.noncontextIndex.length E F same env env') (hok : EnvOk sp c ok env) (ev : Evaluator) {dup dup' : Option DupMgr}
    (hd : SameDup sp.expanded.length O dup dup')
    (hz : (∀ n, ev ≠ .random n) ∨
      (dup.isSome → ∀ x, x.length = sp.modelDim → npAny [E x] = npAny [x]))
    (hq : ∀ q ∈ designsDrawn ev env.op.anchorLogic dup.isSome, des q.1 q.2)
    (hT : ∀ n A, ev = .thompson n → thompsonBatchAnchors sp c dup env.numSamplesThompson n env.oracle.batch = .ok A →
      ∀ a ∈ A, ok a) :
    computeBatch ev env' sp' c' dup' = (computeBatch ev env sp c dup).map (List.map E) := by
  have hq' : (∀ n, ev ≠ .thompson n) → ∀ t, anchorDesign env.op.anchorLogic = some t → des false t := by
    intro hev t ht
    refine hq (false, t) ?_
    cases ev with
    | thompson n => exact absurd rfl (hev n)
    | _ => simp [designsDrawn, ht]
  cases ev with
  | sequential =>
    have hq' := hq' (by simp)
    simp only [GPyOpt.computeBatch, sequentialBatch, he.op, h.acqOptimize hd env.op hq' he.acq hok.acq he.f]
    cases GPyOpt.acqOptimize sp c dup env.op env.oracle.acq env.f <;> rfl
  | random n =>
    simp only [GPyOpt.computeBatch, he.op, he.samplesRandom]
    refine h.randomBatch hd ?_ _ (hq' (by simp)) (hq (dup.isSome, "random") (by simp [designsDrawn])) _ _ he.acq hok.acq he.batch he.f
    rcases hz with hz | hz
    · exact absurd rfl (hz n)
    · exact hz
  | thompson n =>
    simp only [GPyOpt.computeBatch, he.samplesThompson]
    exact h.thompsonBatch hd (hq (dup.isSome, "random") (by simp [designsDrawn])) _ _ he.batch hok.batch (hT n · rfl) he.f
  | localPenalization n =>
    simp only [GPyOpt.computeBatch, he.op, he.lpConsts, he.lpState]
    refine lpBatch_map (N := sp.modelDim) (fun k s hs => ?_) (fun k s x hx => ?_) _ _ _
    · rw [h.acqOptimize .none env.op (hq' (by simp)) (he.acqLP k) (hok.lp k) fun x hx => he.fLP s x hs hx]
      cases GPyOpt.acqOptimize sp c none env.op (env.acqLP k) (env.fLP s) <;> rfl
    · obtain ⟨p, hp1, rfl⟩ := Except_map_eq_ok.1 hx
      exact h.domLen _ (h.acqOptimize_dom (hq' (by simp)) (he.acqLP k).design (hok.lp k) hp1)

theorem dedupBatch_dom {dm : DupMgr} {anchors : Py Mat}
    (hal : ∀ A, anchors = .ok A → ∀ a ∈ A, dom a) {x0 : Py (Option Vec)}
    (hxl : ∀ x, x0 = .ok (some x) → dom x) {oa : Nat → Vec → Py Vec}
    (hl : ∀ A, anchors = .ok A → ∀ k, ∀ a ∈ A, ∀ x, oa k a = .ok x → dom x) {n : Nat} {b : Mat}
    (hb : GPyOpt.dedupBatch sp dm anchors x0 oa n = .ok b) : ∀ r ∈ b, dom r := by
  have hloop : ∀ (A : Mat), (∀ a ∈ A, dom a) →
      (∀ k, ∀ a ∈ A, ∀ x, oa k a = .ok x → dom x) →
      ∀ (k : Nat) (batch : Mat) (seen : List Vec) (r : Mat), (∀ x ∈ batch, dom x) →
      GPyOpt.batchLoop sp oa n k A batch seen = .ok r → ∀ x ∈ r, dom x := by
    intro A
    induction A with
    | nil => intro _ _ k batch seen r hb h; cases h; exact hb
    | cons a A ih =>
      intro hA ho k batch seen r hb h
      have ih := ih (fun b hb => hA b (by simp [hb])) (fun k b hb => ho k b (by simp [hb]))
      simp only [GPyOpt.batchLoop] at h
      have happ : ∀ y : Vec, dom y → ∀ x ∈ batch ++ [y], dom x := by
        intro y hy x hx
        rcases List.mem_append.1 hx with hx | hx
        · exact hb x hx
        · rw [List.mem_singleton] at hx; subst hx; exact hy
      split at h
      · cases h
      rename_i x hx
      have hx1 := happ x (ho k a (by simp) x hx)
      have ha1 := happ a (hA a (by simp))
      split at h
      · cases h
      split at h
      · split at h
        · cases h; exact hx1
        · exact ih _ _ _ _ hx1 h
      · split at h
        · cases h
        split at h
        · split at h
          · cases h; exact ha1
          · exact ih _ _ _ _ ha1 h
        · split at h
          · cases h; exact hb
          · exact ih _ _ _ _ hb h
  unfold GPyOpt.dedupBatch at hb
  split at hb
  · cases hb
  rename_i A
  split at hb
  · cases hb
  rename_i x0
  simp only at hb
  split at hb
  · cases hb
  rename_i batch seen hst
  have hbatch : ∀ x ∈ batch, dom x := by
    split at hst
    · cases hst; simp
    · split_ifs at hst
      · split at hst
        · cases hst
        · cases hst
          intro x hx
          rw [List.mem_singleton] at hx
          subst hx
          exact hxl _ rfl
      · cases hst; simp
  split at hb
  · cases hb
  rename_i b' hb'
  unfold vstack at hb
  split_ifs at hb
  cases hb
  exact hloop A (hal A rfl) (hl A rfl) _ _ _ _ hbatch hb'

theorem computeBatch_dom (h : Corr sp c sp' c' E F O same des ok dom) {env env' : EvalEnv}
    (he : CorrEnv sp.modelDim c.noncontextIndex.length E F same env env') (hok : EnvOk sp c ok env) {ev : Evaluator}
    {dup : Option DupMgr} (hq : ∀ q ∈ designsDrawn ev env.op.anchorLogic dup.isSome, des q.1 q.2)
    (hT : ∀ n A, ev = .thompson n → thompsonBatchAnchors sp c dup env.numSamplesThompson n env.oracle.batch = .ok A →
      ∀ a ∈ A, ok a) {b : Mat} (hb : GPyOpt.computeBatch ev env sp c dup = .ok b) : ∀ r ∈ b, dom r := by
  have hq' : (∀ n, ev ≠ .thompson n) → ∀ t, anchorDesign env.op.anchorLogic = some t → des false t := by
    intro hev t ht
    refine hq (false, t) ?_
    cases ev with
    | thompson n => exact absurd rfl (hev n)
    | _ => simp [designsDrawn, ht]
  cases ev with
  | sequential =>
    simp only [GPyOpt.computeBatch, sequentialBatch] at hb
    split at hb
    · cases hb
    · rename_i hp
      cases hb
      intro r hr
      rw [List.mem_singleton] at hr
      subst hr
      exact h.acqOptimize_dom (hq' (by simp)) he.acq.design hok.acq hp
  | random n =>
    simp only [GPyOpt.computeBatch, GPyOpt.randomBatch] at hb
    split at hb
    · refine dedupBatch_dom (fun A hA => h.anchorPoints_dom (hq (_, "random") (by simp [designsDrawn])) he.batch.design hA) ?_ ?_ hb
      · intro x hx
        obtain ⟨p, hp1, hp2⟩ := Except_map_eq_ok.1 hx
        cases hp2
        exact h.acqOptimize_dom (hq' (by simp)) he.acq.design hok.acq hp1
      · intro A hA k a ha x hx
        cases hx
        exact h.anchorPoints_dom (hq (_, "random") (by simp [designsDrawn])) he.batch.design hA a ha
    · split at hb
      · cases hb
      rename_i hp
      split at hb
      · cases hb
      rename_i A hA
      cases hb
      intro r hr
      rcases List.mem_cons.1 hr with rfl | hr
      · exact h.acqOptimize_dom (hq' (by simp)) he.acq.design hok.acq hp
      · exact h.anchorPoints_dom (hq (_, "random") (by simp [designsDrawn])) he.batch.design hA r (List.mem_of_mem_take hr)
  | thompson n =>
    simp only [GPyOpt.computeBatch, GPyOpt.thompsonBatch] at hb
    split at hb
    · exact dedupBatch_dom (fun A hA => h.anchorPoints_dom (hq (_, "random") (by simp [designsDrawn])) he.batch.design hA) (by simp)
        (fun A hA k a ha x hx => h.thompsonOptimize_dom hok.batch
          (h.anchorPoints_dom (hq (_, "random") (by simp [designsDrawn])) he.batch.design hA a ha) (hT n A rfl hA a ha) hx) hb
    · split at hb
      · cases hb
      rename_i A hA
      split at hb
      · cases hb
      rename_i b' hb'
      unfold vstack at hb
      split_ifs at hb
      cases hb
      rw [mapE_eq_ok] at hb'
      intro r hr
      obtain ⟨a, ha, har⟩ := forall₂_mem_right hb' hr
      have hmem : a.1 ∈ A := by
        have := List.mem_of_mem_take ha
        obtain ⟨_, _, h3⟩ := List.mem_zipIdx this
        rw [h3]; exact List.getElem_mem _
      exact h.thompsonOptimize_dom hok.batch
        (h.anchorPoints_dom (hq (_, "random") (by simp [designsDrawn])) he.batch.design hA a.1 hmem)
        (hT n A rfl hA a.1 hmem) har
  | localPenalization n =>
    simp only [GPyOpt.computeBatch] at hb
    obtain ⟨r, hr, rfl⟩ := Except_map_eq_ok.1 hb
    obtain ⟨opt, hdef⟩ : ∃ opt : Nat → LPState → Py Vec, opt = fun k s =>
      (GPyOpt.acqOptimize sp c none env.op (env.acqLP k) (env.fLP s)).map Prod.fst := ⟨_, rfl⟩
    rw [← hdef] at hr
    have hopt : ∀ k s x, opt k s = .ok x → dom x := by
      intro k s x hx
      rw [hdef] at hx
      obtain ⟨p, hp1, rfl⟩ := Except_map_eq_ok.1 hx
      exact h.acqOptimize_dom (hq' (by simp)) (he.acqLP k).design (hok.lp k) hp1
    have hloop : ∀ (cst : ℚ × ℚ) (todo k : Nat) (batch : Mat) (s : LPState) (tr : List LPState)
        (q : Mat × LPState × List LPState), (∀ x ∈ batch, dom x) →
        lpLoop opt cst todo k batch s tr = .ok q → ∀ x ∈ q.1, dom x := by
      intro cst todo
      induction todo with
      | zero => intro k batch s tr q hb h; cases h; exact hb
      | succ todo ih =>
        intro k batch s tr q hb h
        simp only [lpLoop] at h
        split at h
        · cases h
        · rename_i x hx
          refine ih _ _ _ _ _ ?_ h
          intro y hy
          rcases List.mem_append.1 hy with hy | hy
          · exact hb y hy
          · rw [List.mem_singleton] at hy; subst hy; exact hopt _ _ _ hx
    unfold lpBatch at hr
    simp only at hr
    split at hr
    · cases hr
    rename_i x hx
    have hx1 : ∀ y ∈ [x], dom y := by
      intro y hy; rw [List.mem_singleton] at hy; subst hy; exact hopt _ _ _ hx
    split_ifs at hr
    · split at hr
      · cases hr
      split at hr
      · cases hr
      rename_i hq
      cases hr
      have := hloop _ _ _ _ _ _ _ hx1 hq
      exact this
    · cases hr; exact hx1

/-- The suggestions of corresponding problems correspond. -/
theorem computeNext_ok {context context' : Option Context}
    (hc : GPyOpt.contextManager sp context = .ok c) (hc' : GPyOpt.contextManager sp' context' = .ok c')
    (h : Corr sp c sp' c' E F O same des ok dom) {env env' : EvalEnv}
    (he : CorrEnv sp.modelDim c.noncontextIndex.length E F same env env') (hok : EnvOk sp c ok env) (ev : Evaluator) (deDup : Bool)
    {X X' : Mat} {pending ignored pending' ignored' : Option Mat}
    (hd : deDup = true → SamePoints sp.expanded.length O (dupMgr X pending ignored).points
      (dupMgr X' pending' ignored').points)
    (hz : deDup = false ∨ (∀ n, ev ≠ .random n) ∨ ∀ x, x.length = sp.modelDim → npAny [E x] = npAny [x])
    (hq : ∀ q ∈ designsDrawn ev env.op.anchorLogic deDup, des q.1 q.2)
    (hT : ∀ n A, ev = .thompson n → thompsonBatchAnchors sp c (if deDup = true then some (dupMgr X pending ignored) else none)
      env.numSamplesThompson n env.oracle.batch = .ok A → ∀ a ∈ A, ok a) :
    computeNext ev env' sp' context' deDup X' pending' ignored'
      = (computeNext ev env sp context deDup X pending ignored).map (List.map O) := by
  unfold GPyOpt.computeNext
  rw [hc, hc']
  simp only
  have hdup : SameDup sp.expanded.length O
      (if deDup = true then some (dupMgr X pending ignored) else none)
      (if deDup = true then some (dupMgr X' pending' ignored') else none) := by
    cases deDup with
    | false => exact .none
    | true => exact .some (hd rfl)
  rw [h.computeBatch he hok ev hdup (by
    rcases hz with hz | hz | hz
    · right; subst hz; simp
    · left; exact hz
    · right; intro _; exact hz) (by cases deDup <;> exact hq) hT]
  cases hb : GPyOpt.computeBatch ev env sp c (if deDup = true then some (dupMgr X pending ignored) else none) with
  | error err => rfl
  | ok b =>
    simp only [Except_map_ok]
    exact h.zip b (computeBatch_ne_nil hb) (h.computeBatch_dom he hok (by cases deDup <;> exact hq) hT hb)

/-- The suggestions of corresponding problems correspond, where rounding corresponds everywhere. -/
theorem computeNext {context context' : Option Context}
    (hc : GPyOpt.contextManager sp context = .ok c) (hc' : GPyOpt.contextManager sp' context' = .ok c')
    (h : Corr sp c sp' c' E F O same des (fun _ => True) dom) {env env' : EvalEnv}
    (he : CorrEnv sp.modelDim c.noncontextIndex.length E F same env env') (ev : Evaluator) (deDup : Bool)
    {X X' : Mat} {pending ignored pending' ignored' : Option Mat}
    (hd : deDup = true → SamePoints sp.expanded.length O (dupMgr X pending ignored).points
      (dupMgr X' pending' ignored').points)
    (hz : deDup = false ∨ (∀ n, ev ≠ .random n) ∨ ∀ x, x.length = sp.modelDim → npAny [E x] = npAny [x])
    (hq : ∀ q ∈ designsDrawn ev env.op.anchorLogic deDup, des q.1 q.2) :
    computeNext ev env' sp' context' deDup X' pending' ignored'
      = (computeNext ev env sp context deDup X pending ignored).map (List.map O) :=
  computeNext_ok hc hc' h he ⟨fun _ _ _ _ _ _ _ => trivial, fun _ _ _ _ _ _ _ => trivial, fun _ _ _ _ _ _ _ _ => trivial⟩ ev deDup hd hz hq
    fun _ _ _ _ _ _ => trivial

end Corr

end GPyOpt
