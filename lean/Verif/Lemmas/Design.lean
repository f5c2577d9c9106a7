import Verif.Spec.Design
import Verif.Lemmas.Layout

/-! # Lemmas about experiment designs -/

namespace GPyOpt

open Spec

theorem setCol_append (pre : Vec) (x : ℚ) (rest : Vec) (v : ℚ) :
    setCol (pre ++ x :: rest) pre.length v = .ok (pre ++ v :: rest) := by
  simp [setCol]

theorem chooseFrom_ok {α : Type} {dom : List α} (h : dom ≠ []) (i : Nat) :
    ∃ v ∈ dom, chooseFrom dom i = .ok v := by
  have hl : 0 < dom.length := List.length_pos_iff.2 h
  have := Nat.mod_lt i hl
  refine ⟨dom[i % dom.length], List.getElem_mem _, ?_⟩
  simp [chooseFrom, List.getElem?_eq_getElem this]

/-- Value allowed after the non-continuous variables have been filled. -/
def WeakValid (k : Kind) (x : ℚ) : Prop := k.isContinuous = true ∨ ValidObj k x

theorem fillRow_ok (d : Draw) (r : Nat) (vs : List EVar) :
    NoBandit (vs.map EVar.kind) → (∀ k ∈ vs.map EVar.kind, Samplable k) →
    ∀ (pre rest : Vec), rest.length = vs.length →
    ∃ rest', fillRow d r pre.length vs (pre ++ rest) = .ok (pre ++ rest') ∧
      List.Forall₂ WeakValid (vs.map EVar.kind) rest' := by
  induction vs with
  | nil =>
    intro _ _ pre rest hl
    cases rest with
    | nil => exact ⟨[], rfl, .nil⟩
    | cons _ _ => simp at hl
  | cons v vs ih =>
    intro hnb hs pre rest hl
    cases rest with
    | nil => simp at hl
    | cons x rest =>
      have hl' : rest.length = vs.length := by simpa using hl
      have step : ∀ y, ∃ rest', fillRow d r (pre.length + 1) vs (pre ++ y :: rest)
          = .ok (pre ++ y :: rest') ∧ List.Forall₂ WeakValid (vs.map EVar.kind) rest' := by
        intro y
        obtain ⟨rest', h1, h2⟩ := ih (fun k hk => hnb k (by simp at hk ⊢; tauto))
          (fun k hk => hs k (by simp at hk ⊢; tauto)) (pre ++ [y]) rest hl'
        refine ⟨rest', ?_, h2⟩
        simpa using h1
      have hs0 := hs v.kind (by simp)
      simp only [List.map_cons]
      unfold fillRow
      cases hk : v.kind with
      | continuous lo hi =>
        obtain ⟨rest', h1, h2⟩ := step x
        exact ⟨x :: rest', h1, .cons (.inl rfl) h2⟩
      | discrete vals =>
        rw [hk] at hs0
        obtain ⟨y, hy, hc⟩ := chooseFrom_ok hs0 (d.choice pre.length r)
        obtain ⟨rest', h1, h2⟩ := step y
        refine ⟨y :: rest', ?_, .cons (.inr hy) h2⟩
        simp only [hc, setCol_append, h1]
      | categorical labels =>
        rw [hk] at hs0
        obtain ⟨y, hy, hc⟩ := chooseFrom_ok hs0.1 (d.choice pre.length r)
        obtain ⟨rest', h1, h2⟩ := step y
        refine ⟨y :: rest', ?_, .cons (.inr (hs0.2 y hy)) h2⟩
        simp only [hc, setCol_append, h1]
      | bandit arms => exact absurd hk (hnb v.kind (by simp) arms)

/-- Positions of the continuous variables, starting at `s`. -/
def contPos : Nat → List Kind → List Nat
  | _, [] => []
  | s, k :: ks => if k.isContinuous then s :: contPos (s + 1) ks else contPos (s + 1) ks

theorem filter_range_contPos (ex : List EVar) : ∀ s,
    ((List.range ex.length).filter fun i => (ex[i]?.map (fun v => v.kind.isContinuous)).getD false).map
      (s + ·) = contPos s (ex.map EVar.kind) := by
  induction ex with
  | nil => intro s; rfl
  | cons v ex ih =>
    intro s
    rw [List.length_cons, List.range_succ_eq_map, List.filter_cons, List.filter_map, List.map_cons,
      contPos, ← ih (s + 1)]
    have : ((fun i => (Option.map (fun v : EVar => v.kind.isContinuous) (v :: ex)[i]?).getD false)
        ∘ Nat.succ) = fun i => (ex[i]?.map (fun v => v.kind.isContinuous)).getD false := by
      funext i; simp
    rw [this]
    have h2 : ∀ l : List Nat, (l.map Nat.succ).map (s + ·) = l.map (s + 1 + ·) := by
      intro l; rw [List.map_map]; apply List.map_congr_left; intro a _; simp; omega
    simp only [List.getElem?_cons_zero, Option.map_some, Option.getD_some]
    split_ifs
    · simp only [List.map_cons, Nat.add_zero, h2]
    · rw [h2]

theorem getContinuousDims_eq {config : List Desc} {cs : Option (List ConstrDict)} {sp : Space}
    (h : designSpace config cs = .ok sp) (hb : sp.hasBandit = false) :
    sp.getContinuousDims = .ok (contPos 0 sp.kinds) := by
  have hd := dimensionality_eq h hb
  unfold Space.getContinuousDims
  rw [dimsWhere_ok Kind.isContinuous sp.expanded _ (by
    intro i hi; rw [List.mem_range] at hi; omega), hd, Space.kinds, ← filter_range_contPos]
  simp

theorem scatter_contPos (ks : List Kind) : ∀ (pre rest design : Vec),
    List.Forall₂ WeakValid ks rest →
    List.Forall₂ (fun b x => b.1 ≤ x ∧ x ≤ b.2) (ks.filterMap contBound) design →
    ∃ out, scatter (contPos pre.length ks) design (pre ++ rest) = .ok (pre ++ out) ∧
      ObjDomain ks out ∧ contPart ks out = design := by
  induction ks with
  | nil =>
    intro pre rest design h1 h2
    cases h1
    cases h2
    exact ⟨[], by simp [contPos, scatter], .nil, rfl⟩
  | cons k ks ih =>
    intro pre rest design h1 h2
    cases h1 with
    | @cons _ x _ rest hx hr =>
      rw [List.filterMap_cons] at h2
      cases hk : k with
      | continuous lo hi =>
        rw [hk] at h2
        simp only [contBound] at h2
        cases h2 with
        | @cons _ y _ design hy hd =>
          obtain ⟨out, h3, h4, h5⟩ := ih (pre ++ [y]) rest design hr hd
          refine ⟨y :: out, ?_, .cons hy h4, ?_⟩
          · simp only [contPos, Kind.isContinuous, if_true, scatter, setCol_append]
            simpa using h3
          · simp [contPart, h5]
      | discrete vals =>
        subst hk
        simp only [contBound] at h2
        obtain ⟨out, h3, h4, h5⟩ := ih (pre ++ [x]) rest design hr h2
        refine ⟨x :: out, ?_, .cons ?_ h4, ?_⟩
        · simpa [contPos, Kind.isContinuous] using h3
        · rcases hx with hx | hx
          · simp [Kind.isContinuous] at hx
          · exact hx
        · simp [contPart, h5]
      | categorical labels =>
        subst hk
        simp only [contBound] at h2
        obtain ⟨out, h3, h4, h5⟩ := ih (pre ++ [x]) rest design hr h2
        refine ⟨x :: out, ?_, .cons ?_ h4, ?_⟩
        · simpa [contPos, Kind.isContinuous] using h3
        · rcases hx with hx | hx
          · simp [Kind.isContinuous] at hx
          · exact hx
        · simp [contPart, h5]
      | bandit arms =>
        subst hk
        rcases hx with hx | hx
        · simp [Kind.isContinuous] at hx
        · simp [ValidObj] at hx

theorem hasContinuous_false {config : List Desc} {cs : Option (List ConstrDict)} {sp : Space}
    (h : designSpace config cs = .ok sp) (hb : sp.hasBandit = false)
    (hc : sp.hasContinuous = false) : ∀ k ∈ sp.kinds, k.isContinuous = false := by
  intro k hk
  rw [space_vars_kinds h hb, List.mem_flatMap] at hk
  obtain ⟨v, hv, hk⟩ := hk
  have := List.eq_of_mem_replicate hk
  subst this
  unfold Space.hasContinuous at hc
  rw [List.any_eq_false] at hc
  simpa using hc v hv

theorem designRow_ok {config : List Desc} {cs : Option (List ConstrDict)} {sp : Space}
    (h : designSpace config cs = .ok sp) (hb : sp.hasBandit = false)
    (hs : ∀ k ∈ sp.kinds, Samplable k) (d : Draw) (design : Nat → Vec) (r : Nat)
    (hdes : List.Forall₂ (fun b x => b.1 ≤ x ∧ x ≤ b.2) sp.getContinuousBounds (design r)) :
    ∃ row, designRow sp d design r = .ok row ∧ ObjDomain sp.kinds row ∧
      contPart sp.kinds row = design r := by
  have hnb := space_noBandit h hb
  rw [getContinuousBounds_eq h hb] at hdes
  obtain ⟨rest', h1, h2⟩ := fillRow_ok d r sp.expanded hnb hs [] (emptyRow sp d r) (by
    rw [emptyRow, List.length_map, List.length_range, dimensionality_eq h hb])
  simp only [List.nil_append, List.length_nil] at h1
  obtain ⟨out, h3, h4, h5⟩ := scatter_contPos sp.kinds [] rest' (design r) h2 hdes
  refine ⟨out, ?_, h4, h5⟩
  simp only [designRow, h1, putContinuous]
  cases hc : sp.hasContinuous with
  | true => simpa [getContinuousDims_eq h hb] using h3
  | false =>
    have hnc := hasContinuous_false h hb hc
    have h6 : contPos 0 sp.kinds = [] := by
      have : ∀ (ks : List Kind) s, (∀ k ∈ ks, k.isContinuous = false) → contPos s ks = [] := by
        intro ks
        induction ks with
        | nil => intros; rfl
        | cons k ks ih =>
          intro s hk
          simp [contPos, hk k (by simp), ih (s + 1) (fun k' hk' => hk k' (by simp [hk']))]
      exact this _ 0 hnc
    simp [h6, scatter] at h3
    simp [h3]

theorem uniformRow_mem (u : Nat → ℚ) (hu : ∀ k, 0 ≤ u k ∧ u k ≤ 1) (bs : List (ℚ × ℚ))
    (hbs : ∀ b ∈ bs, b.1 ≤ b.2) :
    List.Forall₂ (fun (b : ℚ × ℚ) x => b.1 ≤ x ∧ x ≤ b.2) bs (bs.mapIdx fun k b => b.1 + (b.2 - b.1) * u k) := by
  rw [List.forall₂_iff_get]
  refine ⟨by simp, ?_⟩
  intro i h1 h2
  have hb := hbs bs[i] (List.getElem_mem _)
  obtain ⟨h3, h4⟩ := hu i
  simp only [List.get_eq_getElem, List.getElem_mapIdx]
  constructor <;> nlinarith

theorem contBounds_le {config : List Desc} {cs : Option (List ConstrDict)} {sp : Space}
    (h : designSpace config cs = .ok sp) (hb : sp.hasBandit = false)
    (hs : ∀ k ∈ sp.kinds, Samplable k) : ∀ b ∈ sp.getContinuousBounds, b.1 ≤ b.2 := by
  intro b hbm
  rw [getContinuousBounds_eq h hb, List.mem_filterMap] at hbm
  obtain ⟨k, hk, hkb⟩ := hbm
  have := hs k hk
  cases k <;> simp [contBound] at hkb
  subst hkb
  exact this

theorem randomNoConstr_ok {config : List Desc} {cs : Option (List ConstrDict)} {sp : Space}
    (h : designSpace config cs = .ok sp) (hb : sp.hasBandit = false)
    (hs : ∀ k ∈ sp.kinds, Samplable k) (d : Draw) (hd : UnitDraw d) (n : Nat) :
    ∃ m, randomNoConstr sp d n = .ok m ∧ m.length = n ∧ ∀ row ∈ m, ObjDomain sp.kinds row := by
  have key : ∀ r, ∃ row, designRow sp d (fun r => uniformRow (fun k => d.unif k r)
      sp.getContinuousBounds) r = .ok row ∧ ObjDomain sp.kinds row := by
    intro r
    obtain ⟨row, h1, h2, _⟩ := designRow_ok h hb hs d
      (fun r => uniformRow (fun k => d.unif k r) sp.getContinuousBounds) r
      (uniformRow_mem _ (fun k => hd k r) _ (contBounds_le h hb hs))
    exact ⟨row, h1, h2⟩
  obtain ⟨m, hm⟩ := mapE_total (l := List.range n) fun r _ => (key r).imp fun _ h => h.1
  refine ⟨m, hm, ?_, ?_⟩
  · rw [mapE_length hm, List.length_range]
  · intro row hrow
    obtain ⟨r, _, hr⟩ := mapE_ok_mem hm hrow
    obtain ⟨row', h1, h2⟩ := key r
    rw [hr] at h1
    cases h1
    exact h2

end GPyOpt

namespace GPyOpt

open Spec

/-- A design matrix: one in-domain row per index, whose continuous part is the given point. -/
theorem designMat_ok {config : List Desc} {cs : Option (List ConstrDict)} {sp : Space}
    (h : designSpace config cs = .ok sp) (hb : sp.hasBandit = false)
    (hs : ∀ k ∈ sp.kinds, Samplable k) (d : Draw) (design : Nat → Vec) (n : Nat)
    (hdes : ∀ r < n, List.Forall₂ (fun b x => b.1 ≤ x ∧ x ≤ b.2) sp.getContinuousBounds (design r)) :
    ∃ m, mapE (designRow sp d design) (List.range n) = .ok m ∧ m.length = n ∧
      ∀ r row, m[r]? = some row → ObjDomain sp.kinds row ∧ contPart sp.kinds row = design r := by
  have key : ∀ r ∈ List.range n, ∃ row, designRow sp d design r = .ok row ∧
      ObjDomain sp.kinds row ∧ contPart sp.kinds row = design r := fun r hr =>
    designRow_ok h hb hs d design r (hdes r (List.mem_range.1 hr))
  obtain ⟨m, hm⟩ := mapE_total fun r hr => (key r hr).imp fun _ h => h.1
  have hl : m.length = n := by rw [mapE_length hm, List.length_range]
  refine ⟨m, hm, hl, ?_⟩
  intro r row hrow
  have hr : r < m.length := (List.getElem?_eq_some_iff.1 hrow).1
  have h1 := (List.forall₂_iff_get.1 (mapE_eq_ok.1 hm)).2 r (by simp; omega) hr
  simp only [List.get_eq_getElem, List.getElem_range] at h1
  rw [(List.getElem?_eq_some_iff.1 hrow).2] at h1
  obtain ⟨row', h2, h3⟩ := key r (by simp; omega)
  rw [h1] at h2
  cases h2
  exact h3

end GPyOpt
