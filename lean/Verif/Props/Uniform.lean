import Verif.Lemmas.Rejection
import Verif.Spec.Uniform
import Verif.Props.Design
import Mathlib.Data.Set.List

/-!
# Random designs are uniform
-/

namespace GPyOpt

open Spec Props

/-! ## The row of an outcome -/

/-- The row before the continuous variables are filled in. -/
def fillVals (M : Nat) : List Kind → List Nat → Vec → Vec
  | k :: ks, i :: is, x :: xs => (if k.isContinuous then x else rawValue M k i) :: fillVals M ks is xs
  | _, _, _ => []

/-- The values of the continuous variables. -/
def contVals (M : Nat) : List Kind → List Nat → Vec
  | k :: ks, i :: is => if k.isContinuous then rawValue M k i :: contVals M ks is else contVals M ks is
  | _, _ => []

theorem chooseFrom_lt {α : Type} (dom : List α) {i : Nat} (h : i < dom.length) : chooseFrom dom i = .ok dom[i] := by
  unfold chooseFrom
  rw [Nat.mod_eq_of_lt h, List.getElem?_eq_getElem h]

theorem fillRow_exact (M : Nat) (d : Draw) (r : Nat) : ∀ (vs : List EVar) (is : List Nat) (pre rest : Vec),
    NoBandit (vs.map EVar.kind) → rest.length = vs.length →
    List.Forall₂ (fun (v : EVar) i => i < rawSize M v.kind) vs is → (∀ j, d.choice (pre.length + j) r = is[j]?.getD 0) →
    fillRow d r pre.length vs (pre ++ rest) = .ok (pre ++ fillVals M (vs.map EVar.kind) is rest)
  | [], is, pre, rest, _, hl, _, _ => by
    have : rest = [] := by simpa using hl
    subst this
    simp [fillRow, fillVals]
  | v :: vs, [], pre, rest, _, _, hi, _ => by cases hi
  | v :: vs, i :: is, pre, [], _, hl, _, _ => by simp at hl
  | v :: vs, i :: is, pre, x :: rest, hnb, hl, hi, hch => by
    cases hi with
    | cons hi0 hi =>
      have hrec : ∀ y, fillRow d r (pre.length + 1) vs (pre ++ y :: rest) =
          .ok (pre ++ y :: fillVals M (vs.map EVar.kind) is rest) := by
        intro y
        have := fillRow_exact M d r vs is (pre ++ [y]) rest (fun k hk => hnb k (by simp [hk])) (by simpa using hl) hi
          (fun j => by
            have := hch (j + 1)
            simpa [Nat.add_assoc, Nat.add_comm 1 j] using this)
        simpa using this
      have hc0 : d.choice pre.length r = i := by simpa using hch 0
      unfold fillRow
      simp only [List.map_cons, fillVals]
      cases hk : v.kind with
      | continuous lo hi => simp [Kind.isContinuous, hrec]
      | discrete vals =>
        rw [hk] at hi0
        have hi1 : i < vals.length := hi0
        simp only [hc0, chooseFrom_lt vals hi1, setCol_append, Kind.isContinuous, hrec, rawValue,
          List.getElem?_eq_getElem hi1]
        simp
      | categorical labels =>
        rw [hk] at hi0
        have hi1 : i < labels.length := hi0
        simp only [hc0, chooseFrom_lt labels hi1, setCol_append, Kind.isContinuous, hrec, rawValue,
          List.getElem?_eq_getElem hi1]
        simp
      | bandit arms => exact absurd hk (hnb v.kind (by simp) arms)

theorem scatter_exact (M : Nat) : ∀ (ks : List Kind) (is : List Nat) (pre rest : Vec), is.length = ks.length →
    rest.length = ks.length → scatter (contPos pre.length ks) (contVals M ks is) (pre ++ fillVals M ks is rest) =
      .ok (pre ++ List.zipWith (rawValue M) ks is)
  | [], is, pre, rest, h1, h2 => by simp [contPos, scatter, fillVals]
  | k :: ks, [], pre, rest, h1, _ => by simp at h1
  | k :: ks, i :: is, pre, [], _, h2 => by simp at h2
  | k :: ks, i :: is, pre, x :: rest, h1, h2 => by
    have ih := scatter_exact M ks is (pre ++ [rawValue M k i]) rest (by simpa using h1) (by simpa using h2)
    simp only [List.length_append, List.length_singleton, List.append_assoc, List.singleton_append] at ih
    simp only [contPos, contVals, fillVals, List.zipWith_cons_cons]
    cases hc : k.isContinuous with
    | true => simp only [if_true, scatter, setCol_append, ih]
    | false => simpa using ih

theorem uniformRow_exact (M : Nat) : ∀ (ks : List Kind) (is : List Nat) (u : Nat → ℚ), is.length = ks.length →
    (∀ k, u k = (((contIdx ks is)[k]?.getD 0 : Nat) : ℚ) / M) →
    uniformRow u (ks.filterMap contBound) = contVals M ks is
  | [], is, u, _, _ => by simp [uniformRow, contVals]
  | k :: ks, [], u, h, _ => by simp at h
  | k :: ks, i :: is, u, h, hu => by
    cases k with
    | continuous lo hi =>
      have ih := uniformRow_exact M ks is (fun k => u (k + 1)) (by simpa using h) (fun k => by
        have := hu (k + 1)
        simpa [contIdx, Kind.isContinuous] using this)
      have h0 : u 0 = (i : ℚ) / M := by simpa [contIdx, Kind.isContinuous] using hu 0
      simp only [uniformRow] at ih
      simp [uniformRow, contBound, contVals, Kind.isContinuous, List.mapIdx_cons, h0, rawValue, ih]
    | discrete vals =>
      rw [List.filterMap_cons_none rfl]
      simpa [contVals, Kind.isContinuous] using uniformRow_exact M ks is u (by simpa using h)
        (fun k => by simpa [contIdx, Kind.isContinuous] using hu k)
    | categorical labels =>
      rw [List.filterMap_cons_none rfl]
      simpa [contVals, Kind.isContinuous] using uniformRow_exact M ks is u (by simpa using h)
        (fun k => by simpa [contIdx, Kind.isContinuous] using hu k)
    | bandit arms =>
      rw [List.filterMap_cons_none rfl]
      simpa [contVals, Kind.isContinuous] using uniformRow_exact M ks is u (by simpa using h)
        (fun k => by simpa [contIdx, Kind.isContinuous] using hu k)

theorem rawRow_zipWith {M : Nat} {ks : List Kind} (ρ : RawRow M ks) :
    List.zipWith (rawValue M) ks (rawIdx ρ) = rawRow ρ := by
  apply List.ext_getElem
  · simp [rawIdx, rawRow]
  · intro i h1 h2
    simp [rawIdx, rawRow]

theorem designRow_exact {M n : Nat} {config : List Desc} {cs : Option (List ConstrDict)} {sp : Space}
    (h : designSpace config cs = .ok sp) (hb : sp.hasBandit = false) (junk : Nat → Nat → ℚ)
    (ω : Fin n → RawRow M sp.kinds) (r : Fin n) :
    designRow sp (drawOf junk ω) (fun r => uniformRow (fun k => (drawOf junk ω).unif k r) sp.getContinuousBounds) r =
      .ok (rawRow (ω r)) := by
  have hnb := space_noBandit h hb
  have hlen : (rawIdx (ω r)).length = sp.kinds.length := by simp [rawIdx]
  have hexl : sp.expanded.length = sp.kinds.length := by simp [Space.kinds]
  have hu : uniformRow (fun k => (drawOf junk ω).unif k r) sp.getContinuousBounds =
      contVals M sp.kinds (rawIdx (ω r)) := by
    rw [getContinuousBounds_eq h hb]
    exact uniformRow_exact M _ _ _ hlen fun k => by simp [drawOf]
  have hel : (emptyRow sp (drawOf junk ω) r).length = sp.expanded.length := by
    rw [emptyRow, List.length_map, List.length_range, dimensionality_eq h hb]
  have h1 := fillRow_exact M (drawOf junk ω) r sp.expanded (rawIdx (ω r)) [] (emptyRow sp (drawOf junk ω) r) hnb hel
    (by
      rw [List.forall₂_iff_get]
      refine ⟨by rw [hexl, hlen], fun i a b => ?_⟩
      simp only [rawIdx, List.get_eq_getElem, List.getElem_ofFn]
      have := (ω r ⟨i, hexl ▸ a⟩).2
      simpa [Space.kinds] using this)
    (fun j => by simp [drawOf])
  simp only [List.nil_append, List.length_nil] at h1
  have h2 := scatter_exact M sp.kinds (rawIdx (ω r)) [] (emptyRow sp (drawOf junk ω) r) hlen (by rw [hel, hexl])
  simp only [List.nil_append, List.length_nil] at h2
  rw [rawRow_zipWith] at h2
  simp only [designRow, hu]
  rw [h1, show sp.expanded.map EVar.kind = sp.kinds from rfl]
  simp only [putContinuous]
  cases hc : sp.hasContinuous with
  | true => simpa [getContinuousDims_eq h hb] using h2
  | false =>
    have hnc := hasContinuous_false h hb hc
    have h6 : contPos 0 sp.kinds = [] := by
      have : ∀ (ks : List Kind) s, (∀ k ∈ ks, k.isContinuous = false) → contPos s ks = [] := by
        intro ks
        induction ks with
        | nil => intros; rfl
        | cons k ks ih =>
          intro s hk
          simp [contPos, hk k (by simp), ih (s + 1) (fun k' hk' => hk k' (by simp [hk']))]
      exact this _ 0 hnc
    rw [h6] at h2
    simp only [scatter] at h2
    simpa using h2

theorem randomNoConstr_exact {M n : Nat} {config : List Desc} {cs : Option (List ConstrDict)} {sp : Space}
    (h : designSpace config cs = .ok sp) (hb : sp.hasBandit = false) (junk : Nat → Nat → ℚ)
    (ω : Fin n → RawRow M sp.kinds) :
    randomNoConstr sp (drawOf junk ω) n = .ok (List.ofFn fun r => rawRow (ω r)) := by
  unfold randomNoConstr
  have : List.range n = List.ofFn fun r : Fin n => (r : Nat) := by
    apply List.ext_getElem <;> simp
  rw [this, mapE_map_ok (g := fun r => if hr : r < n then rawRow (ω ⟨r, hr⟩) else [])]
  · congr 1
    apply List.ext_getElem
    · simp
    · intro i h1 h2
      simp only [List.length_map, List.length_ofFn] at h1
      simp [h1]
  · intro a ha
    rw [List.mem_ofFn] at ha
    obtain ⟨r, rfl⟩ := ha
    rw [designRow_exact h hb junk ω r]
    simp

/-! ## Rejection -/

theorem rawRow_injective {M : Nat} {ks : List Kind} (hM : 0 < M) (hd : ∀ k ∈ ks, Distinct k) :
    Function.Injective (rawRow (M := M) (ks := ks)) := by
  intro ρ σ he
  funext i
  have h1 := congrFun (List.ofFn_injective he) i
  apply Fin.ext
  have hi := hd (ks.get i) (List.get_mem _ _)
  have a1 := (ρ i).2
  have a2 := (σ i).2
  generalize (ρ i : Nat) = a at h1 a1 ⊢
  generalize (σ i : Nat) = b at h1 a2 ⊢
  cases hk : ks.get i with
  | continuous lo hi' =>
    rw [hk] at h1 hi
    simp only [rawValue, Distinct] at h1 hi
    have hM' : (M : ℚ) ≠ 0 := by exact_mod_cast hM.ne'
    have h2 : (a : ℚ) / M = b / M := mul_left_cancel₀ (sub_ne_zero.2 hi.ne') (add_left_cancel h1)
    rw [div_left_inj' hM'] at h2
    exact_mod_cast h2
  | discrete vals =>
    rw [hk] at h1 hi a1 a2
    simp only [rawValue, Distinct, rawSize] at h1 hi a1 a2
    rw [List.getElem?_eq_getElem a1, List.getElem?_eq_getElem a2] at h1
    exact (List.Nodup.getElem_inj_iff hi).1 (by simpa using h1)
  | categorical labels =>
    rw [hk] at h1 hi a1 a2
    simp only [rawValue, Distinct, rawSize] at h1 hi a1 a2
    rw [List.getElem?_eq_getElem a1, List.getElem?_eq_getElem a2] at h1
    exact (List.Nodup.getElem_inj_iff hi).1 (by simpa using h1)
  | bandit arms => rw [hk] at hi; exact hi.elim

open Classical in
/-- The outcomes that are accepted. -/
noncomputable def accepted {M : Nat} {ks : List Kind} (cs : List ConstrDict) (l : List (RawRow M ks)) :
    List (RawRow M ks) := l.filter fun ρ => Feasible cs (rawRow ρ)

theorem selectValid_rows {M : Nat} {config : List Desc} {cs : List ConstrDict} {sp : Space}
    (h : designSpace config (some cs) = .ok sp) : ∀ (l : List (RawRow M sp.kinds)) (w : List ℚ),
    w.length = l.length → (∀ (i : Nat) (r : Vec), (l.map rawRow)[i]? = some r →
      (w[i]? = some 1 ∧ Feasible cs r) ∨ (w[i]? = some 0 ∧ ¬ Feasible cs r)) →
    selectValid (l.map rawRow) w = (accepted cs l).map rawRow
  | [], w, _, _ => by simp [selectValid, accepted]
  | ρ :: l, [], hl, _ => by simp at hl
  | ρ :: l, a :: w, hl, hw => by
    have ih := selectValid_rows h l w (by simpa using hl) (fun i r hr => by simpa using hw (i + 1) r (by simpa using hr))
    have h0 := hw 0 (rawRow ρ) (by simp)
    simp only [List.getElem?_cons_zero, Option.some.injEq] at h0
    unfold selectValid accepted at ih ⊢
    rcases h0 with ⟨rfl, hf⟩ | ⟨rfl, hf⟩
    · simp [hf, ih]
    · simp [hf, ih]

theorem constrLoop_exact {M n N : Nat} {config : List Desc} {cs : List ConstrDict} {sp : Space}
    (h : designSpace config (some cs) = .ok sp) (hb : sp.hasBandit = false) (hev : Evaluable sp.kinds.length cs) (junk : Nat → Nat → ℚ)
    (ω : Fin N → Fin n → RawRow M sp.kinds) : ∀ (fuel round : Nat) (acc m : Mat), round + fuel = N →
    (constrLoop sp n (oracleOf junk ω).draws fuel round acc = .ok m ↔
      m.length = n ∧ m <+: acc ++
        (accepted cs ((List.ofFn fun i => List.ofFn (ω i)).drop round).flatten).map rawRow) := by
  have hdone : ∀ (fuel round : Nat) (acc m rest : Mat), ¬ acc.length < n →
      (constrLoop sp n (oracleOf junk ω).draws fuel round acc = .ok m ↔ m.length = n ∧ m <+: acc ++ rest) := by
    intro fuel round acc m rest hlt
    unfold constrLoop
    simp only [hlt, if_false, Except.ok.injEq]
    constructor
    · rintro rfl
      exact ⟨by simp; omega, (List.take_prefix _ _).trans (List.prefix_append _ _)⟩
    · rintro ⟨h1, h2⟩
      have := List.prefix_of_prefix_length_le h2 (List.prefix_append acc rest) (by omega)
      rw [List.prefix_iff_eq_take] at this
      rw [this, h1]
  intro fuel
  induction fuel with
  | zero =>
    intro round acc m hr
    by_cases hlt : acc.length < n
    · have : (List.ofFn fun i => List.ofFn (ω i)).drop round = [] := by
        apply List.drop_of_length_le
        simp; omega
      rw [this]
      unfold constrLoop
      simp only [hlt, if_true]
      constructor
      · intro hc; cases hc
      · rintro ⟨h1, h2⟩
        have := h2.length_le
        simp [accepted] at this
        omega
    · exact hdone _ _ _ _ _ hlt
  | succ fuel ih =>
    intro round acc m hr
    by_cases hlt : acc.length < n
    · have hrN : round < N := by omega
      have hdraw : (oracleOf junk ω).draws round = drawOf junk (ω ⟨round, hrN⟩) := by simp [oracleOf, hrN]
      obtain ⟨w, hw⟩ := indicator_total h hev (List.ofFn fun r => rawRow (ω ⟨round, hrN⟩ r)) (by
        intro r hr
        obtain ⟨i, rfl⟩ := List.mem_ofFn.1 hr
        exact List.length_ofFn)
      obtain ⟨hw1, hw2⟩ := C11_indicator h _ w hw
      have hmap : (List.ofFn fun r => rawRow (ω ⟨round, hrN⟩ r)) = (List.ofFn (ω ⟨round, hrN⟩)).map rawRow := by
        rw [List.map_ofFn]; rfl
      have hsel := selectValid_rows h (List.ofFn (ω ⟨round, hrN⟩)) w (by rw [hw1]; simp) (by
        intro i r hir
        rw [hmap] at hw2
        rcases hw2 i r hir with ⟨a1, a2⟩ | ⟨a1, c, hc, f, v, hf, hv, hpos⟩
        · exact .inl ⟨a1, a2⟩
        · right
          refine ⟨a1, fun hfeas => ?_⟩
          obtain ⟨f', v', hf', hv', hle⟩ := hfeas c hc
          rw [hf] at hf'
          cases hf'
          rw [hv] at hv'
          cases hv'
          exact absurd hpos (not_lt.2 hle))
      have hdrop : (List.ofFn fun i => List.ofFn (ω i)).drop round =
          List.ofFn (ω ⟨round, hrN⟩) :: (List.ofFn fun i => List.ofFn (ω i)).drop (round + 1) := by
        rw [List.drop_eq_getElem_cons (by simpa using hrN)]
        simp
      have hstep : constrLoop sp n (oracleOf junk ω).draws (fuel + 1) round acc =
          constrLoop sp n (oracleOf junk ω).draws fuel (round + 1)
            (acc ++ (accepted cs (List.ofFn (ω ⟨round, hrN⟩))).map rawRow) := by
        conv_lhs => unfold constrLoop
        simp only [hlt, if_true, hdraw, randomNoConstr_exact h hb, hw]
        rw [hmap, hsel]
      rw [hstep, ih (round + 1) _ m (by omega), hdrop]
      simp only [accepted, List.flatten_cons, List.filter_append, List.map_append, List.append_assoc]
    · exact hdone _ _ _ _ _ hlt

namespace Props

/-- The rows that the generator can give. -/
def Generated (M : Nat) (ks : List Kind) (row : Vec) : Prop := ∃ ρ : RawRow M ks, row = rawRow ρ

open Classical in
/-- **C132.** The random design with constraints is uniform: of all outcomes of `N ≥ 1` rounds of a uniform generator,
equally many lead to every design of `n` feasible rows (and at least one does), and none leads to another design. In
particular the rows are independent of each other, and the rounds in which rows were refused leave no trace. -/
theorem C132_constrained_uniform {M n N : Nat} (hM : 0 < M) {config : List Desc} {cs : List ConstrDict} {sp : Space}
    (h : designSpace config (some cs) = .ok sp) (hb : sp.hasBandit = false) (hd : ∀ k ∈ sp.kinds, Distinct k)
    (hev : Evaluable sp.kinds.length cs) (junk : Nat → Nat → ℚ) (hN : 0 < N) :
    (∀ (ω : Fin N → Fin n → RawRow M sp.kinds) (Y : Mat), initialDesign "random" sp (oracleOf junk ω) n = .ok Y →
      Y.length = n ∧ ∀ y ∈ Y, Generated M sp.kinds y ∧ Feasible cs y) ∧
    ∃ c, 0 < c ∧ ∀ Y : Mat, Y.length = n → (∀ y ∈ Y, Generated M sp.kinds y ∧ Feasible cs y) →
      (Finset.univ.filter fun ω : Fin N → Fin n → RawRow M sp.kinds =>
        initialDesign "random" sp (oracleOf junk ω) n = .ok Y).card = c := by
  obtain ⟨_, _, _, _, _, _, hc⟩ := designSpace_ok h
  have hiff : ∀ (ω : Fin N → Fin n → RawRow M sp.kinds) (Y : Mat),
      initialDesign "random" sp (oracleOf junk ω) n = .ok Y ↔
        Y.length = n ∧ Y <+: (accepted cs (List.ofFn fun i => List.ofFn (ω i)).flatten).map rawRow := by
    intro ω Y
    have h1 := constrLoop_exact h hb hev junk ω N 0 [] Y (by omega)
    rw [List.nil_append, List.drop_zero] at h1
    rw [← h1]
    simp [initialDesign, randomDesign, Space.hasConstraints, hc, oracleOf]
  have hinj := rawRow_injective (ks := sp.kinds) hM hd
  refine ⟨fun ω Y hY => ?_, ?_⟩
  · rw [hiff] at hY
    refine ⟨hY.1, fun y hy => ?_⟩
    obtain ⟨ρ, hρ, rfl⟩ := List.mem_map.1 (hY.2.subset hy)
    unfold accepted at hρ
    rw [List.mem_filter] at hρ
    exact ⟨⟨ρ, rfl⟩, by simpa using hρ.2⟩
  · by_cases hex : ∃ Y : Mat, Y.length = n ∧ ∀ y ∈ Y, Generated M sp.kinds y ∧ Feasible cs y
    · refine ⟨acceptCount (Finset.univ.filter fun ρ : RawRow M sp.kinds => Feasible cs (rawRow ρ)).card
        (Finset.univ.filter fun ρ : RawRow M sp.kinds => ¬ Feasible cs (rawRow ρ)).card (N * n) n, ?_, ?_⟩
      · obtain ⟨Y, hYl, hY⟩ := hex
        cases n with
        | zero => simp [acceptCount]
        | succ n =>
          refine acceptCount_pos _ _ ?_ _ _ (Nat.le_mul_of_pos_left _ hN)
          rw [Finset.card_filter_add_card_filter_not, Finset.card_univ]
          cases Y with
          | nil => simp at hYl
          | cons y Y =>
            obtain ⟨ρ, _⟩ := (hY y (by simp)).1
            exact Fintype.card_pos_iff.2 ⟨ρ⟩
      · intro Y hYl hY
        obtain ⟨Z, hZ⟩ : ∃ Z : List (RawRow M sp.kinds), Y = Z.map rawRow := by
          have hmem : Y ∈ Set.range (List.map (rawRow (M := M) (ks := sp.kinds))) := by
            rw [Set.range_list_map]
            intro y hy
            obtain ⟨ρ, hρ⟩ := (hY y hy).1
            exact ⟨ρ, hρ.symm⟩
          obtain ⟨Z, hZ⟩ := hmem
          exact ⟨Z, hZ.symm⟩
        have hZl : Z.length = n := by rw [← hYl, hZ, List.length_map]
        have hcard := card_prefix_rounds (fun ρ : RawRow M sp.kinds => Feasible cs (rawRow ρ)) N n Z
          (fun ρ hρ => (hY (rawRow ρ) (hZ ▸ List.mem_map_of_mem hρ)).2)
        rw [hZl] at hcard
        rw [← hcard]
        congr 1
        ext ω
        simp only [Finset.mem_filter, Finset.mem_univ, true_and]
        rw [hiff, hZ, List.prefix_map_iff_of_injective hinj, List.length_map]
        unfold accepted
        simp [hZl]
    · exact ⟨1, one_pos, fun Y h1 h2 => absurd ⟨Y, h1, h2⟩ hex⟩

/-- **C132.** The random design without constraints is uniform: every design of `n` rows that the generator can give
comes from exactly one outcome. -/
theorem C132_unconstrained_uniform {M n N : Nat} (hM : 0 < M) {config : List Desc} {sp : Space}
    (h : designSpace config none = .ok sp) (hb : sp.hasBandit = false) (hd : ∀ k ∈ sp.kinds, Distinct k)
    (junk : Nat → Nat → ℚ) (hN : 0 < N) :
    (∀ (ω : Fin N → Fin n → RawRow M sp.kinds), ∃ Y, initialDesign "random" sp (oracleOf junk ω) n = .ok Y ∧
      Y.length = n ∧ ∀ y ∈ Y, Generated M sp.kinds y) ∧
    ∀ Y : Mat, Y.length = n → (∀ y ∈ Y, Generated M sp.kinds y) →
      ∃ ω₀ : Fin n → RawRow M sp.kinds, ∀ ω : Fin N → Fin n → RawRow M sp.kinds,
        initialDesign "random" sp (oracleOf junk ω) n = .ok Y ↔ ω ⟨0, hN⟩ = ω₀ := by
  obtain ⟨_, _, _, _, _, _, hc⟩ := designSpace_ok h
  have hval : ∀ ω : Fin N → Fin n → RawRow M sp.kinds, initialDesign "random" sp (oracleOf junk ω) n =
      .ok (List.ofFn fun r => rawRow (ω ⟨0, hN⟩ r)) := by
    intro ω
    have h1 : (oracleOf junk ω).draws 0 = drawOf junk (ω ⟨0, hN⟩) := by simp [oracleOf, hN]
    have h2 := randomNoConstr_exact h hb junk (ω ⟨0, hN⟩)
    simpa [initialDesign, randomDesign, Space.hasConstraints, hc, h1] using h2
  refine ⟨fun ω => ⟨_, hval ω, by simp, fun y hy => ?_⟩, fun Y hYl hY => ?_⟩
  · rw [List.mem_ofFn] at hy
    obtain ⟨r, rfl⟩ := hy
    exact ⟨_, rfl⟩
  · subst hYl
    choose f hf using fun r : Fin Y.length => hY (Y.get r) (List.get_mem _ _)
    refine ⟨f, fun ω => ?_⟩
    have hYf : Y = List.ofFn fun r => rawRow (f r) := by
      conv_lhs => rw [← List.ofFn_get Y]
      congr 1
      funext r
      exact hf r
    rw [hval, Except.ok.injEq]
    constructor
    · intro he
      have h1 := List.ofFn_injective (he.trans hYf)
      funext r
      exact rawRow_injective hM hd (congrFun h1 r)
    · intro he
      rw [he, ← hYf]

/-- A space for the example. -/
def exUnif : List Desc :=
  [{ name := some "x", type := some "continuous", domain := some (.flat [0, 3]) },
    { name := some "d", type := some "discrete", domain := some (.flat [5, 7]) }]

/-- The constraint `x <= 1`. -/
def exUnifConstr : List ConstrDict := [{ constraint := some fun r => .ok (r.headD 0 - 1) }]

/-- The outcome of a row of the example. -/
def exOutcome (i : Fin 3) (j : Fin 2) : RawRow 3 [.continuous 0 3, .discrete [5, 7]] :=
  Fin.cons (α := fun i => Fin (rawSize 3 ([Kind.continuous 0 3, .discrete [5, 7]].get i))) i (Fin.cons j finZeroElim)

/-- With three numbers `0, 1/3, 2/3` of the generator the row `[1, 7]` is feasible and `[2, 7]` is not. -/
example : ∃ sp, designSpace exUnif (some exUnifConstr) = .ok sp ∧ sp.hasBandit = false ∧
    (∀ k ∈ sp.kinds, Distinct k) ∧ Evaluable 2 exUnifConstr ∧
    Generated 3 sp.kinds [1, 7] ∧ Feasible exUnifConstr [1, 7] ∧
    Generated 3 sp.kinds [2, 7] ∧ ¬ Feasible exUnifConstr [2, 7] := by
  refine ⟨_, rfl, rfl, ?_⟩
  rw [show Space.kinds _ = [Kind.continuous 0 3, .discrete [5, 7]] from rfl]
  refine ⟨?_, ?_, ⟨exOutcome 1 1, ?_⟩, ?_, ⟨exOutcome 2 1, ?_⟩, ?_⟩
  · intro k hk
    simp only [List.mem_cons, List.not_mem_nil, or_false] at hk
    rcases hk with rfl | rfl
    · norm_num [Distinct]
    · simp [Distinct]
  · intro c hc
    simp only [exUnifConstr, List.mem_cons, List.not_mem_nil, or_false] at hc
    subst hc
    exact ⟨_, rfl, fun r _ => ⟨_, rfl⟩⟩
  · decide +kernel
  · intro c hc
    simp only [exUnifConstr, List.mem_cons, List.not_mem_nil, or_false] at hc
    subst hc
    exact ⟨_, _, rfl, rfl, by norm_num⟩
  · decide +kernel
  · intro hc
    obtain ⟨f, v, hf, hv, hle⟩ := hc _ List.mem_cons_self
    simp only [constraintOf, Option.some.injEq] at hf
    subst hf
    simp only [Except.ok.injEq] at hv
    subst hv
    norm_num at hle

end Props

end GPyOpt
