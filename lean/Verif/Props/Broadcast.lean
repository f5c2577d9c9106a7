import Verif.Model.Broadcast
import Verif.Spec.Broadcast
import Verif.Props.LocalPenalization

/-!
# Acquisitions of several locations at once (C170)
-/

namespace GPyOpt.Props

open GPyOpt GPyOpt.Spec BArr

/-! ## Broadcasting -/

theorem bdim_self (a : Nat) : bdim a a = some a := by simp [bdim]

theorem bdim_one_left (a : Nat) : bdim 1 a = some a := by
  unfold bdim
  split_ifs with h h2 <;> simp_all

theorem bdim_one_right (a : Nat) : bdim a 1 = some a := by
  unfold bdim
  split_ifs with h h2 <;> simp_all

theorem idx_of_lt {n i : Nat} (h : i < n) : (if n = 1 then 0 else i) = i := by
  split_ifs with e
  · omega
  · rfl

theorem smap_mat {A : BArr} {n c : Nat} {f : Nat → Nat → ℝ} (h : IsMat A n c f) (g : ℝ → ℝ) :
    IsMat (smap g A) n c fun i j => g (f i j) :=
  ⟨h.1, h.2.1, h.2.2.1, fun i hi j hj => by simp only [smap]; rw [h.2.2.2 i hi j hj]⟩

theorem smap_col {A : BArr} {n : Nat} {f : Nat → ℝ} (h : IsColumn A n f) (g : ℝ → ℝ) :
    IsColumn (smap g A) n fun i => g (f i) :=
  smap_mat h g

theorem smap_vec {A : BArr} {n : Nat} {f : Nat → ℝ} (h : IsVector A n f) (g : ℝ → ℝ) :
    IsVector (smap g A) n fun i => g (f i) :=
  ⟨h.1, h.2.1, h.2.2.1, fun i hi => by simp only [smap]; rw [h.2.2.2 i hi]⟩

theorem bop_mat (o : ℝ → ℝ → ℝ) {A B : BArr} {n c : Nat} {f g : Nat → Nat → ℝ} (hA : IsMat A n c f) (hB : IsMat B n c g) :
    Returns (bop o A B) fun C => IsMat C n c fun i j => o (f i j) (g i j) := by
  obtain ⟨av, ar, ac, ae⟩ := hA
  obtain ⟨bv, br, bc, be⟩ := hB
  refine ⟨_, by rw [bop, ar, br, ac, bc, bdim_self, bdim_self], by simp [av], rfl, rfl, fun i hi j hj => ?_⟩
  simp only [idx_of_lt hi, idx_of_lt hj, ae i hi j hj, be i hi j hj]

theorem bop_col (o : ℝ → ℝ → ℝ) {A B : BArr} {n : Nat} {f g : Nat → ℝ} (hA : IsColumn A n f) (hB : IsColumn B n g) :
    Returns (bop o A B) fun C => IsColumn C n fun i => o (f i) (g i) :=
  bop_mat o hA hB

theorem bop_mat_col (o : ℝ → ℝ → ℝ) {A B : BArr} {n c : Nat} {f : Nat → Nat → ℝ} {g : Nat → ℝ} (hA : IsMat A n c f)
    (hB : IsColumn B n g) : Returns (bop o A B) fun C => IsMat C n c fun i j => o (f i j) (g i) := by
  obtain ⟨av, ar, ac, ae⟩ := hA
  obtain ⟨bv, br, bc, be⟩ := hB
  refine ⟨_, by rw [bop, ar, br, ac, bc, bdim_self, bdim_one_right], by simp [av], rfl, rfl, fun i hi j hj => ?_⟩
  simp only [idx_of_lt hi, idx_of_lt hj, ae i hi j hj, if_true, be i hi 0 Nat.one_pos]

theorem bop_col_mat (o : ℝ → ℝ → ℝ) {A B : BArr} {n c : Nat} {f : Nat → ℝ} {g : Nat → Nat → ℝ} (hA : IsColumn A n f)
    (hB : IsMat B n c g) : Returns (bop o A B) fun C => IsMat C n c fun i j => o (f i) (g i j) := by
  obtain ⟨av, ar, ac, ae⟩ := hA
  obtain ⟨bv, br, bc, be⟩ := hB
  refine ⟨_, by rw [bop, ar, br, ac, bc, bdim_self, bdim_one_left], by simp [av], rfl, rfl, fun i hi j hj => ?_⟩
  simp only [idx_of_lt hi, idx_of_lt hj, be i hi j hj, if_true, ae i hi 0 Nat.one_pos]

theorem bop_vec (o : ℝ → ℝ → ℝ) {A B : BArr} {n : Nat} {f g : Nat → ℝ} (hA : IsVector A n f) (hB : IsVector B n g) :
    Returns (bop o A B) fun C => IsVector C n fun i => o (f i) (g i) := by
  obtain ⟨av, ar, ac, ae⟩ := hA
  obtain ⟨bv, br, bc, be⟩ := hB
  refine ⟨_, by rw [bop, ar, br, ac, bc, bdim_self, bdim_self], by simp [av, bv], rfl, rfl, fun j hj => ?_⟩
  simp only [idx_of_lt hj, if_true, ae j hj, be j hj]

theorem _root_.GPyOpt.Spec.Returns.bind {r : Py BArr} {P : BArr → Prop} (h : Returns r P) {k : BArr → Py BArr} {Q : BArr → Prop}
    (hk : ∀ A, P A → Returns (k A) Q) : Returns (r >>= k) Q := by
  obtain ⟨A, rfl, hA⟩ := h
  exact hk A hA

theorem _root_.GPyOpt.Spec.Returns.mono {r : Py BArr} {P Q : BArr → Prop} (h : Returns r P) (hk : ∀ A, P A → Q A) : Returns r Q := by
  obtain ⟨A, e, hA⟩ := h
  exact ⟨A, e, hk A hA⟩

/-! ## The acquisitions -/

section
variable {n d : Nat} {m s : BArr} {mu sd : Nat → ℝ} {dm ds : BArr} {dmu dsd : Nat → Nat → ℝ}

theorem quantilesArr_rows (jitter fmin : ℝ) (hm : IsColumn m n mu) (hs : IsColumn s n sd) :
    ∃ q, quantilesArr jitter fmin m s = .ok q ∧
      IsColumn q.phi n (fun i => (getQuantiles jitter fmin (mu i) (sd i)).phi) ∧
      IsColumn q.Phi n (fun i => (getQuantiles jitter fmin (mu i) (sd i)).Phi) ∧
      IsColumn q.u n (fun i => (getQuantiles jitter fmin (mu i) (sd i)).u) ∧
      IsColumn q.s n (fun i => (getQuantiles jitter fmin (mu i) (sd i)).s) := by
  have h1 := smap_col hs clipStd
  obtain ⟨u, e, hu⟩ := bop_col (· / ·) (smap_col hm fun m => fmin - m - jitter) h1
  refine ⟨⟨smap npdf u, smap ncdf u, u, smap clipStd s⟩, ?_, smap_col hu npdf, smap_col hu ncdf, hu, h1⟩
  simp only [quantilesArr, e]
  rfl

theorem eiArr_rows (jitter fmin : ℝ) (hm : IsColumn m n mu) (hs : IsColumn s n sd) :
    Returns (eiArr jitter fmin m s) fun A => IsColumn A n fun i => eiValue jitter fmin (mu i) (sd i) := by
  obtain ⟨q, e, h1, h2, h3, h4⟩ := quantilesArr_rows jitter fmin hm hs
  simp only [eiArr, e]
  exact (bop_col (· * ·) h3 h2).bind fun t ht => (bop_col (· + ·) ht h1).bind fun t ht => bop_col (· * ·) h4 ht

theorem eiGradArr_rows (jitter fmin : ℝ) (hm : IsColumn m n mu) (hs : IsColumn s n sd) (hdm : IsMat dm n d dmu)
    (hds : IsMat ds n d dsd) :
    Returns (eiGradArr jitter fmin m s dm ds) fun A =>
      IsMat A n d fun i j => (eiWithGrad jitter fmin (mu i) (sd i) (dmu i j) (dsd i j)).2 := by
  obtain ⟨q, e, h1, h2, h3, h4⟩ := quantilesArr_rows jitter fmin hm hs
  simp only [eiGradArr, e]
  exact (bop_mat_col (· * ·) hds h1).bind fun a ha => (bop_col_mat (· * ·) h2 hdm).bind fun b hb => bop_mat (· - ·) ha hb

theorem mpiArr_rows (jitter fmin : ℝ) (hm : IsColumn m n mu) (hs : IsColumn s n sd) :
    Returns (mpiArr jitter fmin m s) fun A => IsColumn A n fun i => mpiValue jitter fmin (mu i) (sd i) := by
  obtain ⟨q, e, h1, h2, h3, h4⟩ := quantilesArr_rows jitter fmin hm hs
  simp only [mpiArr, e]
  exact ⟨_, rfl, h2⟩

theorem mpiGradArr_rows (jitter fmin : ℝ) (hm : IsColumn m n mu) (hs : IsColumn s n sd) (hdm : IsMat dm n d dmu)
    (hds : IsMat ds n d dsd) :
    Returns (mpiGradArr jitter fmin m s dm ds) fun A =>
      IsMat A n d fun i j => (mpiWithGrad jitter fmin (mu i) (sd i) (dmu i j) (dsd i j)).2 := by
  obtain ⟨q, e, h1, h2, h3, h4⟩ := quantilesArr_rows jitter fmin hm hs
  simp only [mpiGradArr, e]
  exact (bop_col (· / ·) h1 h4).bind fun a ha => (bop_mat_col (· * ·) hds h3).bind fun b hb =>
    (bop_mat (· + ·) hdm hb).bind fun b hb => bop_col_mat (· * ·) (smap_col ha _) hb

theorem lcbArr_rows (w : ℝ) {c : Nat} {A B : BArr} {f g : Nat → Nat → ℝ} (hA : IsMat A n c f) (hB : IsMat B n c g) :
    Returns (lcbArr w A B) fun C => IsMat C n c fun i j => -f i j + w * g i j :=
  bop_mat (· + ·) (smap_mat hA _) (smap_mat hB _)

theorem weightedArr_rows {f ind cost : BArr} {fv iv cv : Nat → ℝ} (hf : IsColumn f n fv) (hi : IsColumn ind n iv)
    (hc : IsColumn cost n cv) :
    Returns (weightedArr f ind cost) fun A => IsColumn A n fun i => weightedAcq (fv i) (iv i) (cv i) :=
  (bop_col (· * ·) hf hi).bind fun _ ha => bop_col (· / ·) (smap_col ha _) hc

theorem weightedGradArr_rows {f df ind cost dcost : BArr} {fv iv cv : Nat → ℝ} {dfv dcv : Nat → Nat → ℝ}
    (hf : IsColumn f n fv) (hdf : IsMat df n d dfv) (hi : IsColumn ind n iv) (hc : IsColumn cost n cv)
    (hdc : IsMat dcost n d dcv) :
    Returns (weightedGradArr f df ind cost dcost) fun A =>
      IsMat A n d fun i j => (weightedAcqGrad (fv i) (dfv i j) (iv i) (cv i) (dcv i j)).2 :=
  (bop_mat_col (· * ·) hdf hc).bind fun _ ha => (bop_col_mat (· * ·) hf hdc).bind fun _ hb =>
    (bop_mat (· - ·) ha hb).bind fun _ hd => (bop_mat_col (· / ·) hd (smap_col hc _)).bind fun _ hd =>
      bop_mat_col (· * ·) (smap_mat hd _) hi

/-- Expected improvement, probability of improvement and the lower confidence bound of `n` locations, weighted by constraints
and cost, are one column with the value of each location. -/
theorem C170_values (jitter fmin w : ℝ) {ind cost : BArr} {iv cv : Nat → ℝ} (hm : IsColumn m n mu) (hs : IsColumn s n sd)
    (hi : IsColumn ind n iv) (hc : IsColumn cost n cv) :
    Returns (eiArr jitter fmin m s >>= fun f => weightedArr f ind cost)
        (fun A => IsColumn A n fun i => weightedAcq (eiValue jitter fmin (mu i) (sd i)) (iv i) (cv i)) ∧
      Returns (mpiArr jitter fmin m s >>= fun f => weightedArr f ind cost)
        (fun A => IsColumn A n fun i => weightedAcq (mpiValue jitter fmin (mu i) (sd i)) (iv i) (cv i)) ∧
      Returns (lcbArr w m s >>= fun f => weightedArr f ind cost)
        (fun A => IsColumn A n fun i => weightedAcq (lcbValue w (mu i) (sd i)) (iv i) (cv i)) :=
  ⟨(eiArr_rows jitter fmin hm hs).bind fun _ h => weightedArr_rows h hi hc,
    (mpiArr_rows jitter fmin hm hs).bind fun _ h => weightedArr_rows h hi hc,
    (lcbArr_rows w hm hs).bind fun _ h => weightedArr_rows (n := n) h hi hc⟩

/-- Their gradients are a matrix with one row for each location, the gradient there. -/
theorem C170_gradients (jitter fmin w : ℝ) {ind cost dcost : BArr} {iv cv : Nat → ℝ} {dcv : Nat → Nat → ℝ}
    (hm : IsColumn m n mu) (hs : IsColumn s n sd) (hdm : IsMat dm n d dmu) (hds : IsMat ds n d dsd)
    (hi : IsColumn ind n iv) (hc : IsColumn cost n cv) (hdc : IsMat dcost n d dcv) :
    Returns (do weightedGradArr (← eiArr jitter fmin m s) (← eiGradArr jitter fmin m s dm ds) ind cost dcost)
        (fun A => IsMat A n d fun i j => (weightedAcqGrad (eiValue jitter fmin (mu i) (sd i))
          (eiWithGrad jitter fmin (mu i) (sd i) (dmu i j) (dsd i j)).2 (iv i) (cv i) (dcv i j)).2) ∧
      Returns (do weightedGradArr (← mpiArr jitter fmin m s) (← mpiGradArr jitter fmin m s dm ds) ind cost dcost)
        (fun A => IsMat A n d fun i j => (weightedAcqGrad (mpiValue jitter fmin (mu i) (sd i))
          (mpiWithGrad jitter fmin (mu i) (sd i) (dmu i j) (dsd i j)).2 (iv i) (cv i) (dcv i j)).2) ∧
      Returns (do weightedGradArr (← lcbArr w m s) (← lcbArr w dm ds) ind cost dcost)
        (fun A => IsMat A n d fun i j => (weightedAcqGrad (lcbValue w (mu i) (sd i))
          (lcbWithGrad w (mu i) (sd i) (dmu i j) (dsd i j)).2 (iv i) (cv i) (dcv i j)).2) :=
  ⟨(eiArr_rows jitter fmin hm hs).bind fun _ h => (eiGradArr_rows jitter fmin hm hs hdm hds).bind fun _ hd =>
      weightedGradArr_rows h hd hi hc hdc,
    (mpiArr_rows jitter fmin hm hs).bind fun _ h => (mpiGradArr_rows jitter fmin hm hs hdm hds).bind fun _ hd =>
      weightedGradArr_rows h hd hi hc hdc,
    (lcbArr_rows w hm hs).bind fun _ h => (lcbArr_rows w hdm hds).bind fun _ hd =>
      weightedGradArr_rows (n := n) h hd hi hc hdc⟩

end

/-! ## Averages over samples of the hyper-parameters -/

section
variable {n d : Nat}

/-- The arrays of a sample have the rows `row i j`: the prediction at location `i` with its derivative along `j`. -/
def SampleRows (n d : Nat) (x : SampleArr) (row : Nat → Nat → Sample) : Prop :=
  ∃ (mu sd : Nat → ℝ) (dmu dsd : Nat → Nat → ℝ), IsColumn x.m n mu ∧ IsColumn x.s n sd ∧ IsMat x.dm n d dmu ∧
    IsMat x.ds n d dsd ∧ ∀ i j, row i j = { m := mu i, s := sd i, fmin := x.fmin, dm := dmu i j, ds := dsd i j }

theorem averageArr_rows {c : Nat} (term : SampleArr → Py BArr) (l : List (SampleArr × (Nat → Nat → ℝ)))
    (h : ∀ x ∈ l, Returns (term x.1) fun A => IsMat A n c x.2) (hl : l ≠ []) :
    Returns (averageArr term (l.map Prod.fst)) fun A =>
      IsMat A n c fun i j => (l.foldl (fun acc x => acc + x.2 i j) 0) / (l.length : ℕ) := by
  obtain ⟨a, l, rfl⟩ := List.exists_cons_of_ne_nil hl
  have key : ∀ (l : List (SampleArr × (Nat → Nat → ℝ))) (acc : BArr) (f : Nat → Nat → ℝ),
      (∀ x ∈ l, Returns (term x.1) fun A => IsMat A n c x.2) → IsMat acc n c f →
      Returns ((l.map Prod.fst).foldlM (fun acc y => do
        let t ← term y
        bop (· + ·) acc t) acc) fun A => IsMat A n c fun i j => l.foldl (fun b x => b + x.2 i j) (f i j) := by
    intro l
    induction l with
    | nil => intro acc f _ hf; exact ⟨acc, rfl, hf⟩
    | cons x l ih =>
      intro acc f hl hf
      simp only [List.map_cons, List.foldlM_cons, List.foldl_cons]
      refine Returns.bind (P := fun A => IsMat A n c fun i j => f i j + x.2 i j) ?_ fun A hA =>
        ih A _ (fun y hy => hl y (List.mem_cons_of_mem x hy)) hA
      exact (hl x List.mem_cons_self).bind fun t ht => bop_mat (· + ·) hf ht
  simp only [List.map_cons, averageArr]
  refine (h a List.mem_cons_self).bind fun t ht => ?_
  refine (key l _ _ (fun y hy => h y (List.mem_cons_of_mem a hy)) (smap_mat ht (0 + ·))).bind fun r hr => ?_
  refine ⟨_, rfl, ?_⟩
  simpa using smap_mat hr (· / (((a.1 :: l.map Prod.fst).length : ℕ) : ℝ))

theorem eiTermArr_rows (jitter : ℝ) {x : SampleArr} {row : Nat → Nat → Sample} (h : SampleRows n d x row) :
    Returns (eiTermArr jitter x) fun A => IsColumn A n fun i => eiMcmcTerm jitter (row i 0) := by
  obtain ⟨mu, sd, dmu, dsd, hm, hs, _, _, e⟩ := h
  obtain ⟨q, eq, h1, h2, h3, h4⟩ := quantilesArr_rows jitter x.fmin hm hs
  simp only [eiTermArr, eq, e]
  exact (bop_col (· * ·) (smap_col hm _) h2).bind fun a ha => (bop_col (· * ·) h4 h1).bind fun b hb =>
    bop_col (· + ·) ha hb

/-- The integrated acquisitions of `n` locations are one column with the average over the samples at each location. -/
theorem C170_integrated_values (jitter w : ℝ) (l : List (SampleArr × (Nat → Nat → Sample)))
    (h : ∀ x ∈ l, SampleRows n d x.1 x.2) (hl : l ≠ []) :
    Returns (averageArr (eiTermArr jitter) (l.map Prod.fst)) (fun A => A.vec = false ∧ A.r = n ∧ A.c = 1 ∧
        ∀ i < n, eiMcmcValue jitter (l.map fun x => x.2 i 0) = .ok (A.e i 0)) ∧
      Returns (averageArr (fun x => mpiArr jitter x.fmin x.m x.s) (l.map Prod.fst)) (fun A => A.vec = false ∧ A.r = n ∧
        A.c = 1 ∧ ∀ i < n, mpiMcmcValue jitter (l.map fun x => x.2 i 0) = .ok (A.e i 0)) ∧
      Returns (averageArr (fun x => lcbArr w x.m x.s) (l.map Prod.fst)) (fun A => A.vec = false ∧ A.r = n ∧
        A.c = 1 ∧ ∀ i < n, lcbMcmcValue w (l.map fun x => x.2 i 0) = .ok (A.e i 0)) := by
  have key : ∀ (term : SampleArr → Py BArr) (t : Sample → ℝ),
      (∀ x ∈ l, Returns (term x.1) fun A => IsColumn A n fun i => t (x.2 i 0)) →
      Returns (averageArr term (l.map Prod.fst)) (fun A => A.vec = false ∧ A.r = n ∧ A.c = 1 ∧
        ∀ i < n, mcmcAverage t (l.map fun x => x.2 i 0) = .ok (A.e i 0)) := by
    intro term t ht
    have := averageArr_rows (n := n) (c := 1) term (l.map fun x => (x.1, fun i _ => t (x.2 i 0)))
      (by
        intro x hx
        obtain ⟨y, hy, rfl⟩ := List.mem_map.mp hx
        exact ht y hy) (by simpa using hl)
    rw [List.map_map] at this
    refine Returns.mono this fun A hA => ⟨hA.1, hA.2.1, hA.2.2.1, fun i hi => ?_⟩
    rw [mcmcAverage, if_neg (by simpa using hl), hA.2.2.2 i hi 0 Nat.one_pos]
    simp only [List.foldl_map, List.length_map]
  refine ⟨key _ _ fun x hx => eiTermArr_rows jitter (h x hx), key _ _ fun x hx => ?_, key _ (fun x => -x.m + w * x.s) fun x hx => ?_⟩
  · obtain ⟨mu, sd, dmu, dsd, hm, hs, _, _, e⟩ := h x hx
    simp only [e]
    exact mpiArr_rows jitter _ hm hs
  · obtain ⟨mu, sd, dmu, dsd, hm, hs, _, _, e⟩ := h x hx
    simp only [e]
    exact lcbArr_rows w hm hs

/-- And their gradients are a matrix with one row for each location. -/
theorem C170_integrated_gradients (jitter w : ℝ) (l : List (SampleArr × (Nat → Nat → Sample)))
    (h : ∀ x ∈ l, SampleRows n d x.1 x.2) (hl : l ≠ []) :
    Returns (averageArr (fun x => eiGradArr jitter x.fmin x.m x.s x.dm x.ds) (l.map Prod.fst)) (fun A =>
        A.vec = false ∧ A.r = n ∧ A.c = d ∧
          ∀ i < n, ∀ j < d, ∃ v, eiMcmcWithGrad jitter (l.map fun x => x.2 i j) = .ok (v, A.e i j)) ∧
      Returns (averageArr (fun x => mpiGradArr jitter x.fmin x.m x.s x.dm x.ds) (l.map Prod.fst)) (fun A =>
        A.vec = false ∧ A.r = n ∧ A.c = d ∧
          ∀ i < n, ∀ j < d, ∃ v, mpiMcmcWithGrad jitter (l.map fun x => x.2 i j) = .ok (v, A.e i j)) ∧
      Returns (averageArr (fun x => lcbArr w x.dm x.ds) (l.map Prod.fst)) (fun A =>
        A.vec = false ∧ A.r = n ∧ A.c = d ∧
          ∀ i < n, ∀ j < d, ∃ v, lcbMcmcWithGrad w (l.map fun x => x.2 i j) = .ok (v, A.e i j)) := by
  have fold : ∀ (t : Sample → ℝ × ℝ) (l : List Sample) (a : ℝ × ℝ),
      (l.foldl (fun acc y => (acc.1 + (t y).1, acc.2 + (t y).2)) a).2 = l.foldl (fun acc y => acc + (t y).2) a.2 := by
    intro t l
    induction l with
    | nil => intro a; rfl
    | cons x l ih => intro a; rw [List.foldl_cons, ih, List.foldl_cons]
  have key : ∀ (term : SampleArr → Py BArr) (t : Sample → ℝ × ℝ),
      (∀ x ∈ l, Returns (term x.1) fun A => IsMat A n d fun i j => (t (x.2 i j)).2) →
      Returns (averageArr term (l.map Prod.fst)) (fun A => A.vec = false ∧ A.r = n ∧ A.c = d ∧
        ∀ i < n, ∀ j < d, ∃ v, mcmcAverageGrad t (l.map fun x => x.2 i j) = .ok (v, A.e i j)) := by
    intro term t ht
    have := averageArr_rows (n := n) (c := d) term (l.map fun x => (x.1, fun i j => (t (x.2 i j)).2))
      (by
        intro x hx
        obtain ⟨y, hy, rfl⟩ := List.mem_map.mp hx
        exact ht y hy) (by simpa using hl)
    rw [List.map_map] at this
    refine Returns.mono this fun A hA => ⟨hA.1, hA.2.1, hA.2.2.1, fun i hi j hj => ?_⟩
    rw [hA.2.2.2 i hi j hj]
    obtain ⟨a, l', rfl⟩ := List.exists_cons_of_ne_nil hl
    simp only [List.map_cons, mcmcAverageGrad, fold]
    simp only [List.foldl_cons, List.foldl_map, List.length_cons, List.length_map, zero_add]
    exact ⟨_, rfl⟩
  refine ⟨key _ (eiMcmcTermGrad jitter) fun x hx => ?_,
    key _ (fun x => mpiWithGrad jitter x.fmin x.m x.s x.dm x.ds) fun x hx => ?_,
    key _ (fun x => lcbWithGrad w x.m x.s x.dm x.ds) fun x hx => ?_⟩ <;>
    obtain ⟨mu, sd, dmu, dsd, hm, hs, hdm, hds, e⟩ := h x hx <;> simp only [e]
  · exact eiGradArr_rows jitter _ hm hs hdm hds
  · exact mpiGradArr_rows jitter _ hm hs hdm hds
  · exact lcbArr_rows w hdm hds

end

/-! ## Local penalization -/

section
variable {n d : Nat} {acq dacq : BArr} {av : Nat → ℝ} {dav : Nat → Nat → ℝ}

theorem col0_vec (h : IsColumn acq n av) : IsVector (col0 acq) n av :=
  ⟨rfl, rfl, h.2.1, fun j hj => h.2.2.2 j hj 0 Nat.one_pos⟩

/-- The penalized acquisition of `n` locations is an array of one dimension, with the value at each location. -/
theorem C170_penalized_values (t : LPTransform) (h : IsColumn acq n av) (batch : Option (List (Hammer d)))
    (X : Nat → Pt d) :
    Returns (lpValueArr t acq batch n X) fun A => IsVector A n fun i => lpValue t (av i) batch (X i) := by
  have hv := smap_vec (smap_vec (smap_vec (col0_vec h) fun y => -y) (lpTransformed t)) fun y => -y
  cases batch with
  | none => exact ⟨_, rfl, hv⟩
  | some hs =>
    refine bop_vec (· + ·) hv (smap_vec (A := ⟨true, 1, n, _⟩) ⟨rfl, rfl, rfl, fun j _ => rfl⟩ fun y => -y)

/-- Its gradient at one location is a matrix of one row; without a transform that holds for any number of locations. -/
theorem C170_penalized_gradients_partial (t : LPTransform) (h : IsColumn acq n av) (hd : IsMat dacq n d dav)
    (batch : Option (List (Hammer d))) (X : Nat → Pt d) (hn : n = 1 ∨ t = .other) :
    Returns (lpGradArr t acq dacq batch n X) fun A =>
      IsMat A n d fun i j => match batch with
        | none => lpScale t (-av i) * dav i j
        | some hs => lpScale t (-av i) * dav i j - (hs.map fun h => dHammer h (X i)).sum := by
  have h1 : Returns (lpScaledArr t acq dacq) fun A =>
      IsMat A n d fun i j => lpScale t (-av i) * dav i j := by
    have other : Returns (.ok (smap (1 * ·) dacq)) fun A => IsMat A n d fun i j => lpScale .other (-av i) * dav i j :=
      ⟨_, rfl, smap_mat hd _⟩
    rcases hn with rfl | rfl
    · have hv := smap_vec (smap_vec (col0_vec h) fun y => -y) (lpScale t)
      have : Returns (bop (· * ·) (smap (lpScale t) (smap (fun y => -y) (col0 acq))) dacq) fun A =>
          IsMat A 1 d fun i j => lpScale t (-av i) * dav i j := by
        obtain ⟨vv, vr, vc, ve⟩ := hv
        obtain ⟨bv, br, bc, be⟩ := hd
        refine ⟨_, by rw [bop, vr, br, vc, bc, bdim_self, bdim_one_left], by simp [bv], rfl, rfl, fun i hi j hj => ?_⟩
        obtain rfl : i = 0 := by omega
        simp only [if_true, idx_of_lt hj, be 0 hi j hj, ve 0 Nat.one_pos]
      cases t
      · exact this
      · exact this
      · exact other
    · exact other
  cases batch with
  | none => exact h1
  | some hs => exact h1.bind fun A hA => bop_mat_col (· - ·) hA (B := ⟨false, n, 1, _⟩) ⟨rfl, rfl, rfl, fun i _ j _ => rfl⟩

/-- At several locations, as many as there are columns, entry `(i, j)` has the scale of location `j` instead of `i`. -/
theorem C170_penalized_gradients_counterexample (t : LPTransform) (ht : t ≠ .other) (h : IsColumn acq d av)
    (hd : IsMat dacq d d dav) (X : Nat → Pt d) :
    Returns (lpGradArr t acq dacq none d X) fun A => IsMat A d d fun i j => lpScale t (-av j) * dav i j := by
  obtain ⟨vv, vr, vc, ve⟩ := smap_vec (smap_vec (col0_vec h) fun y => -y) (lpScale t)
  obtain ⟨bv, br, bc, be⟩ := hd
  have : Returns (bop (· * ·) (smap (lpScale t) (smap (fun y => -y) (col0 acq))) dacq) fun A =>
      IsMat A d d fun i j => lpScale t (-av j) * dav i j := by
    refine ⟨_, by rw [bop, vr, br, vc, bc, bdim_self, bdim_one_left], by simp [bv], rfl, rfl, fun i hi j hj => ?_⟩
    simp only [if_true, idx_of_lt hi, idx_of_lt hj, be i hi j hj, ve j hj]
  cases t
  · exact this
  · exact this
  · exact absurd rfl ht

/-- For any other number of locations the call raises, unless there is one column only; then the result has `n` columns. -/
theorem C170_penalized_shape_counterexample (t : LPTransform) (ht : t ≠ .other) (h : IsColumn acq n av)
    (hd : IsMat dacq n d dav) (X : Nat → Pt d) (hn : n ≠ 1) :
    (d ≠ 1 → n ≠ d → ∀ batch, lpGradArr t acq dacq batch n X = .error .valueError) ∧
      (d = 1 → Returns (lpGradArr t acq dacq none n X) fun A => A.r = n ∧ A.c = n) := by
  obtain ⟨vv, vr, vc, ve⟩ := smap_vec (smap_vec (col0_vec h) fun y => -y) (lpScale t)
  obtain ⟨bv, br, bc, be⟩ := hd
  constructor
  · intro h1 h2 batch
    have : bop (· * ·) (smap (lpScale t) (smap (fun y => -y) (col0 acq))) dacq = .error .valueError := by
      have e : bdim n d = none := by simp [bdim, hn, h1, h2]
      rw [bop, vr, br, vc, bc, bdim_one_left, e]
    have h3 : lpScaledArr t acq dacq = .error .valueError := by
      cases t
      · exact this
      · exact this
      · exact absurd rfl ht
    cases batch <;> simp only [lpGradArr, h3]
    rfl
  · rintro rfl
    have : Returns (bop (· * ·) (smap (lpScale t) (smap (fun y => -y) (col0 acq))) dacq) fun A => A.r = n ∧ A.c = n :=
      ⟨_, by rw [bop, vr, br, vc, bc, bdim_one_left, bdim_one_right], rfl, rfl⟩
    cases t
    · exact this
    · exact this
    · exact absurd rfl ht

/-- A cost that returns one number for each location in an array of one dimension makes the acquisition of `n` locations an
array of shape `(n, n)`: entry `(i, j)` is the acquisition at `i` by the cost at `j`. -/
theorem C170_cost_counterexample {f ind cost : BArr} {fv iv cv : Nat → ℝ} (hf : IsColumn f n fv) (hi : IsColumn ind n iv)
    (hc : IsVector cost n cv) :
    Returns (weightedArr f ind cost) fun A => IsMat A n n fun i j => weightedAcq (fv i) (iv i) (cv j) := by
  refine (bop_col (· * ·) hf hi).bind fun a ha => ?_
  obtain ⟨bv, br, bc, be⟩ := smap_col ha fun y => -y
  obtain ⟨vv, vr, vc, ve⟩ := hc
  refine ⟨_, by rw [bop, br, vr, bc, vc, bdim_one_right, bdim_one_left], by simp [bv], rfl, rfl, fun i hi j hj => ?_⟩
  simp only [if_true, idx_of_lt hi, idx_of_lt hj, be i hi 0 Nat.one_pos, ve j hj, weightedAcq]

end

/-! ## The hypotheses can be met -/

/-- A column with the entries `f`. -/
def exCol (n : Nat) (f : Nat → ℝ) : BArr := ⟨false, n, 1, fun i _ => f i⟩

theorem exCol_isColumn (n : Nat) (f : Nat → ℝ) : IsColumn (exCol n f) n f := ⟨rfl, rfl, rfl, fun _ _ _ _ => rfl⟩

/-- A matrix with the entries `f`. -/
def exMat (n d : Nat) (f : Nat → Nat → ℝ) : BArr := ⟨false, n, d, f⟩

theorem exMat_isMat (n d : Nat) (f : Nat → Nat → ℝ) : IsMat (exMat n d f) n d f := ⟨rfl, rfl, rfl, fun _ _ _ _ => rfl⟩

/-- Three locations, the second outside the constraints, with costs 1, 2, 3. -/
example : Returns (lcbArr 2 (exCol 3 fun i => i) (exCol 3 fun _ => 1) >>= fun f =>
    weightedArr f (exCol 3 fun i => if i = 1 then 0 else 1) (exCol 3 fun i => i + 1)) fun A => A.c = 1 ∧ A.e 1 0 = 0 :=
  (C170_values 0 0 2 (exCol_isColumn 3 _) (exCol_isColumn 3 _) (exCol_isColumn 3 _) (exCol_isColumn 3 _)).2.2.mono
    fun A hA => ⟨hA.2.2.1, by rw [hA.2.2.2 1 (by norm_num) 0 (by norm_num)]; simp [weightedAcq]⟩

/-- Two locations with improvements 1 and 2 and gradients 1: the second entry of the first row is 1/2 instead of 1. -/
example : Returns (lpGradArr .none (exCol 2 fun i => -(i + 1)) (exMat 2 2 fun _ _ => 1) none 2 fun _ => (0 : Pt 2))
    fun A => A.e 0 1 = 1 / 2 ∧ lpGrad .none (-1) (fun _ => 1) none (0 : Pt 2) 1 = 1 := by
  refine (C170_penalized_gradients_counterexample .none (by simp) (exCol_isColumn 2 _) (exMat_isMat 2 2 _) _).mono
    fun A hA => ⟨?_, ?_⟩
  · rw [hA.2.2.2 0 (by norm_num) 1 (by norm_num)]
    norm_num [lpScale]
  · norm_num [lpGrad, lpScale]

example : lpGradArr .softplus (exCol 3 fun i => -(i + 1)) (exMat 3 2 fun _ _ => 1) none 3 (fun _ => (0 : Pt 2))
    = .error .valueError :=
  (C170_penalized_shape_counterexample .softplus (by simp) (exCol_isColumn 3 _) (exMat_isMat 3 2 _) _ (by norm_num)).1
    (by norm_num) (by norm_num) none

example : SampleRows 3 2
    ⟨exCol 3 fun i => i, exCol 3 fun _ => 1, 0, exMat 3 2 fun _ _ => 1, exMat 3 2 fun _ _ => 0⟩
    fun i _ => { m := i, s := 1, fmin := 0, dm := 1, ds := 0 } :=
  ⟨_, _, _, _, exCol_isColumn 3 _, exCol_isColumn 3 _, exMat_isMat 3 2 _, exMat_isMat 3 2 _, fun _ _ => rfl⟩

end GPyOpt.Props
