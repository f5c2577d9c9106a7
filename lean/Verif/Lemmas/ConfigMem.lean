import Verif.Spec.ConfigMem
import Mathlib.Data.Set.Basic
import Mathlib.Data.Set.Lattice
import Mathlib.Data.Set.Disjoint
import Mathlib.Order.Interval.Set.Basic
import Mathlib.Tactic.Tauto

/-!
# Configurations in memory as trees
-/

namespace GPyOpt

open Spec

mutual
/-- The value `v` is the configuration `c`, as a tree of the dictionaries `S`. -/
def RV (h : CfgMem) : Cfg → HVal → Set Nat → Prop
  | .atom a, v, S => v = .atom a ∧ S = ∅
  | .dict items, v, S => ∃ n T, v = .ref n ∧ RI h items (h.get n) T ∧ n ∉ T ∧ S = insert n T
/-- The entries `l` are `items`. -/
def RI (h : CfgMem) : Items → HDict → Set Nat → Prop
  | .nil, l, S => l = [] ∧ S = ∅
  | .cons k c rest, l, S => ∃ v l' S1 S2, l = (k, v) :: l' ∧ RV h c v S1 ∧ RI h rest l' S2 ∧ Disjoint S1 S2 ∧ S = S1 ∪ S2
end

mutual
theorem RV.frame {h h' : CfgMem} : ∀ (c : Cfg) {v : HVal} {S : Set Nat}, RV h c v S →
    (∀ a ∈ S, h'.get a = h.get a) → RV h' c v S
  | .atom a, v, S, hr, _ => by simpa only [RV] using hr
  | .dict items, v, S, hr, hf => by
    simp only [RV] at hr ⊢
    obtain ⟨n, T, rfl, hi, hn, rfl⟩ := hr
    refine ⟨n, T, rfl, ?_, hn, rfl⟩
    rw [hf n (Set.mem_insert _ _)]
    exact RI.frame items hi fun a ha => hf a (Set.mem_insert_of_mem _ ha)
theorem RI.frame {h h' : CfgMem} : ∀ (items : Items) {l : HDict} {S : Set Nat}, RI h items l S →
    (∀ a ∈ S, h'.get a = h.get a) → RI h' items l S
  | .nil, l, S, hr, _ => by simpa only [RI] using hr
  | .cons k c rest, l, S, hr, hf => by
    simp only [RI] at hr ⊢
    obtain ⟨v, l', S1, S2, rfl, h1, h2, hd, rfl⟩ := hr
    exact ⟨v, l', S1, S2, rfl, RV.frame c h1 fun a ha => hf a (Or.inl ha),
      RI.frame rest h2 fun a ha => hf a (Or.inr ha), hd, rfl⟩
end

theorem RI.find_none {h : CfgMem} : ∀ (items : Items) {l : HDict} {S : Set Nat} (k : String), RI h items l S →
    items.get k = none → HDict.find l k = none
  | .nil, l, S, k, hr, _ => by
    simp only [RI] at hr
    rw [hr.1]; rfl
  | .cons k' c rest, l, S, k, hr, hg => by
    simp only [RI] at hr
    obtain ⟨v, l', S1, S2, rfl, h1, h2, hd, rfl⟩ := hr
    by_cases hk : k' = k
    · simp [Items.get, hk] at hg
    · simp only [Items.get, hk, if_false] at hg
      simp only [HDict.find, hk, if_false]
      exact RI.find_none rest k h2 hg

/-- An entry of a tree, which can be replaced by another tree. -/
theorem RI.find_some {h : CfgMem} : ∀ (items : Items) {l : HDict} {S : Set Nat} (k : String) {c : Cfg}, RI h items l S →
    items.get k = some c → ∃ v Sk, HDict.find l k = some v ∧ RV h c v Sk ∧ Sk ⊆ S ∧
      ∀ (h' : CfgMem) (c' : Cfg) (v' : HVal) (Sk' : Set Nat), RV h' c' v' Sk' → (∀ a ∈ S \ Sk, h'.get a = h.get a) →
        Disjoint Sk' (S \ Sk) → RI h' (items.set k c') (HDict.put l k v') (S \ Sk ∪ Sk')
  | .nil, l, S, k, c, hr, hg => by simp [Items.get] at hg
  | .cons k' c0 rest, l, S, k, c, hr, hg => by
    simp only [RI] at hr
    obtain ⟨v, l', S1, S2, rfl, h1, h2, hd, rfl⟩ := hr
    by_cases hk : k' = k
    · simp only [Items.get, hk, if_true, Option.some.injEq] at hg
      subst hg
      refine ⟨v, S1, by simp [HDict.find, hk], h1, Set.subset_union_left, ?_⟩
      intro h' c' v' Sk' hr' hf hdis
      have hS : (S1 ∪ S2) \ S1 = S2 := by
        rw [Set.union_sdiff_left]
        exact (hd.symm).sdiff_eq_left
      rw [hS] at hf hdis ⊢
      simp only [Items.set, HDict.put, hk, if_true, RI]
      exact ⟨v', l', Sk', S2, rfl, hr', RI.frame rest h2 hf, hdis, Set.union_comm _ _⟩
    · simp only [Items.get, hk, if_false] at hg
      obtain ⟨w, Sk, hw, hwr, hsub, hrep⟩ := RI.find_some rest k h2 hg
      refine ⟨w, Sk, by simp [HDict.find, hk, hw], hwr, hsub.trans Set.subset_union_right, ?_⟩
      intro h' c' v' Sk' hr' hf hdis
      have hS : (S1 ∪ S2) \ Sk = S1 ∪ S2 \ Sk := by
        rw [Set.union_sdiff_distrib]
        congr 1
        exact (hd.mono_right hsub).sdiff_eq_left
      rw [hS] at hf hdis ⊢
      rw [Set.disjoint_union_right] at hdis
      simp only [Items.set, HDict.put, hk, if_false, RI]
      refine ⟨v, HDict.put l' k v', S1, S2 \ Sk ∪ Sk', rfl, RV.frame c0 h1 fun a ha => hf a (Or.inl ha),
        hrep h' c' v' Sk' hr' (fun a ha => hf a (Or.inr ha)) hdis.2, ?_, by rw [Set.union_assoc]⟩
      rw [Set.disjoint_union_right]
      exact ⟨hd.mono_right Set.sdiff_subset, hdis.1.symm⟩

theorem HDict.put_find : ∀ (l : HDict) (k : String) (v : HVal), HDict.find l k = some v → HDict.put l k v = l
  | [], _, _, h => by simp [HDict.find] at h
  | (k', w) :: rest, k, v, h => by
    by_cases hk : k' = k
    · simp only [HDict.find, hk, if_true, Option.some.injEq] at h
      simp [HDict.put, hk, h]
    · simp only [HDict.find, hk, if_false] at h
      simp [HDict.put, hk, HDict.put_find rest k v h]

/-- An entry added to a tree. -/
theorem RI.put_new {h h' : CfgMem} {c : Cfg} {v : HVal} {Sv : Set Nat} (k : String) :
    ∀ (items : Items) {l : HDict} {S : Set Nat}, RI h items l S → items.get k = none → RV h' c v Sv →
      (∀ a ∈ S, h'.get a = h.get a) → Disjoint S Sv → RI h' (items.set k c) (HDict.put l k v) (S ∪ Sv)
  | .nil, l, S, hr, _, hv, _, _ => by
    simp only [RI] at hr
    obtain ⟨rfl, rfl⟩ := hr
    simp only [Items.set, HDict.put, RI]
    exact ⟨v, [], Sv, ∅, rfl, hv, ⟨rfl, rfl⟩, Set.disjoint_empty _, by simp⟩
  | .cons k' c0 rest, l, S, hr, hg, hv, hf, hdis => by
    simp only [RI] at hr
    obtain ⟨w, l', S1, S2, rfl, h1, h2, hd, rfl⟩ := hr
    by_cases hk : k' = k
    · simp [Items.get, hk] at hg
    · simp only [Items.get, hk, if_false] at hg
      rw [Set.disjoint_union_left] at hdis
      simp only [Items.set, HDict.put, hk, if_false, RI]
      exact ⟨w, HDict.put l' k v, S1, S2 ∪ Sv, rfl, RV.frame c0 h1 fun a ha => hf a (Or.inl ha),
        RI.put_new k rest h2 hg hv (fun a ha => hf a (Or.inr ha)) hdis.2,
        by rw [Set.disjoint_union_right]; exact ⟨hd, hdis.1⟩, by rw [Set.union_assoc]⟩

/-! ## What is seen and reached -/

theorem RV.hview {h : CfgMem} (p : List String) : ∀ {c : Cfg} {v : HVal} {S : Set Nat}, RV h c v S →
    hview h v p = view c p := by
  induction p with
  | nil =>
    intro c v S hr
    cases c with
    | atom a => simp only [RV] at hr; rw [hr.1]; rfl
    | dict items =>
      simp only [RV] at hr
      obtain ⟨n, T, rfl, _⟩ := hr
      rfl
  | cons k p ih =>
    intro c v S hr
    cases c with
    | atom a => simp only [RV] at hr; rw [hr.1]; rfl
    | dict items =>
      simp only [RV] at hr
      obtain ⟨n, T, rfl, hi, _⟩ := hr
      simp only [Spec.hview, view]
      cases hg : items.get k with
      | none => rw [hi.find_none _ k hg]; rfl
      | some c =>
        obtain ⟨w, Sk, hw, hwr, _⟩ := hi.find_some _ k hg
        rw [hw]
        exact ih hwr

mutual
theorem RV.closed {h : CfgMem} : ∀ (c : Cfg) {v : HVal} {S : Set Nat}, RV h c v S →
    (∀ n, v = .ref n → n ∈ S) ∧ ∀ m ∈ S, ∀ k n, (k, HVal.ref n) ∈ h.get m → n ∈ S
  | .atom a, v, S, hr => by
    simp only [RV] at hr
    obtain ⟨rfl, rfl⟩ := hr
    simp
  | .dict items, v, S, hr => by
    simp only [RV] at hr
    obtain ⟨n, T, rfl, hi, hn, rfl⟩ := hr
    obtain ⟨h1, h2⟩ := RI.closed items hi
    refine ⟨fun m hm => by cases hm; exact Set.mem_insert _ _, fun m hm k n' hk => ?_⟩
    rcases hm with rfl | hm
    · exact Set.mem_insert_of_mem _ (h1 k n' hk)
    · exact Set.mem_insert_of_mem _ (h2 m hm k n' hk)
theorem RI.closed {h : CfgMem} : ∀ (items : Items) {l : HDict} {S : Set Nat}, RI h items l S →
    (∀ k n, (k, HVal.ref n) ∈ l → n ∈ S) ∧ ∀ m ∈ S, ∀ k n, (k, HVal.ref n) ∈ h.get m → n ∈ S
  | .nil, l, S, hr => by
    simp only [RI] at hr
    obtain ⟨rfl, rfl⟩ := hr
    simp
  | .cons k c rest, l, S, hr => by
    simp only [RI] at hr
    obtain ⟨v, l', S1, S2, rfl, h1, h2, hd, rfl⟩ := hr
    obtain ⟨a1, a2⟩ := RV.closed c h1
    obtain ⟨b1, b2⟩ := RI.closed rest h2
    refine ⟨fun k' n hk => ?_, fun m hm k' n hk => ?_⟩
    · rcases List.mem_cons.1 hk with hk | hk
      · exact Or.inl (a1 n (Prod.mk.inj hk).2.symm)
      · exact Or.inr (b1 k' n hk)
    · rcases hm with hm | hm
      · exact Or.inl (a2 m hm k' n hk)
      · exact Or.inr (b2 m hm k' n hk)
end

theorem RV.reach {h : CfgMem} {c : Cfg} {v : HVal} {S : Set Nat} (hr : RV h c v S) {a : Nat} (ha : Reach h v a) :
    a ∈ S := by
  induction ha with
  | self hv => exact (hr.closed c).1 _ hv
  | step _ hk ih => exact (hr.closed c).2 _ ih _ _ hk

/-! ## Loading and copying -/

theorem CfgMem.alloc_next (h : CfgMem) (l : HDict) : (h.alloc l).1.next = h.next + 1 := rfl

theorem CfgMem.alloc_addr (h : CfgMem) (l : HDict) : (h.alloc l).2 = h.next := rfl

theorem CfgMem.alloc_get (h : CfgMem) (l : HDict) : (h.alloc l).1.get h.next = l := by
  simp [CfgMem.alloc]

theorem CfgMem.alloc_get_ne (h : CfgMem) (l : HDict) {a : Nat} (ha : a ≠ h.next) : (h.alloc l).1.get a = h.get a := by
  simp [CfgMem.alloc, Function.update_of_ne ha]

theorem CfgMem.write_get (h : CfgMem) (a : Nat) (l : HDict) : (h.write a l).get a = l := by
  simp [CfgMem.write]

theorem CfgMem.write_get_ne (h : CfgMem) (a : Nat) (l : HDict) {b : Nat} (hb : b ≠ a) :
    (h.write a l).get b = h.get b := by
  simp [CfgMem.write, Function.update_of_ne hb]

/-- A new tree was made, and nothing else was changed. -/
structure Made (h h' : CfgMem) (S : Set Nat) : Prop where
  le : h.next ≤ h'.next
  same : ∀ a < h.next, h'.get a = h.get a
  fresh : ∀ a ∈ S, h.next ≤ a ∧ a < h'.next

theorem made_alloc {h h' : CfgMem} {items : Items} {l : HDict} {S : Set Nat} (hm : Made h h' S) (hr : RI h' items l S) :
    RV (h'.alloc l).1 (.dict items) (.ref (h'.alloc l).2) (insert h'.next S) ∧
      Made h (h'.alloc l).1 (insert h'.next S) := by
  have hn : h'.next ∉ S := fun hc => absurd (hm.fresh _ hc).2 (lt_irrefl _)
  constructor
  · simp only [RV]
    refine ⟨_, S, rfl, ?_, hn, rfl⟩
    rw [CfgMem.alloc_addr, CfgMem.alloc_get]
    exact hr.frame items fun a ha => CfgMem.alloc_get_ne _ _ (fun hc => hn (hc ▸ ha))
  · refine ⟨hm.le.trans (Nat.le_succ _), fun a ha => ?_, fun a ha => ?_⟩
    · rw [CfgMem.alloc_get_ne _ _ (by have := hm.le; omega), hm.same a ha]
    · rw [CfgMem.alloc_next]
      rcases ha with rfl | ha
      · exact ⟨hm.le, Nat.lt_succ_self _⟩
      · exact ⟨(hm.fresh a ha).1, Nat.lt_succ_of_lt (hm.fresh a ha).2⟩

theorem made_cons {h h1 h2 : CfgMem} {k : String} {c : Cfg} {rest : Items} {v : HVal} {l : HDict} {S1 S2 : Set Nat}
    (m1 : Made h h1 S1) (m2 : Made h1 h2 S2) (r1 : RV h1 c v S1) (r2 : RI h2 rest l S2) :
    RI h2 (.cons k c rest) ((k, v) :: l) (S1 ∪ S2) ∧ Made h h2 (S1 ∪ S2) := by
  constructor
  · simp only [RI]
    refine ⟨v, l, S1, S2, rfl, r1.frame c fun a ha => m2.same a (m1.fresh a ha).2, r2, ?_, rfl⟩
    rw [Set.disjoint_left]
    intro a ha hb
    have := (m1.fresh a ha).2
    have := (m2.fresh a hb).1
    omega
  · refine ⟨m1.le.trans m2.le, fun a ha => ?_, fun a ha => ?_⟩
    · rw [m2.same a (lt_of_lt_of_le ha m1.le), m1.same a ha]
    · have := m1.le
      have := m2.le
      rcases ha with ha | ha
      · have := m1.fresh a ha; omega
      · have := m2.fresh a ha; omega

theorem Made.refl (h : CfgMem) : Made h h ∅ := ⟨le_rfl, fun _ _ => rfl, fun _ ha => ha.elim⟩

mutual
theorem hLoad_made : ∀ (c : Cfg) (h : CfgMem), ∃ S, RV (hLoad c h).1 c (hLoad c h).2 S ∧ Made h (hLoad c h).1 S
  | .atom a, h => ⟨∅, by simp [RV, hLoad], by simpa [hLoad] using Made.refl h⟩
  | .dict items, h => by
    obtain ⟨S, hr, hm⟩ := hLoadItems_made items h
    simp only [hLoad]
    exact ⟨_, made_alloc hm hr⟩
theorem hLoadItems_made : ∀ (items : Items) (h : CfgMem),
    ∃ S, RI (hLoadItems items h).1 items (hLoadItems items h).2 S ∧ Made h (hLoadItems items h).1 S
  | .nil, h => ⟨∅, by simp [RI, hLoadItems], by simpa [hLoadItems] using Made.refl h⟩
  | .cons k c rest, h => by
    obtain ⟨S1, r1, m1⟩ := hLoad_made c h
    obtain ⟨S2, r2, m2⟩ := hLoadItems_made rest (hLoad c h).1
    simp only [hLoadItems]
    exact ⟨_, made_cons m1 m2 r1 r2⟩
end

mutual
theorem hCopy_made : ∀ (c : Cfg) (fuel : Nat) (h : CfgMem) (v : HVal) (S : Set Nat), RV h c v S → (∀ a ∈ S, a < h.next) →
    cfgDepth c ≤ fuel → ∃ h' v' S', hCopy fuel h v = (h', .ok v') ∧ RV h' c v' S' ∧ Made h h' S'
  | .atom a, fuel, h, v, S, hr, _, _ => by
    simp only [RV] at hr
    obtain ⟨rfl, rfl⟩ := hr
    exact ⟨h, .atom a, ∅, by unfold hCopy; rfl, by simp [RV], Made.refl h⟩
  | .dict items, 0, h, v, S, _, _, hd => by simp [cfgDepth] at hd
  | .dict items, fuel + 1, h, v, S, hr, hS, hd => by
    simp only [RV] at hr
    obtain ⟨n, T, rfl, hi, hn, rfl⟩ := hr
    obtain ⟨h', l, S', he, hr', hm⟩ := hCopyItems_made items fuel h (h.get n) T hi
      (fun a ha => hS a (Set.mem_insert_of_mem _ ha)) (by simpa [cfgDepth] using hd)
    refine ⟨_, _, _, ?_, made_alloc hm hr'⟩
    unfold hCopy
    rw [he]
theorem hCopyItems_made : ∀ (items : Items) (fuel : Nat) (h : CfgMem) (l : HDict) (S : Set Nat), RI h items l S →
    (∀ a ∈ S, a < h.next) → itemsDepth items ≤ fuel →
    ∃ h' l' S', hCopyItems (hCopy fuel) l h = (h', .ok l') ∧ RI h' items l' S' ∧ Made h h' S'
  | .nil, fuel, h, l, S, hr, _, _ => by
    simp only [RI] at hr
    obtain ⟨rfl, rfl⟩ := hr
    exact ⟨h, [], ∅, rfl, by simp [RI], Made.refl h⟩
  | .cons k c rest, fuel, h, l, S, hr, hS, hd => by
    simp only [RI] at hr
    obtain ⟨v, l', S1, S2, rfl, h1, h2, hdis, rfl⟩ := hr
    simp only [itemsDepth, max_le_iff] at hd
    obtain ⟨ha, v', T1, e1, r1, m1⟩ := hCopy_made c fuel h v S1 h1 (fun a ha => hS a (Or.inl ha)) hd.1
    obtain ⟨hb, l2, T2, e2, r2, m2⟩ := hCopyItems_made rest fuel ha l' S2
      (h2.frame rest fun a ha => m1.same a (hS a (Or.inr ha)))
      (fun a ha => lt_of_lt_of_le (hS a (Or.inr ha)) m1.le) hd.2
    refine ⟨hb, (k, v') :: l2, T1 ∪ T2, ?_, made_cons m1 m2 r1 r2⟩
    unfold hCopyItems
    rw [e1]
    dsimp only
    rw [e2]
end

/-! ## Merging -/

theorem RI.anyDict {h : CfgMem} : ∀ (items : Items) {l : HDict} {S : Set Nat}, RI h items l S →
    l.any (·.2.isDict) = items.anyDict
  | .nil, l, S, hr => by
    simp only [RI] at hr
    rw [hr.1]; rfl
  | .cons k c rest, l, S, hr => by
    simp only [RI] at hr
    obtain ⟨v, l', S1, S2, rfl, h1, h2, hd, rfl⟩ := hr
    have ih := RI.anyDict rest h2
    cases c with
    | atom a =>
      simp only [RV] at h1
      rw [h1.1, List.any_cons, ih]
      rfl
    | dict d =>
      simp only [RV] at h1
      obtain ⟨n, T, rfl, _⟩ := h1
      simp [Items.anyDict, HVal.isDict]

/-- A dictionary with another content. -/
theorem RV.write {h : CfgMem} {items : Items} {l : HDict} {n : Nat} {T : Set Nat}
    (hi : RI (h.write n l) items l T) (hn : n ∉ T) : RV (h.write n l) (.dict items) (.ref n) (insert n T) := by
  simp only [RV]
  exact ⟨n, T, rfl, by rwa [CfgMem.write_get], hn, rfl⟩

/-- A plain value is written into a tree. -/
theorem RI.put_atom {h : CfgMem} {items : Items} {l : HDict} {S : Set Nat} (k : String) (a : Atom) (hr : RI h items l S) :
    ∃ S', S' ⊆ S ∧ RI h (items.set k (.atom a)) (HDict.put l k (.atom a)) S' := by
  cases hg : items.get k with
  | none =>
    refine ⟨S, subset_rfl, ?_⟩
    have := RI.put_new k items hr hg (h' := h) (c := .atom a) (v := .atom a) (Sv := ∅) (by simp [RV]) (fun _ _ => rfl)
      (Set.disjoint_empty _)
    rwa [Set.union_empty] at this
  | some c =>
    obtain ⟨v, Sk, _, _, hsub, hrep⟩ := hr.find_some items k hg
    refine ⟨S \ Sk, Set.sdiff_subset, ?_⟩
    have := hrep h (.atom a) (.atom a) ∅ (by simp [RV]) (fun _ _ => rfl) (Set.empty_disjoint _)
    rwa [Set.union_empty] at this

theorem RI.updateAll {h : CfgMem} : ∀ (new : Items) {ln : HDict} {Sn : Set Nat}, RI h new ln Sn → new.anyDict = false →
    ∀ (d : Items) (l : HDict) (S : Set Nat), RI h d l S → ∃ S', S' ⊆ S ∧ RI h (d.update new) (HDict.updateAll l ln) S'
  | .nil, ln, Sn, hn, _, d, l, S, hr => by
    simp only [RI] at hn
    rw [hn.1]
    exact ⟨S, subset_rfl, by simpa [Items.update, HDict.updateAll] using hr⟩
  | .cons k (.dict _) rest, ln, Sn, hn, ha, d, l, S, hr => by simp [Items.anyDict] at ha
  | .cons k (.atom a) rest, ln, Sn, hn, ha, d, l, S, hr => by
    simp only [RI, RV] at hn
    obtain ⟨v, l', S1, S2, rfl, ⟨rfl, _⟩, h2, _, _⟩ := hn
    obtain ⟨S3, hs3, r3⟩ := hr.put_atom k a
    obtain ⟨S4, hs4, r4⟩ := RI.updateAll rest h2 (by simpa [Items.anyDict] using ha) _ _ S3 r3
    exact ⟨S4, hs4.trans hs3, by simpa [Items.update, HDict.updateAll] using r4⟩

/-- What a merge does to the tree at `d`: only the dictionaries `T` and `S` change, and the tree is the result. -/
def MergeOk (h : CfgMem) (d : Nat) (T S : Set Nat) (out : CfgMem × Py Unit) (r : Py Items) : Prop :=
  out.1.next = h.next ∧ (∀ a, a ∉ T → a ∉ S → out.1.get a = h.get a) ∧
  match r with
  | .error e => out.2 = .error e
  | .ok r => out.2 = .ok () ∧ ∃ T', RV out.1 (.dict r) (.ref d) T' ∧ T' ⊆ T ∪ S

/-- The first steps of a merge were made. -/
theorem MergeOk.trans {h h1 : CfgMem} {d : Nat} {T T1 S S1 S2 : Set Nat} {out : CfgMem × Py Unit} {r : Py Items}
    (hm : MergeOk h1 d T1 S2 out r) (hn : h1.next = h.next) (hf : ∀ a, a ∉ T → a ∉ S1 → h1.get a = h.get a)
    (hT : T1 ⊆ T ∪ S1) (hS1 : S1 ⊆ S) (hS2 : S2 ⊆ S) : MergeOk h d T S out r := by
  obtain ⟨a2, a3, a4⟩ := hm
  refine ⟨a2.trans hn, fun a ha hb => ?_, ?_⟩
  · rw [a3 a (fun hc => (hT hc).elim ha fun hc => hb (hS1 hc)) (fun hc => hb (hS2 hc)),
      hf a ha fun hc => hb (hS1 hc)]
  · cases r with
    | error e => exact a4
    | ok r =>
      obtain ⟨a1, T', a4, a5⟩ := a4
      refine ⟨a1, T', a4, fun a ha => ?_⟩
      rcases a5 ha with hb | hb
      · rcases hT hb with hb | hb
        · exact Or.inl hb
        · exact Or.inr (hS1 hb)
      · exact Or.inr (hS2 hb)

theorem hLoop_merge (fuel : Nat)
    (ih : ∀ (new d : Items) (h : CfgMem) (n dn : Nat) (S T : Set Nat), RV h (.dict new) (.ref n) S →
      RV h (.dict d) (.ref dn) T → Disjoint S T → itemsDepth new < fuel →
      MergeOk h dn T S (hUpdate fuel h n dn) (updateConfig new d)) (dn : Nat) :
    ∀ (new : Items) (d : Items) (h : CfgMem) (l : HDict) (S T : Set Nat), RI h new l S →
      RV h (.dict d) (.ref dn) T → Disjoint S T → itemsDepth new ≤ fuel →
      MergeOk h dn T S (hLoop (hUpdate fuel) dn l h) (updateLoop new d)
  | .nil, d, h, l, S, T, hn, hd, hdis, _ => by
    simp only [RI] at hn
    rw [hn.1]
    unfold updateLoop
    exact ⟨rfl, fun _ _ _ => rfl, rfl, T, hd, Set.subset_union_left⟩
  | .cons k (.atom a) rest, d, h, l, S, T, hn, hd, hdis, hdep => by
    simp only [RI, RV] at hn
    obtain ⟨v, l', S1, S2, rfl, ⟨rfl, rfl⟩, h2, _, rfl⟩ := hn
    simp only [RV] at hd
    obtain ⟨n0, T0, hn0, hi, hnT, rfl⟩ := hd
    cases hn0
    rw [Set.empty_union] at hdis ⊢
    obtain ⟨T1, hs1, r1⟩ := hi.put_atom k a
    have hdn : dn ∉ S2 := fun hc => Set.disjoint_left.1 hdis hc (Set.mem_insert _ _)
    have hd1 : RV (h.write dn (HDict.put (h.get dn) k (.atom a))) (.dict (d.set k (.atom a))) (.ref dn) (insert dn T1) :=
      RV.write (r1.frame _ fun b hb => CfgMem.write_get_ne _ _ _ fun hc => hnT (hs1 (hc ▸ hb))) fun hc => hnT (hs1 hc)
    have h2' := h2.frame (h' := h.write dn (HDict.put (h.get dn) k (.atom a))) rest
      fun b hb => CfgMem.write_get_ne _ _ _ fun hc => hdn (hc ▸ hb)
    have hrec := hLoop_merge fuel ih dn rest _ _ _ S2 _ h2' hd1
      (hdis.mono_right (Set.insert_subset_insert hs1)) (by simp only [itemsDepth] at hdep; omega)
    unfold hLoop updateLoop
    refine hrec.trans (S1 := ∅) rfl (fun b hb _ => CfgMem.write_get_ne _ _ _ fun hc => hb (hc ▸ Set.mem_insert _ _))
      ?_ (Set.empty_subset _) subset_rfl
    rw [Set.union_empty]
    exact Set.insert_subset_insert hs1
  | .cons k (.dict v) rest, d, h, l, S, T, hn, hd, hdis, hdep => by
    simp only [RI] at hn
    obtain ⟨w, l', S1, S2, rfl, hv, h2, h12, rfl⟩ := hn
    have hd0 := hd
    simp only [RV] at hd
    obtain ⟨n0, T0, hn0, hi, hnT, hTeq⟩ := hd
    cases hn0
    have hv0 := hv
    simp only [RV] at hv
    obtain ⟨nv, Sv, rfl, hvi, hnv, hS1⟩ := hv
    rw [Set.disjoint_union_left] at hdis
    simp only [itemsDepth, cfgDepth] at hdep
    have hdn1 : dn ∉ S1 := fun hc => Set.disjoint_left.1 hdis.1 hc (hTeq ▸ Set.mem_insert _ _)
    have hdn2 : dn ∉ S2 := fun hc => Set.disjoint_left.1 hdis.2 hc (hTeq ▸ Set.mem_insert _ _)
    have hT0 : T0 ⊆ T := by rw [hTeq]; exact Set.subset_insert _ _
    cases hg : d.get k with
    | none =>
      have hf := hi.find_none _ k hg
      unfold hLoop updateLoop
      rw [hg, hf]
      dsimp only
      have hi' : RI (h.write dn (HDict.put (h.get dn) k (.ref nv))) (d.set k (.dict v)) (HDict.put (h.get dn) k (.ref nv))
          (T0 ∪ S1) :=
        RI.put_new k d hi hg (hv0.frame _ fun b hb => CfgMem.write_get_ne _ _ _ fun hc => hdn1 (hc ▸ hb))
          (fun b hb => CfgMem.write_get_ne _ _ _ fun hc => hnT (hc ▸ hb)) (hdis.1.symm.mono_left hT0)
      have hd1 := RV.write hi' (fun hc => hc.elim hnT hdn1)
      have h2' := h2.frame (h' := h.write dn (HDict.put (h.get dn) k (.ref nv))) rest
        fun b hb => CfgMem.write_get_ne _ _ _ fun hc => hdn2 (hc ▸ hb)
      have hsub : insert dn (T0 ∪ S1) ⊆ T ∪ S1 := by
        rw [hTeq, Set.insert_union]
      have hrec := hLoop_merge fuel ih dn rest _ _ _ S2 _ h2' hd1
        ((Set.disjoint_union_right.2 ⟨hdis.2, h12.symm⟩).mono_right hsub) (by omega)
      exact hrec.trans (S1 := S1) rfl
        (fun b hb _ => CfgMem.write_get_ne _ _ _ fun hc => hb (hc ▸ hTeq ▸ Set.mem_insert _ _)) hsub
        Set.subset_union_left Set.subset_union_right
    | some c =>
      obtain ⟨w, Tk, hw, hwr, hTk, hrep⟩ := hi.find_some d k hg
      cases c with
      | atom a =>
        simp only [RV] at hwr
        rw [hwr.1] at hw
        unfold hLoop updateLoop
        rw [hg, hw]
        dsimp only
        refine ⟨rfl, fun _ _ _ => rfl, ?_⟩
        dsimp only
        rw [hvi.anyDict]
      | dict dk =>
        have hwr0 := hwr
        simp only [RV] at hwr
        obtain ⟨nk, Tk0, rfl, _⟩ := hwr
        obtain ⟨b1, b2, b3⟩ := ih v dk h nv nk S1 Tk hv0 hwr0 (hdis.1.mono_right (hTk.trans hT0)) (by omega)
        unfold hLoop updateLoop
        rw [hg, hw]
        dsimp only
        have hTkT : Tk ⊆ T := hTk.trans hT0
        cases hu : updateConfig v dk with
        | error e =>
          rw [hu] at b3
          dsimp only at b3
          rcases hout : hUpdate fuel h nv nk with ⟨h1, x⟩
          rw [hout] at b1 b2 b3
          dsimp only at b1 b2 b3
          subst b3
          exact ⟨b1, fun a ha hb => b2 a (fun hc => ha (hTkT hc)) (fun hc => hb (Or.inl hc)), rfl⟩
        | ok r =>
          rw [hu] at b3
          dsimp only at b3
          rcases hout : hUpdate fuel h nv nk with ⟨h1, x⟩
          rw [hout] at b1 b2 b3
          dsimp only at b1 b2 b3
          obtain ⟨rfl, Tk', r1, hsub1⟩ := b3
          dsimp only
          have hdis01 : Disjoint Tk' (T0 \ Tk) := by
            rw [Set.disjoint_left]
            intro a ha hb
            rcases hsub1 ha with hc | hc
            · exact hb.2 hc
            · exact Set.disjoint_left.1 hdis.1 hc (hT0 hb.1)
          have hi1 := hrep h1 (.dict r) (.ref nk) Tk' r1
            (fun a ha => b2 a ha.2 fun hc => Set.disjoint_left.1 hdis.1 hc (hT0 ha.1)) hdis01
          have hput : HDict.put (h.get dn) k (.ref nk) = h.get dn := HDict.put_find _ _ _ hw
          rw [hput] at hi1
          have hdn' : h1.get dn = h.get dn := b2 dn (fun hc => hnT (hTk hc)) hdn1
          have hd1 : RV h1 (.dict (d.set k (.dict r))) (.ref dn) (insert dn (T0 \ Tk ∪ Tk')) := by
            simp only [RV]
            refine ⟨dn, _, rfl, by rwa [hdn'], ?_, rfl⟩
            rintro (hc | hc)
            · exact hnT hc.1
            · rcases hsub1 hc with hc | hc
              · exact hnT (hTk hc)
              · exact hdn1 hc
          have hsub : insert dn (T0 \ Tk ∪ Tk') ⊆ T ∪ S1 := by
            rintro a (rfl | hc | hc)
            · exact Or.inl (hTeq ▸ Set.mem_insert _ _)
            · exact Or.inl (hT0 hc.1)
            · rcases hsub1 hc with hc | hc
              · exact Or.inl (hTkT hc)
              · exact Or.inr hc
          have h2' : RI h1 rest l' S2 := h2.frame rest fun b hb => b2 b
            (fun hc => Set.disjoint_left.1 hdis.2 hb (hTkT hc)) (fun hc => Set.disjoint_left.1 h12 hc hb)
          have hrec := hLoop_merge fuel ih dn rest _ _ _ S2 _ h2' hd1
            ((Set.disjoint_union_right.2 ⟨hdis.2, h12.symm⟩).mono_right hsub) (by omega)
          exact hrec.trans (S1 := S1) b1 (fun a ha hb => b2 a (fun hc => ha (hTkT hc)) hb) hsub
            Set.subset_union_left Set.subset_union_right

/-- Merging in memory is merging of values. -/
theorem hUpdate_merge : ∀ (fuel : Nat) (new d : Items) (h : CfgMem) (n dn : Nat) (S T : Set Nat),
    RV h (.dict new) (.ref n) S → RV h (.dict d) (.ref dn) T → Disjoint S T → itemsDepth new < fuel →
    MergeOk h dn T S (hUpdate fuel h n dn) (updateConfig new d)
  | 0, _, _, _, _, _, _, _, _, _, _, hd => absurd hd (Nat.not_lt_zero _)
  | fuel + 1, new, d, h, n, dn, S, T, hn, hd, hdis, hdep => by
    have hn0 := hn
    simp only [RV] at hn
    obtain ⟨n', Sn, hn', hni, hnn, hSeq⟩ := hn
    cases hn'
    unfold hUpdate updateConfig
    rw [hni.anyDict]
    have hsub : Sn ⊆ S := by rw [hSeq]; exact Set.subset_insert _ _
    cases ha : new.anyDict with
    | true =>
      simp only [if_true]
      have := hLoop_merge fuel (hUpdate_merge fuel) dn new d h (h.get n) Sn T hni hd (hdis.mono_left hsub) (by omega)
      exact this.trans (S1 := ∅) rfl (fun _ _ _ => rfl) Set.subset_union_left (Set.empty_subset _) hsub
    | false =>
      simp only [Bool.false_eq_true, if_false]
      simp only [RV] at hd
      obtain ⟨d', T0, hd', hdi, hdT, hTeq⟩ := hd
      cases hd'
      obtain ⟨T1, hs1, r1⟩ := RI.updateAll new hni ha d _ T0 hdi
      refine ⟨rfl, fun a ha _ => CfgMem.write_get_ne _ _ _ fun hc => ha (hc ▸ hTeq ▸ Set.mem_insert _ _), rfl,
        insert dn T1, ?_, ?_⟩
      · exact RV.write (r1.frame _ fun b hb => CfgMem.write_get_ne _ _ _ fun hc => hdT (hs1 (hc ▸ hb)))
          fun hc => hdT (hs1 hc)
      · rw [hTeq]
        exact (Set.insert_subset_insert hs1).trans Set.subset_union_left

end GPyOpt
