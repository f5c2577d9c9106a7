import Verif.Lemmas.ConfigMem
import Verif.Props.Config

/-!
# Configurations are independent of each other
-/

namespace GPyOpt

open Spec

/-- What reading a configuration file does. -/
theorem hParser_dict {fuel default : Nat} {d new : Items} {h : CfgMem} {D : Set Nat}
    (hd : RV h (.dict d) (.ref default) D) (hD : ∀ a ∈ D, a < h.next) (hf1 : itemsDepth d < fuel)
    (hf2 : itemsDepth new < fuel) :
    h.next ≤ (hParser fuel default (some (.dict new)) h).1.next ∧
    (∀ a < h.next, (hParser fuel default (some (.dict new)) h).1.get a = h.get a) ∧
    match updateConfig new d with
    | .error e => (hParser fuel default (some (.dict new)) h).2 = .error e
    | .ok r => ∃ v T, (hParser fuel default (some (.dict new)) h).2 = .ok v ∧
        RV (hParser fuel default (some (.dict new)) h).1 (.dict r) v T ∧
        ∀ a ∈ T, h.next ≤ a ∧ a < (hParser fuel default (some (.dict new)) h).1.next := by
  obtain ⟨S, r1, m1⟩ := hLoad_made (.dict new) h
  unfold hParser
  rcases hl : hLoad (.dict new) h with ⟨h1, vn⟩
  rw [hl] at r1 m1
  simp only [hl]
  dsimp only at r1 m1
  obtain ⟨h2, v2, T, e2, r2, m2⟩ := hCopy_made (.dict d) fuel h1 (.ref default) D
    (hd.frame _ fun a ha => m1.same a (hD a ha)) (fun a ha => lt_of_lt_of_le (hD a ha) m1.le)
    (by simp only [cfgDepth]; omega)
  have r1' : RV h2 (.dict new) vn S := r1.frame _ fun a ha => m2.same a (m1.fresh a ha).2
  have r1s := r1'
  have r2s := r2
  simp only [RV] at r1s r2s
  obtain ⟨n, _, rfl, _⟩ := r1s
  obtain ⟨dn, _, rfl, _⟩ := r2s
  rw [e2]
  dsimp only
  have hdis : Disjoint S T := by
    rw [Set.disjoint_left]
    intro a ha hb
    have := (m1.fresh a ha).2
    have := (m2.fresh a hb).1
    omega
  obtain ⟨b1, b2, b3⟩ := hUpdate_merge fuel new d h2 n dn S T r1' r2 hdis hf2
  rcases hout : hUpdate fuel h2 n dn with ⟨h3, x⟩
  rw [hout] at b1 b2 b3
  dsimp only at b1 b2 b3
  have hle : h.next ≤ h3.next := by rw [b1]; exact m1.le.trans m2.le
  have hsame : ∀ a < h.next, h3.get a = h.get a := by
    intro a ha
    have hS : a ∉ S := fun hc => absurd (m1.fresh a hc).1 (not_le.2 ha)
    have hT : a ∉ T := fun hc => absurd (m2.fresh a hc).1 (not_le.2 (lt_of_lt_of_le ha m1.le))
    rw [b2 a hT hS, m2.same a (lt_of_lt_of_le ha m1.le), m1.same a ha]
  cases hu : updateConfig new d with
  | error e =>
    rw [hu] at b3
    dsimp only at b3 ⊢
    subst b3
    exact ⟨hle, hsame, rfl⟩
  | ok r =>
    rw [hu] at b3
    dsimp only at b3 ⊢
    obtain ⟨rfl, T', r3, hsub⟩ := b3
    refine ⟨hle, hsame, .ref dn, T', rfl, r3, fun a ha => ?_⟩
    have e1 := m1.le
    have e3 := m2.le
    rcases hsub ha with hc | hc
    · have := m2.fresh a hc; dsimp only; omega
    · have := m1.fresh a hc; dsimp only; omega

/-- What reading a file does when it cannot be read or has no dictionary. -/
theorem hParser_other {fuel default : Nat} {d : Items} {h : CfgMem} {D : Set Nat} {file : Option Cfg}
    (hd : RV h (.dict d) (.ref default) D) (hD : ∀ a ∈ D, a < h.next) (hf1 : itemsDepth d < fuel)
    (hfile : ∀ new, file ≠ some (.dict new)) :
    h.next ≤ (hParser fuel default file h).1.next ∧ (∀ a < h.next, (hParser fuel default file h).1.get a = h.get a) ∧
    (hParser fuel default file h).2 = .error (if file = none then .exception else .attributeError) := by
  unfold hParser
  match file, hfile with
  | none, _ => exact ⟨le_rfl, fun _ _ => rfl, by simp⟩
  | some (.dict new), hfile => exact absurd rfl (hfile new)
  | some (.atom a), _ =>
    have hl : hLoad (.atom a) h = (h, .atom a) := by unfold hLoad; rfl
    dsimp only
    rw [hl]
    dsimp only
    obtain ⟨h2, v2, T, e2, r2, m2⟩ := hCopy_made (.dict d) fuel h (.ref default) D hd hD (by simp only [cfgDepth]; omega)
    simp only [RV] at r2
    obtain ⟨dn, _, rfl, _⟩ := r2
    rw [e2]
    exact ⟨m2.le, m2.same, by simp⟩

/-- What can be reached is not changed when only unreachable dictionaries change. -/
theorem reach_of_same {h h' : CfgMem} {v : HVal} (hs : ∀ a, Reach h v a → h'.get a = h.get a) {a : Nat}
    (ha : Reach h' v a) : Reach h v a := by
  induction ha with
  | self hv => exact .self hv
  | step _ hk ih => exact .step ih (hs _ ih ▸ hk)

/-- The default configuration is intact and out of reach. -/
structure DefaultSafe (d : Items) (default : Nat) (D : Set Nat) (s : CfgMem × List HVal) : Prop where
  tree : RV s.1 (.dict d) (.ref default) D
  lt : ∀ a ∈ D, a < s.1.next
  known : ∀ n, Known s.1 s.2 n → n ∉ D ∧ n < s.1.next

/-- New memory, and a new value whose dictionaries are new. -/
theorem DefaultSafe.made {d : Items} {default : Nat} {D : Set Nat} {h h' : CfgMem} {vs : List HVal}
    (hs : DefaultSafe d default D (h, vs)) (hle : h.next ≤ h'.next) (hsame : ∀ a < h.next, h'.get a = h.get a)
    (vs' : List HVal)
    (hv : ∀ v ∈ vs', v ∈ vs ∨ ∀ n, Reach h' v n → n ∉ D ∧ n < h'.next) : DefaultSafe d default D (h', vs') := by
  refine ⟨hs.tree.frame _ fun a ha => hsame a (hs.lt a ha), fun a ha => lt_of_lt_of_le (hs.lt a ha) hle, ?_⟩
  rintro n ⟨v, hmem, hr⟩
  rcases hv v hmem with hold | hnew
  · have := hs.known n ⟨v, hold, reach_of_same (fun a ha => hsame a (hs.known a ⟨v, hold, ha⟩).2) hr⟩
    exact ⟨this.1, lt_of_lt_of_le this.2 hle⟩
  · exact hnew n hr

theorem DefaultSafe.step {fuel default : Nat} {d : Items} {D : Set Nat} {s t : CfgMem × List HVal}
    (hf : itemsDepth d < fuel) (hs : DefaultSafe d default D s) (hst : CfgStep fuel default s t) :
    DefaultSafe d default D t := by
  cases hst with
  | parse h vs file h' v hdep he =>
    by_cases hfile : ∃ new, file = some (.dict new)
    · obtain ⟨new, rfl⟩ := hfile
      obtain ⟨a1, a2, a3⟩ := hParser_dict hs.tree hs.lt hf (hdep new rfl)
      rw [he] at a1 a2 a3
      refine hs.made a1 a2 _ fun w hw => ?_
      rcases List.mem_cons.1 hw with rfl | hw
      · right
        cases hu : updateConfig new d with
        | error e => rw [hu] at a3; simp at a3
        | ok r =>
          rw [hu] at a3
          obtain ⟨v', T, hv', r', hT⟩ := a3
          cases hv'
          intro n hn
          have hnT := hT n (r'.reach hn)
          exact ⟨fun hc => absurd (hs.lt n hc) (not_lt.2 hnT.1), hnT.2⟩
      · exact Or.inl hw
    · obtain ⟨_, _, a3⟩ := hParser_other (file := file) hs.tree hs.lt hf fun new hc => hfile ⟨new, hc⟩
      rw [he] at a3
      simp at a3
  | parseFails h vs file h' e hdep he =>
    by_cases hfile : ∃ new, file = some (.dict new)
    · obtain ⟨new, rfl⟩ := hfile
      obtain ⟨a1, a2, a3⟩ := hParser_dict hs.tree hs.lt hf (hdep new rfl)
      rw [he] at a1 a2
      exact hs.made a1 a2 _ fun w hw => Or.inl hw
    · obtain ⟨a1, a2, _⟩ := hParser_other (file := file) hs.tree hs.lt hf fun new hc => hfile ⟨new, hc⟩
      rw [he] at a1 a2
      exact hs.made a1 a2 _ fun w hw => Or.inl hw
  | driver h vs h' v he =>
    obtain ⟨h2, v2, T, e2, r2, m2⟩ := hCopy_made (.dict d) fuel h (.ref default) D hs.tree hs.lt
      (by simp only [cfgDepth]; omega)
    unfold hDriverConfig at he
    rw [e2] at he
    cases he
    refine hs.made m2.le m2.same _ fun w hw => ?_
    rcases List.mem_cons.1 hw with rfl | hw
    · right
      intro n hn
      have hnT := m2.fresh n (r2.reach hn)
      exact ⟨fun hc => absurd (hs.lt n hc) (not_lt.2 hnT.1), hnT.2⟩
    · exact Or.inl hw
  | make h vs l hl =>
    refine hs.made (Nat.le_succ _) (fun a ha => CfgMem.alloc_get_ne _ _ (ne_of_lt ha)) _ fun w hw => ?_
    rcases List.mem_cons.1 hw with rfl | hw
    · right
      intro n hn
      have key : n = h.next ∨ Known h vs n := by
        induction hn with
        | self hv => cases hv; exact Or.inl rfl
        | step _ hk ih =>
          rcases ih with rfl | hK
          · rw [CfgMem.alloc_get] at hk
            exact Or.inr (hl _ _ hk)
          · rw [CfgMem.alloc_get_ne _ _ (ne_of_lt (hs.known _ hK).2)] at hk
            obtain ⟨u, hu, hr⟩ := hK
            exact Or.inr ⟨u, hu, hr.step hk⟩
      rw [CfgMem.alloc_next]
      rcases key with rfl | hK
      · exact ⟨fun hc => absurd (hs.lt _ hc) (lt_irrefl _), Nat.lt_succ_self _⟩
      · exact ⟨(hs.known n hK).1, Nat.lt_succ_of_lt (hs.known n hK).2⟩
    · exact Or.inl hw
  | write h vs a l ha hl =>
    have haD := (hs.known a ha).1
    refine ⟨hs.tree.frame _ fun b hb => CfgMem.write_get_ne _ _ _ fun hc => haD (hc ▸ hb), hs.lt, ?_⟩
    rintro n ⟨v, hv, hr⟩
    refine hs.known n ?_
    induction hr with
    | self he => exact ⟨v, hv, .self he⟩
    | @step m n k _ hk ih =>
      by_cases hm : m = a
      · subst hm
        dsimp only at hk
        rw [CfgMem.write_get] at hk
        exact hl _ _ hk
      · dsimp only at hk
        rw [CfgMem.write_get_ne _ _ _ hm] at hk
        obtain ⟨u, hu, hr⟩ := ih
        exact ⟨u, hu, hr.step hk⟩

theorem DefaultSafe.run {fuel default : Nat} {d : Items} {D : Set Nat} {s t : CfgMem × List HVal}
    (hf : itemsDepth d < fuel) (hs : DefaultSafe d default D s) (hr : CfgRun fuel default s t) :
    DefaultSafe d default D t := by
  induction hr with
  | done => exact hs
  | next _ hst ih => exact ih.step hf hst

/-- The memory after the module was imported: only the default configuration. -/
def defaultMem (d : Items) : CfgMem := (hLoad (.dict d) ⟨0, fun _ => []⟩).1

/-- The address of the default configuration. -/
def defaultAddr (d : Items) : Nat := (hLoadItems d ⟨0, fun _ => []⟩).1.next

theorem defaultSafe_init (d : Items) : ∃ D, DefaultSafe d (defaultAddr d) D (defaultMem d, []) := by
  obtain ⟨S, r, m⟩ := hLoad_made (.dict d) ⟨0, fun _ => []⟩
  refine ⟨S, ?_, fun a ha => (m.fresh a ha).2, ?_⟩
  · have : (hLoad (.dict d) ⟨0, fun _ => []⟩).2 = .ref (defaultAddr d) := by unfold hLoad; rfl
    rw [this] at r
    exact r
  · rintro n ⟨v, hv, _⟩
    simp at hv

namespace Props

/-- **C131.** Whatever a program did before with configurations (it read files, made drivers, and wrote anything into any
dictionary that it could reach from what it got): the default configuration is unchanged; reading a file whose sections
fit the default (`Conflict` nowhere) gives the merge of this file with the original default; all dictionaries of the
result are new, so no configuration that exists already changes by reading a file, and none is changed by writing into
the result; a file with a section in place of a plain value is refused and changes nothing that existed; and a driver
without configuration gets a copy of the original default in new dictionaries. -/
theorem C131_independent (d : Items) (fuel : Nat) (hf : itemsDepth d < fuel) (h : CfgMem) (vs : List HVal)
    (hrun : CfgRun fuel (defaultAddr d) (defaultMem d, []) (h, vs)) :
    (∀ p, hview h (.ref (defaultAddr d)) p = view (.dict d) p) ∧
    (∀ n, Known h vs n → n < h.next ∧ ¬ Reach h (.ref (defaultAddr d)) n) ∧
    (∀ new : Items, ItemsWF new → itemsDepth new < fuel → ∀ h' out,
      hParser fuel (defaultAddr d) (some (.dict new)) h = (h', out) →
      (∀ a < h.next, h'.get a = h.get a) ∧
      ((∃ v, out = .ok v) ↔ ∀ p, ¬ Conflict (.dict new) (.dict d) p) ∧
      ∀ v, out = .ok v → (∀ a, Reach h' v a → h.next ≤ a) ∧
        ∃ r, IsMerge (.dict new) (.dict d) r ∧ ∀ p, hview h' v p = view r p) ∧
    ∃ h' v, hDriverConfig fuel (defaultAddr d) h = (h', .ok v) ∧ (∀ a < h.next, h'.get a = h.get a) ∧
      (∀ a, Reach h' v a → h.next ≤ a) ∧ ∀ p, hview h' v p = view (.dict d) p := by
  obtain ⟨D, hD⟩ := defaultSafe_init d
  have hs := hD.run hf hrun
  refine ⟨fun p => hs.tree.hview p, fun n hn => ⟨(hs.known n hn).2, fun hc => (hs.known n hn).1 (hs.tree.reach hc)⟩,
    fun new hwf hdep h' out he => ?_, ?_⟩
  · obtain ⟨a1, a2, a3⟩ := hParser_dict hs.tree hs.lt hf hdep
    obtain ⟨hc1, hc2⟩ := C66_merge new d hwf
    dsimp only at a2 a3
    rw [he] at a2 a3
    refine ⟨a2, ?_, ?_⟩
    · rw [← hc1]
      cases hu : updateConfig new d with
      | error e =>
        rw [hu] at a3
        dsimp only at a3
        simp [a3]
      | ok r =>
        rw [hu] at a3
        obtain ⟨v, T, hv, _⟩ := a3
        dsimp only at hv
        simp [hv]
    · rintro v rfl
      cases hu : updateConfig new d with
      | error e =>
        rw [hu] at a3
        simp at a3
      | ok r =>
        rw [hu] at a3
        obtain ⟨v', T, hv, r', hT⟩ := a3
        cases hv
        exact ⟨fun a ha => (hT a (r'.reach ha)).1, _, hc2 r hu, fun p => r'.hview p⟩
  · obtain ⟨h2, v2, T, e2, r2, m2⟩ := hCopy_made (.dict d) fuel h (.ref (defaultAddr d)) D hs.tree hs.lt
      (by simp only [cfgDepth]; omega)
    exact ⟨h2, v2, e2, m2.same, fun a ha => (m2.fresh a (r2.reach ha)).1, fun p => r2.hview p⟩

/-- The memory after `exUser` was read. -/
def exRead : CfgMem × Py HVal := hParser 5 (defaultAddr exDefault) (some (.dict exUser)) (defaultMem exDefault)

/-- What was read, and what remains of it when its section `acquisition` is emptied; another configuration read
afterwards is not affected. -/
example : exRead.2 = .ok (.ref 10) ∧ HDict.find (exRead.1.get 10) "acquisition" = some (.ref 9) ∧
    hview exRead.1 (.ref 10) ["acquisition", "optimizer", "name"] = some (some "CMA") ∧
    hview (exRead.1.write 9 []) (.ref 10) ["acquisition", "type"] = none ∧
    (hParser 5 (defaultAddr exDefault) (some (.dict exUser)) (exRead.1.write 9 [])).2 = .ok (.ref 17) ∧
    hview (hParser 5 (defaultAddr exDefault) (some (.dict exUser)) (exRead.1.write 9 [])).1 (.ref 17)
      ["acquisition", "type"] = some (some "EI") := by
  decide +kernel

/-- This program is one that `C131_independent` is about. -/
example : CfgRun 5 (defaultAddr exDefault) (defaultMem exDefault, []) (exRead.1.write 9 [], [.ref 10]) := by
  have hdep : ∀ new, some (Cfg.dict exUser) = some (.dict new) → itemsDepth new < 5 := by
    intro new hnew
    cases hnew
    decide +kernel
  have he : exRead = (exRead.1, .ok (.ref 10)) := Prod.ext rfl (by decide +kernel)
  refine .next (.next (.done _) (.parse _ _ _ _ _ hdep he)) (.write _ _ 9 [] ⟨.ref 10, by simp, ?_⟩ (by simp))
  exact .step (k := "acquisition") (.self rfl) (by decide +kernel)

end Props

end GPyOpt
