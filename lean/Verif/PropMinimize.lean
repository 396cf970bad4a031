import Verif.MinimizeProofs
import Verif.PropDivList
import Verif.PropKDTree
import Mathlib.Data.Fintype.Card

/-!
# Property of insertion with minimization: C58
-/

namespace Verif.Minimize

variable {T : Type}

/-- C58 for `DivListModel`: on every history no call is undefined, each call does what it should, and the entries
are a minimal generating set of what was inserted. -/
theorem list_minimal {c : ListConf T} (hl : c.Lawful) (ops : List (Op T)) :
    ∃ s₀ rs s, DivList.init c.finder = some s₀ ∧ c.run s₀ ops = some (rs, s) ∧
      Trace c.finder.dm [] ops rs s.contents ∧ MinimalFor c.finder.dm s.contents (inserted ops) := by
  obtain ⟨s₀, g1, g2, g3⟩ := DivList.init_spec hl.finder
  obtain ⟨rs, s, f1, f2⟩ := list_run_ok hl ops g3
  rw [g2] at f2
  exact ⟨s₀, rs, s, g1, f1, f2, f2.minimal [] ⟨.nil, fun m => Iff.rfl, nofun⟩⟩

/-- `DivListModel` with `moveDivisorToFront`, after any history: the divisor found is then the first entry, and so is a new entry
that has taken the place of others. -/
theorem list_front {c : ListConf T} (hl : c.Lawful) (hm : c.moveDivisorToFront = true) (ops : List (Op T))
    (s₀ s : DivList.State T) (rs : List (Ret T)) (h₀ : DivList.init c.finder = some s₀) (h : c.run s₀ ops = some (rs, s)) :
    (∀ m e s', c.findDivisor s m = some (some e, s') → s'.contents.head? = some e) ∧
      ∀ e out s', c.insert s e = some (out, s') → out ≠ [] → s'.contents.head? = some e := by
  obtain ⟨s₁, g1, _, g3⟩ := DivList.init_spec hl.finder
  obtain rfl : s₁ = s₀ := Option.some.inj (g1.symm.trans h₀)
  exact ⟨fun m e s' hf => findDivisor_front hm hf, fun e out s' hi ho => insert_front hl hm (list_run_inv hl ops g3 h) hi ho⟩

/-- C58 for `KDTreeModel`. In particular `insert` never throws. -/
theorem tree_minimal {c : TreeConf T} (hl : c.Lawful) (ops : List (Op T)) :
    ∃ s₀ rs s, KDTree.init c.finder = some s₀ ∧ c.run s₀ ops = some (rs, s) ∧
      Trace c.finder.dm [] ops rs s.contents ∧ MinimalFor c.finder.dm s.contents (inserted ops) := by
  obtain ⟨s₀, g1, g2, g3, g4⟩ := KDTree.init_ok hl.finder
  obtain ⟨rs, s, f1, f2⟩ := tree_run_ok hl ops g2 g3
  rw [g4] at f2
  exact ⟨s₀, rs, s, g1, f1, f2, f2.minimal [] ⟨.nil, fun m => Iff.rfl, nofun⟩⟩

/-- Lists and trees hold the same entries after the same calls. -/
theorem models_agree {c : ListConf T} {d : TreeConf T} (hc : c.Lawful) (hd : d.Lawful) (hdm : c.finder.dm = d.finder.dm)
    (ops : List (Op T)) : ∃ s₀ t₀ rs ts s t, DivList.init c.finder = some s₀ ∧ KDTree.init d.finder = some t₀ ∧
      c.run s₀ ops = some (rs, s) ∧ d.run t₀ ops = some (ts, t) ∧ s.contents.Perm t.contents := by
  obtain ⟨s₀, rs, s, a1, a2, a3, _⟩ := list_minimal hc ops
  obtain ⟨t₀, ts, t, b1, b2, b3, _⟩ := tree_minimal hd ops
  rw [← hdm] at b3
  exact ⟨s₀, t₀, rs, ts, s, t, a1, b1, a2, b2, a3.contents_agree (.refl _) b3⟩

theorem MinimalFor.length_le {c : DivMask.Conf T} {l₁ l₂ es : List T} (h₁ : MinimalFor c l₁ es) (h₂ : MinimalFor c l₂ es) :
    l₁.length ≤ l₂.length := by
  have key : ∀ i : Fin l₁.length, ∃ j : Fin l₂.length, Dvd c l₁[i] l₂[j] ∧ Dvd c l₂[j] l₁[i] := by
    intro i
    obtain ⟨y, hy, hyd⟩ := (h₂.multiples l₁[i]).mpr ((h₁.multiples l₁[i]).mp ⟨l₁[i], List.getElem_mem _, .refl _ _⟩)
    obtain ⟨x, hx, hxd⟩ := (h₁.multiples y).mpr ((h₂.multiples y).mp ⟨y, hy, .refl _ _⟩)
    obtain ⟨j, hj, rfl⟩ := List.mem_iff_getElem.mp hy
    obtain ⟨k, hk, rfl⟩ := List.mem_iff_getElem.mp hx
    refine ⟨⟨j, hj⟩, ?_, hyd⟩
    have hki : k = i := by
      by_contra hne
      have hd : Dvd c l₁[k] l₁[i] := hxd.trans hyd
      rcases Nat.lt_or_gt_of_ne hne with hlt | hlt
      · exact (List.pairwise_iff_getElem.mp h₁.antichain k i hk i.2 hlt).1 hd
      · exact (List.pairwise_iff_getElem.mp h₁.antichain i k i.2 hk hlt).2 hd
    subst hki
    exact hxd
  choose f hf using key
  have hinj : Function.Injective f := by
    intro i i' hii
    by_contra hne
    have hd : Dvd c l₁[i] l₁[i'] := (hf i).1.trans (hii ▸ (hf i').2)
    have hd' : Dvd c l₁[i'] l₁[i] := (hf i').1.trans (hii ▸ (hf i).2)
    rcases Nat.lt_or_gt_of_ne (fun h => hne (Fin.ext h)) with hlt | hlt
    · exact (List.pairwise_iff_getElem.mp h₁.antichain i i' i.2 i'.2 hlt).1 hd
    · exact (List.pairwise_iff_getElem.mp h₁.antichain i' i i'.2 i.2 hlt).1 hd'
  simpa using Fintype.card_le_of_injective f hinj

/-- The order of the calls does not matter for the number of entries that are left. -/
theorem size_unique {c : TreeConf T} (hl : c.Lawful) {ops₁ ops₂ : List (Op T)} (hp : (inserted ops₁).Perm (inserted ops₂)) :
    ∃ s₀ rs₁ rs₂ s₁ s₂, KDTree.init c.finder = some s₀ ∧ c.run s₀ ops₁ = some (rs₁, s₁) ∧ c.run s₀ ops₂ = some (rs₂, s₂) ∧
      s₁.contents.length = s₂.contents.length := by
  obtain ⟨s₀, rs₁, s₁, a1, a2, _, a4⟩ := tree_minimal hl ops₁
  obtain ⟨t₀, rs₂, s₂, b1, b2, _, b4⟩ := tree_minimal hl ops₂
  rw [a1] at b1
  cases b1
  have b4 : MinimalFor c.finder.dm s₂.contents (inserted ops₁) := ⟨b4.antichain, fun m => by
    rw [b4.multiples m]
    exact ⟨fun ⟨e, he, hd⟩ => ⟨e, hp.symm.subset he, hd⟩, fun ⟨e, he, hd⟩ => ⟨e, hp.subset he, hd⟩⟩,
    fun e he => hp.symm.subset (b4.subset e he)⟩
  exact ⟨s₀, rs₁, rs₂, s₁, s₂, a1, a2, b2, le_antisymm (a4.length_le b4) (b4.length_le a4)⟩

/-! ## Examples -/

theorem exDm_faithful : Faithful KDTree.exDm := by
  intro a b
  constructor
  · exact KDTree.exDm_lawful a b
  · intro h
    refine List.all_eq_true.mpr fun v hv => decide_eq_true ?_
    have := h v (List.mem_range.mp hv)
    have h2 : ((a.getD v 0 % 2 ^ 32 : ℕ) : ℤ) ≤ ((b.getD v 0 % 2 ^ 32 : ℕ) : ℤ) := this
    exact_mod_cast h2

/-- A packed tree with a cache, masks, sorting and automatic rebuilds. -/
def exTree : TreeConf (List ℕ) := ⟨KDTree.exConf true true true 2, true⟩

theorem exTree_lawful : exTree.Lawful := ⟨KDTree.exConf_lawful _ _ _ (by decide), exDm_faithful, rfl, rfl⟩

/-- A list over the same monomials that moves divisors to the front. -/
def exList : ListConf (List ℕ) where
  finder := {
    dm := KDTree.exDm
    useLinkedList := false
    useDivMask := true
    sortOnInsert := false
    isLessThan _ _ := false
    doAutomaticRebuilds := true
    rebuildSize k := k / 2
    rebuildMin := 2
    sortVars := DivMask.exSort
    sort := DivList.exSort }
  minimizeOnInsert := true
  moveDivisorToFront := true

theorem exList_lawful : exList.Lawful where
  finder := {
    masks := KDTree.exDm_lawful
    sortVars := DivMask.exSort_isSort
    noOverflow := fun _ l => DivMask.rebuild_unsigned rfl DivMask.exSort_isSort l
    order := nofun
    refines := nofun
    sort := nofun }
  faithful := exDm_faithful
  minimizes := rfl
  front := nofun

/-- Calls that skip an entry, remove one and remove several. -/
def exOps : List (Op (List ℕ)) :=
  [.insert [2, 2, 0], .insert [0, 0, 3], .insert [2, 3, 0], .insert [2, 0, 0], .insert [5, 0, 1], .insert [1, 1, 0],
   .findDivisor [1, 1, 7], .insert [1, 0, 0], .size]

#guard (DivList.init exList.finder).bind (fun s => (exList.run s exOps).map (fun r => (r.1, r.2.contents))) ==
  some ([.removed [], .removed [], .removed [], .removed [[2, 2, 0]], .removed [], .removed [],
    .entry (some [0, 0, 3]), .removed [[2, 0, 0], [1, 1, 0]], .num 2], [[1, 0, 0], [0, 0, 3]])

#guard (KDTree.init exTree.finder).bind (fun s => (exTree.run s exOps).map (fun r => r.2.contents)) ==
  some [[1, 0, 0], [0, 0, 3]]

example : ∃ s₀ rs s, KDTree.init exTree.finder = some s₀ ∧ exTree.run s₀ exOps = some (rs, s) ∧
    Trace exTree.finder.dm [] exOps rs s.contents ∧ MinimalFor exTree.finder.dm s.contents (inserted exOps) :=
  tree_minimal exTree_lawful exOps

example : ∃ s₀ t₀ rs ts s t, DivList.init exList.finder = some s₀ ∧ KDTree.init exTree.finder = some t₀ ∧
    exList.run s₀ exOps = some (rs, s) ∧ exTree.run t₀ exOps = some (ts, t) ∧ s.contents.Perm t.contents :=
  models_agree exList_lawful exTree_lawful rfl exOps

-- The hypotheses of `list_front` are met: a divisor is found, and a new entry takes the place of one.
#guard (DivList.init exList.finder).bind (fun s => (exList.run s (exOps.take 2)).bind (fun r =>
  (exList.findDivisor r.2 [0, 1, 4]).map (fun q => (r.2.contents, q.1, q.2.contents)))) ==
    some ([[2, 2, 0], [0, 0, 3]], some [0, 0, 3], [[0, 0, 3], [2, 2, 0]])
#guard (DivList.init exList.finder).bind (fun s => (exList.run s (exOps.take 2)).bind (fun r =>
  (exList.insert r.2 [0, 0, 1]).map (fun q => (q.1, q.2.contents)))) == some ([[0, 0, 3]], [[0, 0, 1], [2, 2, 0]])

example (s₀ s : DivList.State (List ℕ)) (rs : List (Ret (List ℕ))) (h₀ : DivList.init exList.finder = some s₀)
    (h : exList.run s₀ exOps = some (rs, s)) (m e : List ℕ) (s' : DivList.State (List ℕ))
    (hf : exList.findDivisor s m = some (some e, s')) : s'.contents.head? = some e :=
  (list_front exList_lawful rfl exOps s₀ s rs h₀ h).1 m e s' hf

end Verif.Minimize
