import Verif.DivListAliasProofs
import Verif.KDMemAliasTree

/-!
# Property C83: an entry of the container as the argument of `removeMultiples`

Full statement: `removeMultiples(entry)`, where the argument refers to an entry of the container, does what it does with a
copy of that entry. It does not hold. What is shown is that it holds for the last entry of a list, for an array from which
few enough entries are kept, for an array in which no entry divides another, for binary KD trees in like cases of the
leaf of the entry, and for packed KD trees of one node in like cases.
-/

namespace Verif.DivList

open Verif.DivMask (Ext Mask)

variable {T : Type} {c : Conf T}

/-- C83 for lists: the last entry can be passed, and any entry of an array if of the entries but the last no more are kept
than come before it (so that nothing is moved to its place before the last entry has been looked at). -/
theorem removeMultiples_own_partial (hl : c.Lawful) {s : State T} (h : Reachable c s) (i : ℕ) (m : T)
    (hm : s.contents[i]? = some m)
    (hi : i + 1 = s.contents.length ∨ c.useLinkedList = false ∧
      (s.contents.dropLast.filter (fun e => !c.dm.divides m e)).length ≤ i) :
    ∃ out b s', removeMultiplesRef c s i = some (out, b, s') ∧ Removes c.dm s.contents m out b s'.contents := by
  have hinv := h.inv hl
  have hlen : s.contents.length = s.list.length := by simp [State.contents]
  obtain ⟨a, ha, rfl⟩ : ∃ a, s.list[i]? = some a ∧ a.t = m := by
    unfold State.contents at hm
    rw [List.getElem?_map] at hm
    cases hx : s.list[i]? with
    | none => rw [hx] at hm; cases hm
    | some a => rw [hx] at hm; exact ⟨a, rfl, Option.some.inj hm⟩
  have hil : i < s.list.length := (List.getElem?_eq_some_iff.mp ha).1
  have hcount : c.useLinkedList = false →
      (s.list.dropLast.filter (fun e => !divides c (ext c s a.t) e)).length ≤ i := by
    intro hb
    rcases hi with hi | ⟨_, hi⟩
    · refine le_trans (List.length_filter_le _ _) ?_
      rw [List.length_dropLast]
      omega
    · refine le_trans (le_of_eq ?_) hi
      have e1 : ∀ k : List (Ext T), (∀ x ∈ k, x = ext c s x.t) →
          (k.filter (fun e => !divides c (ext c s a.t) e)).length =
            ((k.map Ext.t).filter (fun e => !c.dm.divides a.t e)).length := by
        intro k hk
        rw [List.filter_map, List.length_map]
        congr 1
        refine List.filter_congr ?_
        intro x hx
        rw [Function.comp_apply, ← hinv.toMaskInv.divides hl a.t x.t, ← hk x hx]
      rw [e1 _ (fun x hx => hinv.toMaskInv.mem ((List.dropLast_sublist _).subset hx)), List.map_dropLast]
      rfl
  have key : removeMultiplesRef c s i = removeMultiples c s a.t := by
    refine removeMultiplesRef_of ha ?_ ?_
    · intro hb
      refine removeMultiplesListRef_eq _ i a.t s.list 0 ?_
      rcases hi with hi | ⟨hf, _⟩
      · omega
      · rw [hb] at hf; cases hf
    · intro hb
      refine removeMultiplesVectorRef_of _ i a s.list ha ?_
      intro it e he hv hno
      have hit : it < s.list.length := (List.getElem?_eq_some_iff.mp he).1
      refine compactLoopRef_eq _ i a _ _ _ _ _ ha (by omega) ?_
      refine le_trans (count_kept (fun e => !divides c ⟨(ext c s a.t).mask, a.t⟩ e) s.list it hit ?_) (hcount hb)
      intro j hj e' he'
      simp [hno j hj e' he']
  rw [key]
  exact removes_copy hl hinv a.t

/-- C83 for an array in which no entry divides another one, as `insert` with minimization keeps it: the entry passed is
removed, and nothing else. -/
theorem removeMultiples_own_minimal_partial (hl : c.Lawful) {s : State T} (h : Reachable c s) (hv : c.useLinkedList = false)
    (hr : ∀ t, c.dm.divides t t = true) (hmin : Minimal c.dm s.contents) (i : ℕ) (hi : i < s.contents.length) :
    ∃ s', removeMultiplesRef c s i = some ([s.contents[i]], true, s') ∧ s'.contents = s.contents.eraseIdx i := by
  have hinv := h.inv hl
  have hlen : s.contents.length = s.list.length := by simp [State.contents]
  have hil : i < s.list.length := by omega
  have hget : ∀ k (hk : k < s.list.length), s.contents[k]? = some s.list[k].t := by
    intro k hk
    unfold State.contents
    rw [List.getElem?_map, List.getElem?_eq_getElem hk]
    rfl
  have hmin' : ∀ j k (hj : j < s.list.length) (hk : k < s.list.length), j ≠ k →
      c.dm.divides s.list[j].t s.list[k].t = false :=
    fun j k hj hk hjk => hmin j k _ _ hjk (hget j hj) (hget k hk)
  have hfalse : ∀ (mask : Mask) (m : T) (e : Ext T), c.dm.divides m e.t = false → divides c ⟨mask, m⟩ e = false := by
    intro mask m e he
    unfold divides DivMask.Ext.divides
    simp [he]
  set a := s.list[i] with ha
  have ha' : s.list[i]? = some a := List.getElem?_eq_getElem hil
  have key : removeMultiplesRef c s i = removeMultiples c s a.t := by
    refine removeMultiplesRef_of ha' (fun hb => by rw [hv] at hb; cases hb) ?_
    intro _
    refine removeMultiplesVectorRef_of _ i a s.list ha' ?_
    intro it e he hdv hno
    have hit : it < s.list.length := (List.getElem?_eq_some_iff.mp he).1
    have hiti : it = i := by
      by_contra hne
      rw [List.getElem?_eq_getElem hit] at he
      cases he
      rw [hfalse _ _ _ (hmin' i it hil hit (Ne.symm hne))] at hdv
      cases hdv
    subst hiti
    cases hn : s.list.length - (it + 1) with
    | zero => rfl
    | succ n =>
      have hnext : it + 1 < s.list.length := by omega
      rw [compactLoopRef, compactLoop, List.getElem?_eq_getElem hnext]
      simp only [dividesRef, ha', if_pos hit]
      have hm1 : divides c ⟨(ext c s a.t).mask, a.t⟩ s.list[it + 1] = false :=
        hfalse _ _ _ (hmin' it (it + 1) hil hnext (by omega))
      simp only [hm1, Bool.not_false, if_true]
      refine compactLoopRef_keep _ it s.list[it + 1] _ n _ _ _ _ (List.getElem?_set_self hit) (by omega) (by omega) ?_
      rw [List.drop_set_of_lt (by omega)]
      intro x hx
      obtain ⟨k, hk, rfl⟩ := List.getElem_of_mem hx
      rw [List.length_drop] at hk
      rw [List.getElem_drop]
      exact ⟨hfalse _ _ _ (hmin' _ _ hnext (by omega) (by omega)), hfalse _ _ _ (hmin' it _ hil (by omega) (by omega))⟩
  have hci : s.contents[i] = a.t := by
    have := hget i hil
    rw [List.getElem?_eq_getElem hi] at this
    exact Option.some.inj this
  -- the multiples of the entry are the entry
  have hfil : ∀ (l₁ l₂ : List T) (x : T), c.dm.divides x x = true → (∀ y ∈ l₁, c.dm.divides x y = false) →
      (∀ y ∈ l₂, c.dm.divides x y = false) →
      (l₁ ++ x :: l₂).filter (fun e => c.dm.divides x e) = [x] ∧
      (l₁ ++ x :: l₂).filter (fun e => !c.dm.divides x e) = l₁ ++ l₂ := by
    intro l₁ l₂ x hx h1 h2
    have f1 : ∀ l : List T, (∀ y ∈ l, c.dm.divides x y = false) →
        l.filter (fun e => c.dm.divides x e) = [] ∧ l.filter (fun e => !c.dm.divides x e) = l := by
      intro l hl
      exact ⟨by rw [List.filter_eq_nil_iff]; intro y hy; simp [hl y hy],
        by rw [List.filter_eq_self]; intro y hy; simp [hl y hy]⟩
    rw [List.filter_append, List.filter_append, List.filter_cons, List.filter_cons, (f1 l₁ h1).1, (f1 l₁ h1).2, (f1 l₂ h2).1,
      (f1 l₂ h2).2, hx]
    simp
  have hsplit : s.contents = s.contents.take i ++ a.t :: s.contents.drop (i + 1) := by
    rw [← hci, ← List.drop_eq_getElem_cons hi, List.take_append_drop]
  have h1 : ∀ y ∈ s.contents.take i, c.dm.divides a.t y = false := by
    intro y hy
    obtain ⟨k, hk, rfl⟩ := List.getElem_of_mem hy
    rw [List.length_take] at hk
    rw [List.getElem_take]
    exact hmin i k _ _ (by omega) (hget i hil) (List.getElem?_eq_getElem _)
  have h2 : ∀ y ∈ s.contents.drop (i + 1), c.dm.divides a.t y = false := by
    intro y hy
    obtain ⟨k, hk, rfl⟩ := List.getElem_of_mem hy
    rw [List.length_drop] at hk
    rw [List.getElem_drop]
    exact hmin i _ _ _ (by omega) (hget i hil) (List.getElem?_eq_getElem _)
  obtain ⟨f1, f2⟩ := hfil _ _ _ (hr a.t) h1 h2
  rw [← hsplit] at f1 f2
  obtain ⟨out, b, s', g1, g2⟩ := removes_copy hl hinv a.t
  have ho : out = [a.t] := by rw [g2.puts, f1]
  have hb : b = true := g2.ret.mpr (by rw [ho]; simp)
  refine ⟨s', ?_, ?_⟩
  · rw [key, g1, ho, hb, hci]
  · rw [g2.left, f2, List.eraseIdx_eq_take_drop_succ]

/-! ## Where it is not so -/

/-- The list after insertions. -/
def exList (linked masks : Bool) (l : List (List ℤ)) : Option (State (List ℤ)) :=
  match init (exConf 2 linked masks false) with
  | none => none
  | some s => (run (exConf 2 linked masks false) s (l.map .insert)).map Prod.snd

theorem exList_reachable {linked masks : Bool} {l : List (List ℤ)} {s : State (List ℤ)} (h : exList linked masks l = some s) :
    Reachable (exConf 2 linked masks false) s := by
  unfold exList at h
  cases hi : init (exConf 2 linked masks false) with
  | none => rw [hi] at h; cases h
  | some s₀ =>
    rw [hi] at h
    simp only at h
    cases hr : run (exConf 2 linked masks false) s₀ (l.map .insert) with
    | none => rw [hr] at h; cases h
    | some r =>
      rw [hr] at h
      cases h
      refine ⟨s₀, _, r.1, hi, ?_, hr⟩
      intro op ho
      rw [List.mem_map] at ho
      obtain ⟨e, _, rfl⟩ := ho
      trivial

/-- What the call with the entry at position `i` puts out and leaves. -/
def exOwn (linked masks : Bool) (l : List (List ℤ)) (i : ℕ) : Option (List (List ℤ) × Bool × List (List ℤ)) := do
  let s ← exList linked masks l
  let r ← removeMultiplesRef (exConf 2 linked masks false) s i
  some (r.1, r.2.1, r.2.2.contents)

/-- C83 is violated. In the array of x, y, x² the call with the first entry leaves x²: the entry y is moved to its place
before x² is looked at. In the array of x, y, y² it removes y². In a linked list the entry is destructed and
then used. (The lists have no masks; with masks the first and the last are the same, see below.) -/
theorem removeMultiples_own_refuted :
    (∃ s, Reachable (exConf 2 false false false) s ∧ s.contents = [[1, 0], [0, 1], [2, 0]] ∧
      ∃ s', removeMultiplesRef (exConf 2 false false false) s 0 = some ([[1, 0]], true, s') ∧ s'.contents = [[0, 1], [2, 0]] ∧
        (exConf 2 false false false).dm.divides [1, 0] [2, 0] = true) ∧
    (∃ s, Reachable (exConf 2 false false false) s ∧ s.contents = [[1, 0], [0, 1], [0, 2]] ∧
      ∃ s', removeMultiplesRef (exConf 2 false false false) s 0 = some ([[1, 0], [0, 2]], true, s') ∧ s'.contents = [[0, 1]] ∧
        (exConf 2 false false false).dm.divides [1, 0] [0, 2] = false) ∧
    (∃ s, Reachable (exConf 2 true false false) s ∧ s.contents = [[1, 0], [1, 1]] ∧
      removeMultiplesRef (exConf 2 true false false) s 0 = none) := by
  have get : ∀ (linked masks : Bool) (l : List (List ℤ)), (exList linked masks l).isSome = true →
      ∃ s, exList linked masks l = some s := fun linked masks l h => Option.isSome_iff_exists.mp h
  refine ⟨?_, ?_, ?_⟩
  · obtain ⟨s, hs⟩ := get false false [[1, 0], [0, 1], [2, 0]] (by decide +kernel)
    have h1 : (exList false false [[1, 0], [0, 1], [2, 0]]).map State.contents = some [[1, 0], [0, 1], [2, 0]] := by decide +kernel
    have h2 : exOwn false false [[1, 0], [0, 1], [2, 0]] 0 = some ([[1, 0]], true, [[0, 1], [2, 0]]) := by decide +kernel
    rw [hs] at h1
    unfold exOwn at h2
    rw [hs] at h2
    cases hr : removeMultiplesRef (exConf 2 false false false) s 0 with
    | none => simp [hr] at h2
    | some r =>
      obtain ⟨o, b, s'⟩ := r
      simp only [Option.bind_eq_bind, Option.bind_some, hr, Option.some.injEq, Prod.mk.injEq] at h2
      obtain ⟨rfl, rfl, h4⟩ := h2
      exact ⟨s, exList_reachable hs, Option.some.inj h1, s', hr, h4, by decide⟩
  · obtain ⟨s, hs⟩ := get false false [[1, 0], [0, 1], [0, 2]] (by decide +kernel)
    have h1 : (exList false false [[1, 0], [0, 1], [0, 2]]).map State.contents = some [[1, 0], [0, 1], [0, 2]] := by decide +kernel
    have h2 : exOwn false false [[1, 0], [0, 1], [0, 2]] 0 = some ([[1, 0], [0, 2]], true, [[0, 1]]) := by decide +kernel
    rw [hs] at h1
    unfold exOwn at h2
    rw [hs] at h2
    cases hr : removeMultiplesRef (exConf 2 false false false) s 0 with
    | none => simp [hr] at h2
    | some r =>
      obtain ⟨o, b, s'⟩ := r
      simp only [Option.bind_eq_bind, Option.bind_some, hr, Option.some.injEq, Prod.mk.injEq] at h2
      obtain ⟨rfl, rfl, h4⟩ := h2
      exact ⟨s, exList_reachable hs, Option.some.inj h1, s', hr, h4, by decide⟩
  · obtain ⟨s, hs⟩ := get true false [[1, 0], [1, 1]] (by decide +kernel)
    have h1 : (exList true false [[1, 0], [1, 1]]).map State.contents = some [[1, 0], [1, 1]] := by decide +kernel
    have h2 : exOwn true false [[1, 0], [1, 1]] 0 = none := by decide +kernel
    rw [hs] at h1
    unfold exOwn at h2
    rw [hs] at h2
    cases hr : removeMultiplesRef (exConf 2 true false false) s 0 with
    | none => exact ⟨s, exList_reachable hs, Option.some.inj h1, hr⟩
    | some r => simp [hr] at h2

-- the violations with masks
#guard exOwn false true [[1, 0], [0, 1], [2, 0]] 0 = some ([[1, 0]], true, [[0, 1], [2, 0]])
#guard exOwn true true [[1, 0], [1, 1]] 0 = none
-- the last entry, in both kinds of lists
#guard exOwn false true [[1, 1], [0, 1], [2, 0], [1, 0]] 3 = some ([[1, 1], [2, 0], [1, 0]], true, [[0, 1]])
#guard exOwn true true [[1, 1], [0, 1], [2, 0], [1, 0]] 3 = some ([[1, 1], [2, 0], [1, 0]], true, [[0, 1]])
-- an entry in the middle, which is not overwritten
#guard exOwn false true [[1, 1], [1, 0], [2, 0], [0, 1]] 1 = some ([[1, 1], [1, 0], [2, 0]], true, [[0, 1]])
-- no entry divides another
#guard exOwn false true [[3, 0], [2, 1], [1, 2], [0, 3]] 1 = some ([[2, 1]], true, [[3, 0], [1, 2], [0, 3]])

end Verif.DivList

namespace Verif.KDMem

open Verif.DivMask (Ext Mask)
open Verif.KDTree (Conf Ret Op exDm)

variable {T : Type} {c : Conf T}

/-- C83 for binary KD trees after any history: the last entry of a leaf, or any entry of a leaf in which no entry divides
another. -/
theorem binary_own_partial (hl : c.Lawful) (hp : c.packed = false) (hr : ∀ t, c.dm.divides t t = true) (ops : List (Op T))
    (h1 : ∀ op ∈ ops, op.NoThrow) (h2 : ∀ op ∈ ops, op.NotElement) {m₀ s : State (BNode T)} {rs : List (Ret T)}
    (hi : init c = some m₀) (hs : run Binary.impl c m₀ ops = .ok (rs, s)) {a : Addr} {r : RArr T}
    {l : List (Ext T)} {j : ℕ} {x : Ext T} (hg : Binary.impl.getArr s.tree.heap a = some r) (hv : r.view = some l)
    (hx : l[j]? = some x) (h : j + 1 = r.len ∨ DivList.Minimal c.dm (l.map Ext.t)) :
    removeRef Binary.impl Binary.bare c s (a, j) = remove Binary.impl c s x.t := by
  obtain ⟨s₀, g1, g2, g3, g4⟩ := KDTree.init_ok hl
  obtain ⟨m₀', g5, g6⟩ := init_sim (Binary.layout hl hp) g1
  rw [hi] at g5
  cases g5
  obtain ⟨rs', S, m, r1, r2, r3, r4, r5⟩ := run_sim hl (Binary.layout hl hp) ops g2 (by unfold SizeGe; rw [g3]) g6
    (fun op ho => ⟨h1 op ho, by have := h2 op ho; cases op <;> trivial⟩)
  rw [hs] at r2
  cases r2
  exact Binary.own_tree hl hp hr r3 r5 hg hv hx h

/-- C83 for binary KD trees if no entry divides another: any entry. -/
theorem binary_own_minimal_partial (hl : c.Lawful) (hp : c.packed = false) (hr : ∀ t, c.dm.divides t t = true)
    (ops : List (Op T)) (h1 : ∀ op ∈ ops, op.NoThrow) (h2 : ∀ op ∈ ops, op.NotElement) {m₀ s : State (BNode T)}
    {rs : List (Ret T)} (hi : init c = some m₀) (hs : run Binary.impl c m₀ ops = .ok (rs, s))
    (hm : DivList.Minimal c.dm (liveEntries Binary.impl.slots s.tree.heap)) {p : Ptr} {x : T}
    (hd : deref Binary.impl s.tree p = some x) : removeRef Binary.impl Binary.bare c s p = remove Binary.impl c s x := by
  obtain ⟨a, j⟩ := p
  obtain ⟨s₀, g1, g2, g3, g4⟩ := KDTree.init_ok hl
  obtain ⟨m₀', g5, g6⟩ := init_sim (Binary.layout hl hp) g1
  rw [hi] at g5
  cases g5
  obtain ⟨rs', S, m, r1, r2, r3, r4, r5⟩ := run_sim hl (Binary.layout hl hp) ops g2 (by unfold SizeGe; rw [g3]) g6
    (fun op ho => ⟨h1 op ho, by have := h2 op ho; cases op <;> trivial⟩)
  rw [hs] at r2
  cases r2
  obtain ⟨r, l, y, k1, k2, k3, rfl⟩ := Binary.deref_leaf hl hp r5 hd
  refine Binary.own_tree hl hp hr r3 r5 k1 k2 k3 (.inr (minimal_sublist ?_ hm))
  exact Binary.getArr_sublist k1 k2

/-- Both hypotheses are met by a tree of x and y, and the call removes x. -/
example : ∃ m₀ rs s, init (exPlain false 3) = some m₀ ∧
    run Binary.impl (exPlain false 3) m₀ [.insert [1], .insert [0, 1]] = .ok (rs, s) ∧
    DivList.Minimal (exPlain false 3).dm (liveEntries Binary.impl.slots s.tree.heap) ∧ deref Binary.impl s.tree (0, 0) = some [1] := by
  obtain ⟨rs, h⟩ := exBinary_run [] [[1], [0, 1]] (by decide)
  refine ⟨_, rs, _, rfl, h, ?_, rfl⟩
  rw [minimal_iff]
  have : liveEntries Binary.impl.slots (exBinary ([] ++ [[1], [0, 1]])).tree.heap = [[1], [0, 1]] := rfl
  rw [this]
  simp only [List.pairwise_cons, List.mem_singleton, forall_eq, List.not_mem_nil, false_imp_iff, implies_true, List.Pairwise.nil, and_true]
  exact ⟨by decide, by decide⟩

/-- C83 for packed KD trees of one node. -/
theorem packed_own_partial (hr : ∀ x : Ext T, KDTree.divides c x x = true) {s : State (PNode T)} {a : Addr} {r : RArr T}
    {l : List (Ext T)} {j : ℕ} {x : Ext T} (hroot : s.tree.root = some a) (htmp : s.tree.tmp = [])
    (hb : Packed.bare s.tree.heap a = true) (hg : Packed.impl.getArr s.tree.heap a = some r) (hv : r.view = some l)
    (hx : l[j]? = some x) (hmask : x = Ext.make c.dm s.bits x.t)
    (h : j + 1 = r.len ∨ DivList.Minimal c.dm (l.map Ext.t)) :
    removeRef Packed.impl Packed.bare c s (a, j) = remove Packed.impl c s x.t :=
  own_single Packed.impl Packed.bare (fun _ _ hb => Packed.single hb) (fun _ _ _ => rfl) hr hroot htmp hb hg hv hx hmask h

/-! ## Where it is not so -/

/-- C83 is violated by KD trees: in a tree with x, y, x² in one node, the call with the entry x leaves x². -/
theorem kdTree_own_refuted :
    (∃ m₀ rs m, (exPlain false 3).Lawful ∧ init (exPlain false 3) = some m₀ ∧
      run Binary.impl (exPlain false 3) m₀ [.insert [1], .insert [0, 1], .insert [2]] = .ok (rs, m) ∧
      deref Binary.impl m.tree (0, 0) = some [1] ∧ ∃ m', removeRef Binary.impl Binary.bare (exPlain false 3) m (0, 0) =
        .ok (.removed [[1]] true, m') ∧ liveEntries Binary.impl.slots m'.tree.heap = [[0, 1], [2]] ∧
      (exPlain false 3).dm.divides [1] [2] = true) ∧
    (∃ m₀ rs m, (exPlain true 3).Lawful ∧ init (exPlain true 3) = some m₀ ∧
      run Packed.impl (exPlain true 3) m₀ [.insert [1], .insert [0, 1], .insert [2]] = .ok (rs, m) ∧
      deref Packed.impl m.tree (0, 0) = some [1] ∧ ∃ m', removeRef Packed.impl Packed.bare (exPlain true 3) m (0, 0) =
        .ok (.removed [[1]] true, m') ∧ liveEntries Packed.impl.slots m'.tree.heap = [[0, 1], [2]] ∧
      (exPlain true 3).dm.divides [1] [2] = true) := by
  constructor
  · obtain ⟨rs, h⟩ := exBinary_run [] [[1], [0, 1], [2]] (by decide)
    refine ⟨_, rs, _, exPlain_lawful _ (by decide), rfl, ?_, ?_, _, exOwn_of Binary.impl Binary.bare false (exBinary [[1], [0, 1], [2]])
      [some (.leaf (exArr [[0, 1], [2]]))] rfl rfl rfl rfl rfl rfl, rfl, by decide⟩
    · exact h
    · rfl
  · obtain ⟨rs, h⟩ := exPacked_run [] [[1], [0, 1], [2]] (by decide)
    refine ⟨_, rs, _, exPlain_lawful _ (by decide), rfl, ?_, ?_, _, exOwn_of Packed.impl Packed.bare true (exPacked [[1], [0, 1], [2]])
      [some (Packed.make (exArr [[0, 1], [2]]) 0)] rfl rfl rfl rfl rfl rfl, rfl, by decide⟩
    · exact h
    · rfl

/-- A history and then a call with the entry that a pointer points to, and what is alive then. -/
def ownOutcome {N : Type} (I : Impl T N) (bare : Heap N → Addr → Bool) (c : Conf T) (ops : List (Op T)) (p : Ptr) :
    Option (Option T × Option (Ret T × List T)) :=
  match init c with
  | none => none
  | some m =>
    match run I c m ops with
    | .ok (_, m) => some (deref I m.tree p, match removeRef I bare c m p with
      | .ok (r, m) => some (r, liveEntries I.slots m.tree.heap)
      | _ => none)
    | _ => none

-- x² is not removed with x, in both kinds of trees
#guard ownOutcome Binary.impl Binary.bare (exPlain false 3) [.insert [1], .insert [0, 1], .insert [2]] (0, 0) ==
  some (some [1], some (.removed [[1]] true, [[0, 1], [2]]))
#guard ownOutcome Packed.impl Packed.bare (exPlain true 3) [.insert [1], .insert [0, 1], .insert [2]] (0, 0) ==
  some (some [1], some (.removed [[1]] true, [[0, 1], [2]]))

-- the entry is destructed when the children of its node are looked at
#guard ownOutcome Packed.impl Packed.bare (exPlain true 1) [.insert [1], .insert [2]] (1, 0) == some (some [1], none)
-- the other entry has no node to be looked at later
#guard ownOutcome Packed.impl Packed.bare (exPlain true 1) [.insert [1], .insert [2]] (0, 0) ==
  some (some [2], some (.removed [[2]] true, [[1]]))
-- not so in a binary tree
#guard ownOutcome Binary.impl Binary.bare (exPlain false 1) [.insert [1], .insert [2]] (0, 0) ==
  some (some [1], some (.removed [[2], [1]] true, []))
-- entries that do not divide each other, with masks
#guard ownOutcome Binary.impl Binary.bare (KDTree.exConf false false false 2) [.insert [3, 0], .insert [2, 1], .insert [1, 2], .insert [0, 3]] (0, 0) ==
  some (some [2, 1], some (.removed [[2, 1]] true, [[1, 2], [3, 0], [0, 3]]))

end Verif.KDMem
