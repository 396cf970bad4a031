import Verif.DivListProofs

/-!
# Properties C27 to C33: `DivList`
-/

namespace Verif.DivList

open Verif.DivMask (Ext Bits)

variable {T : Type} {c : Conf T}

/-- The states that histories of allowed calls lead to. -/
def Reachable (c : Conf T) (s : State T) : Prop :=
  ∃ s₀ ops rs, init c = some s₀ ∧ (∀ op ∈ ops, Allowed c op) ∧ run c s₀ ops = some (rs, s)

theorem Reachable.inv (hl : c.Lawful) {s : State T} (h : Reachable c s) : Inv c s := by
  obtain ⟨s₀, ops, rs, h1, h2, h3⟩ := h
  obtain ⟨s, g1, g2, g3⟩ := init_spec hl
  rw [g1] at h1
  cases h1
  exact ((run_spec hl ops g3 h2).2 _ _ h3).1

/-! ## All calls -/

/-- The list starts empty, and every history of allowed calls does what the specification says. -/
theorem divList_correct (hl : c.Lawful) : ∃ s₀, init c = some s₀ ∧ s₀.contents = [] ∧
    ∀ ops rs s, (∀ op ∈ ops, Allowed c op) → run c s₀ ops = some (rs, s) →
      Trace c [] ops rs s.contents := by
  obtain ⟨s₀, g1, g2, g3⟩ := init_spec hl
  refine ⟨s₀, g1, g2, ?_⟩
  intro ops rs s ha hr
  have := ((run_spec hl ops g3 ha).2 _ _ hr).2
  rwa [g2] at this

/-- No call is undefined, but for moving an element that is not there to the front. -/
theorem divList_defined (hl : c.Lawful) {s : State T} (h : Reachable c s) (op : Op T) (ha : Allowed c op) :
    step c s op = none ↔ ¬ op.Pre s.contents := by
  rcases step_spec hl (h.inv hl) op ha with ⟨h1, h2, _⟩ | ⟨h1, r, s', h2, _⟩
  · simp [h1, h2]
  · simp [h1, h2]

/-- One call after any history. -/
theorem divList_step (hl : c.Lawful) {s s' : State T} (h : Reachable c s) {op : Op T} (ha : Allowed c op)
    {r : Ret T} (hs : step c s op = some (r, s')) : Step c s.contents op r s'.contents := by
  rcases step_spec hl (h.inv hl) op ha with ⟨_, h2, _⟩ | ⟨_, r', s'', h2, _, _, h5⟩
  · rw [h2] at hs; cases hs
  · rw [h2] at hs; cases hs; exact h5

/-! ## C27 -/

/-- `findDivisor` finds a divisor that is in the list if there is one. -/
theorem findDivisor_exact (hl : c.Lawful) {s : State T} (h : Reachable c s) (m : T) :
    ∃ r, step c s (.findDivisor m) = some (.entry r, s) ∧
      (∀ e, r = some e → e ∈ s.contents ∧ c.dm.divides e m = true) ∧
      (r = none → ∀ e ∈ s.contents, c.dm.divides e m = false) := by
  refine ⟨_, by rw [step, findDivisor_spec hl (h.inv hl) m]; rfl, ?_, ?_⟩
  · intro e he
    exact ⟨List.mem_of_find?_eq_some he, by simpa using List.find?_some he⟩
  · intro hn e he
    simpa using List.find?_eq_none.mp hn e he

/-- `findDivisorIterator` points at the same divisor, the first in the list. -/
theorem findDivisorIterator_exact (hl : c.Lawful) {s : State T} (h : Reachable c s) (m : T) :
    ∃ i, step c s (.findDivisorIterator m) = some (.pos i, s) ∧ i ≤ s.contents.length ∧
      s.contents[i]? = s.contents.find? (fun e => c.dm.divides e m) := by
  refine ⟨_, by rw [step, findDivisorIterator_spec hl (h.inv hl) m]; rfl, List.findIdx_le_length, ?_⟩
  rw [List.find?_eq_getElem?_findIdx]

/-! ## C28 -/

/-- The enumerations hand out each match once, in list order, up to the point where the output stops. -/
theorem enumerations_exact (hl : c.Lawful) {s : State T} (h : Reachable c s) (m : T) (p : List T → Bool) :
    (∃ got, step c s (.findAllDivisors m p) = some (.got got, s) ∧
      Delivered (s.contents.filter (fun e => c.dm.divides e m)) p got) ∧
    (∃ got, step c s (.findAllMultiples m p) = some (.got got, s) ∧
      Delivered (s.contents.filter (fun e => c.dm.divides m e)) p got) ∧
    (∃ got, step c s (.forAll p) = some (.got got, s) ∧ Delivered s.contents p got) := by
  refine ⟨⟨_, by rw [step, findAllDivisors_spec hl (h.inv hl) m p]; rfl, delivered_refVisit _ _⟩,
    ⟨_, by rw [step, findAllMultiples_spec hl (h.inv hl) m p], delivered_refVisit _ _⟩,
    ⟨_, by rw [step, forAll_spec s p], delivered_refVisit _ _⟩⟩

/-- An output that never stops gets everything. -/
theorem Delivered.all {l got : List T} {p : List T → Bool} (h : Delivered l p got) (hp : ∀ l, p l = true) :
    got = l := by
  obtain ⟨k, _, h2, _, h4 | ⟨_, h4⟩⟩ := h
  · rw [h2, h4, List.take_length]
  · rw [hp] at h4; cases h4

/-! ## C29 -/

/-- `removeMultiples` removes the multiples and nothing else. -/
theorem removeMultiples_exact (hl : c.Lawful) {s : State T} (h : Reachable c s) (m : T) :
    ∃ out b s', step c s (.removeMultiples m) = some (.removed out b, s') ∧
      out = s.contents.filter (fun e => c.dm.divides m e) ∧
      s'.contents = s.contents.filter (fun e => !c.dm.divides m e) ∧
      (b = true ↔ out ≠ []) ∧ step c s' .size = some (.num (s.contents.length - out.length), s') := by
  obtain ⟨s', h1, h2, h3⟩ := removeMultiples_spec hl (h.inv hl) m
  refine ⟨_, _, s', by rw [step, h1]; rfl, rfl, h2, ?_, ?_⟩
  · rw [List.any_eq_true, Ne, List.filter_eq_nil_iff]
    push Not
    rfl
  · have hlen : s'.list.length = s'.contents.length := by simp [State.contents]
    rw [step, hlen, h2]
    have hcount : ∀ k : List T, (k.filter (fun e => !c.dm.divides m e)).length =
        k.length - (k.filter (fun e => c.dm.divides m e)).length := by
      intro k
      induction k with
      | nil => rfl
      | cons a k ih =>
        have := List.length_filter_le (fun e => c.dm.divides m e) k
        simp only [List.filter_cons]
        cases c.dm.divides m a <;> simp <;> omega
    rw [hcount]

/-! ## C30 -/

/-- A list that sorts on insertion is sorted at all times. -/
theorem sorted_always (hl : c.Lawful) (hso : c.sortOnInsert = true) {s : State T} (h : Reachable c s) :
    Sorted c.isLessThan s.contents := (h.inv hl).sorted hso

/-! ## C31 -/

/-- Without sorting: an element moves to the front, the others keep their order, and the state is
one for which all theorems of this file hold. -/
theorem moveToFront_partial (hl : c.Lawful) (hso : c.sortOnInsert = false) {s : State T} (h : Reachable c s)
    (i : ℕ) (hi : i < s.contents.length) : ∃ s', step c s (.moveToFront i) = some (.unit, s') ∧
      s'.contents = s.contents[i] :: s.contents.eraseIdx i ∧ s'.contents.Perm s.contents ∧
      Reachable c s' := by
  obtain ⟨s', g1, g2, g3⟩ := (moveToFront_spec hso (h.inv hl) i).2 _ (List.getElem?_eq_getElem hi)
  have hstep : step c s (.moveToFront i) = some (.unit, s') := by rw [step, g1]; rfl
  refine ⟨s', hstep, g2, ?_, ?_⟩
  · rw [g2]
    exact List.getElem_cons_eraseIdx_perm hi
  · obtain ⟨s₀, ops, rs, h1, h2, h3⟩ := h
    refine ⟨s₀, ops ++ [.moveToFront i], rs ++ [.unit], h1, ?_, ?_⟩
    · intro op hop
      rcases List.mem_append.mp hop with hop | hop
      · exact h2 op hop
      · rw [List.mem_singleton.mp hop]; exact hso
    · have happ : ∀ (ops : List (Op T)) (s₀ : State T) (rs : List (Ret T)),
          run c s₀ ops = some (rs, s) → run c s₀ (ops ++ [.moveToFront i]) = some (rs ++ [.unit], s') := by
        intro ops
        induction ops with
        | nil =>
          intro s₀ rs hr
          cases hr
          simp only [List.nil_append, run, hstep]
        | cons op ops ih =>
          intro s₀ rs hr
          rw [run] at hr
          rw [List.cons_append, run]
          split at hr
          · cases hr
          · rename_i r s1 hs1
            split at hr
            · cases hr
            · rename_i rs1 s2 hs2
              cases hr
              rw [ih _ _ hs2]
              rfl
      exact happ ops s₀ rs h3

/-- A sort function, for examples. -/
def exSort {α : Type} (lt : α → α → Bool) (l : List α) : List α := l.mergeSort (fun a b => !lt b a)

theorem exSort_isSortFn : IsSortFn exSort where
  perm lt l _ := l.mergeSort_perm _
  sorted lt l hw := by
    have := List.pairwise_mergeSort (le := fun a b => !lt b a) (fun a b d h1 h2 => by
      simp only [Bool.not_eq_true'] at *
      exact hw.ge_trans h2 h1) (fun a b => by
        cases h : lt b a with
        | false => simp
        | true => simp [hw.asymm h]) l
    exact this.imp (fun h => by simpa using h)
  natural lt lt' f l h := by
    unfold exSort
    exact List.map_mergeSort (fun a _ b _ => by rw [h])

/-- The configuration of the examples: exponent vectors in `n` variables, ordered by total degree. -/
def exConf (n : ℕ) (linked masks sorted : Bool) : Conf (List ℤ) where
  dm := DivMask.exConf (.unsigned 32) n
  useLinkedList := linked
  useDivMask := masks
  sortOnInsert := sorted
  isLessThan a b := decide (((List.range n).map (fun v => a.getD v 0)).sum <
    ((List.range n).map (fun v => b.getD v 0)).sum)
  doAutomaticRebuilds := true
  rebuildSize k := k / 2
  rebuildMin := 2
  sortVars := DivMask.exSort
  sort := exSort

theorem exConf_lawful (n : ℕ) (linked masks sorted : Bool) : (exConf n linked masks sorted).Lawful where
  masks := DivMask.exConf_lawful _ _
  sortVars := DivMask.exSort_isSort
  noOverflow _ l := DivMask.rebuild_unsigned rfl DivMask.exSort_isSort l
  order _ := {
    irrefl := fun a => by simp [exConf]
    trans := fun a b d h1 h2 => by
      simp only [exConf, decide_eq_true_eq] at *
      omega
    negTrans := fun a b d h1 => by
      simp only [exConf, decide_eq_true_eq] at *
      omega }
  refines _ a b h := by
    have h := DivMask.exConf_lawful (.unsigned 32) n a b h
    simp only [exConf, decide_eq_false_iff_not, not_lt]
    have hsum : ∀ l : List ℕ, (∀ v ∈ l, v < n) →
        (l.map (fun v => a.getD v 0)).sum ≤ (l.map (fun v => b.getD v 0)).sum := by
      intro l
      induction l with
      | nil => intro _; simp
      | cons v l ih =>
        intro hv
        have h1 := ih (fun w hw => hv w (List.mem_cons_of_mem _ hw))
        have h2 : a.getD v 0 ≤ b.getD v 0 := h v (hv v List.mem_cons_self)
        simp only [List.map_cons, List.sum_cons]
        omega
    exact hsum _ (fun v hv => List.mem_range.mp hv)
  sort _ := exSort_isSortFn

/-- The property fails for a sorted linked list: after moves to the front, a divisor that is in the list
is not found. (The list is `x` and 35 times `x^2`, all `x^2` are moved to the front, then `x` is asked
for.) -/
theorem moveToFront_misses : ∃ s₀ s rs, init (exConf 1 true false true) = some s₀ ∧
    run (exConf 1 true false true) s₀
      ([.insert [1]] ++ List.replicate 35 (.insert [2]) ++ List.replicate 35 (.moveToFront 35)) = some (rs, s) ∧
    [1] ∈ s.contents ∧ (exConf 1 true false true).dm.divides [1] [1] = true ∧
    findDivisor (exConf 1 true false true) s [1] = some none := by
  exact ⟨_, _, _, rfl, rfl, by decide, by decide, by decide⟩

/-- The property fails for a sorted array: after a move to the front, the binary search has a range that
is not partitioned, which is undefined. -/
theorem moveToFront_undefined : ∃ s₀ s rs, init (exConf 1 false false true) = some s₀ ∧
    run (exConf 1 false false true) s₀ [.insert [1], .insert [2], .moveToFront 1] = some (rs, s) ∧
    findDivisor (exConf 1 false false true) s [1] = none := by
  exact ⟨_, _, _, rfl, rfl, by decide⟩

/-! ## C32 and C33 -/

/-- Two configurations with the same divisibility, order and choice to sort give the same answers and
the same lists on all histories, whatever their storage, masks and automatic rebuilds are. If sorted
ranges are inserted the sort functions have to treat equal entries alike. -/
theorem lists_agree {c₁ c₂ : Conf T} (h₁ : c₁.Lawful) (h₂ : c₂.Lawful) (hdm : c₁.dm = c₂.dm)
    (hlt : c₁.isLessThan = c₂.isLessThan) (hso : c₁.sortOnInsert = c₂.sortOnInsert)
    (ops : List (Op T)) (ha : ∀ op ∈ ops, Allowed c₁ op)
    (hsort : (∀ es, Op.insertRange es ∉ ops) ∨ ∀ l, c₁.sort c₁.isLessThan l = c₂.sort c₂.isLessThan l) :
    ∃ s₁ s₂, init c₁ = some s₁ ∧ init c₂ = some s₂ ∧
      (run c₁ s₁ ops).map (fun r => (r.1, r.2.contents)) =
      (run c₂ s₂ ops).map (fun r => (r.1, r.2.contents)) := by
  obtain ⟨s₁, a1, a2, a3⟩ := init_spec h₁
  obtain ⟨s₂, b1, b2, b3⟩ := init_spec h₂
  refine ⟨s₁, s₂, a1, b1, ?_⟩
  have ha2 : ∀ op ∈ ops, Allowed c₂ op := by
    intro op hop
    have := ha op hop
    cases op <;> simp_all [Allowed]
  rw [(run_spec h₁ ops a3 ha).1, (run_spec h₂ ops b3 ha2).1, a2, b2]
  have hins : refInsert c₁ = refInsert c₂ := by
    funext l e
    unfold refInsert
    rw [hso, hlt]
  have hstep : ∀ op ∈ ops, ∀ l, refStep c₁ l op = refStep c₂ l op := by
    intro op hop l
    cases op with
    | insert e => rw [refStep, refStep, hins]
    | insertRange es =>
      have hs := hsort.resolve_left (fun h => h es hop)
      rw [refStep, refStep, refInsertRange, refInsertRange, hins, hso, hs]
    | removeElement m =>
      rw [refStep, refStep]
      unfold refRemoveElement sameExponents
      rw [hdm]
    | removeMultiples m => rw [refStep, refStep, hdm]
    | findDivisor m => rw [refStep, refStep, hdm]
    | findDivisorIterator m => rw [refStep, refStep, hdm]
    | findAllDivisors m p => rw [refStep, refStep, hdm]
    | findAllMultiples m p => rw [refStep, refStep, hdm]
    | forAll p => rfl
    | moveToFront i => rfl
    | rebuild => rfl
    | size => rfl
  clear ha ha2 hsort
  generalize ([] : List T) = l
  induction ops generalizing l with
  | nil => rfl
  | cons op ops ih =>
    rw [refRun, refRun, hstep op List.mem_cons_self]
    split
    · rfl
    · rw [ih (fun o ho => hstep o (List.mem_cons_of_mem _ ho))]

/-- C32: an array and a linked list agree when entries are inserted one by one, even if `std::sort` and
`std::list::sort` treat equal entries differently. -/
theorem array_list_agree (hl : c.Lawful) (sort' : {α : Type} → (α → α → Bool) → List α → List α)
    (hsort' : IsSortFn sort') (ops : List (Op T)) (ha : ∀ op ∈ ops, Allowed c op)
    (hr : ∀ es, Op.insertRange es ∉ ops) :
    ∃ s₁ s₂, init { c with useLinkedList := false } = some s₁ ∧
      init { c with useLinkedList := true, sort := sort' } = some s₂ ∧
      (run { c with useLinkedList := false } s₁ ops).map (fun r => (r.1, r.2.contents)) =
      (run { c with useLinkedList := true, sort := sort' } s₂ ops).map (fun r => (r.1, r.2.contents)) := by
  refine lists_agree (c₁ := { c with useLinkedList := false })
    (c₂ := { c with useLinkedList := true, sort := sort' })
    ⟨hl.masks, hl.sortVars, hl.noOverflow, hl.order, hl.refines, hl.sort⟩
    ⟨hl.masks, hl.sortVars, hl.noOverflow, hl.order, hl.refines, fun _ => hsort'⟩ rfl rfl rfl ops ?_ (.inl hr)
  intro op hop
  have := ha op hop
  cases op <;> simp_all [Allowed]

/-- C33: automatic rebuilds, at whatever moments, change nothing that can be seen; the same goes for
masks. -/
theorem rebuilds_invisible (hl : c.Lawful) (b : Bool) (f : ℕ → ℕ) (n : ℕ) (ops : List (Op T))
    (ha : ∀ op ∈ ops, Allowed c op) :
    ∃ s₁ s₂, init c = some s₁ ∧
      init { c with useDivMask := false, doAutomaticRebuilds := b, rebuildSize := f, rebuildMin := n } = some s₂ ∧
      (run c s₁ ops).map (fun r => (r.1, r.2.contents)) =
      (run { c with useDivMask := false, doAutomaticRebuilds := b, rebuildSize := f, rebuildMin := n } s₂ ops).map
        (fun r => (r.1, r.2.contents)) := by
  refine lists_agree (c₁ := c)
    (c₂ := { c with useDivMask := false, doAutomaticRebuilds := b, rebuildSize := f, rebuildMin := n })
    hl ⟨hl.masks, hl.sortVars, nofun, hl.order, hl.refines, hl.sort⟩ rfl rfl rfl ops ha (.inr fun _ => rfl)

/-! ## Examples -/

/-- A history that inserts, sorts, removes, rebuilds and asks, and what it gives with all kinds of storage
and masks. -/
def exOps : List (Op (List ℤ)) :=
  [.insertRange [[2, 1], [0, 3], [1, 1]], .insert [3, 0], .insert [0, 1], .findDivisor [0, 4],
   .removeMultiples [2, 0], .findAllDivisors [5, 5] (fun l => l.length < 2), .removeElement [1, 1], .size]

/-- What the examples look at: the last answers and the contents. -/
def exShow (linked masks sorted : Bool) : Option (List (List ℤ) × List (Option (List ℤ))) :=
  match init (exConf 2 linked masks sorted) with
  | none => none
  | some s => match run (exConf 2 linked masks sorted) s exOps with
    | none => none
    | some (rs, s) => some (s.contents, rs.map (fun r => match r with
        | .entry e => e
        | .got l => some (l.flatten)
        | .removed l _ => some (l.flatten)
        | .num n => some [(n : ℤ)]
        | _ => none))

#guard exShow false true true = some ([[0, 1], [0, 3]],
  [none, none, none, some [0, 1], some [2, 1, 3, 0], some [0, 1, 1, 1], none, some [2]])
#guard exShow true true true = exShow false true true
#guard exShow true false true = exShow false true true
#guard exShow false true false = some ([[0, 3], [0, 1]],
  [none, none, none, some [0, 3], some [2, 1, 3, 0], some [0, 3, 1, 1], none, some [2]])
#guard exShow true true false = exShow false true false

/-- The hypotheses of the theorems can be met: a lawful configuration with masks and sorting. -/
example : (exConf 2 false true true).Lawful := exConf_lawful _ _ _ _

end Verif.DivList
