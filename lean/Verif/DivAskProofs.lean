import Verif.DivAsk
import Verif.DivAskSpec
import Verif.KDStateProofs

/-!
# Lemmas on what queries ask
-/

namespace Verif.Ask

open Verif.DivMask (Ext)

variable {T : Type} {q p p' : Ext T → Bool}

theorem head_sublist {e : Ext T} {i : ℕ} {b : Bool} {a l : List (Ext T × ℕ)} (h : a.Sublist l) :
    ((if b then [(e, i)] else []) ++ a).Sublist ((e, i) :: l) := by
  cases b with
  | true => exact h.cons_cons _
  | false => exact h.cons _

theorem head_mem {e : Ext T} {i : ℕ} {b : Bool} {x : Ext T × ℕ} (h : x ∈ if b then [(e, i)] else []) :
    b = true ∧ x = (e, i) := by
  cases b with
  | true => exact ⟨rfl, List.mem_singleton.mp h⟩
  | false => cases h

theorem head_agree {e : Ext T} {i : ℕ} {a : List (Ext T × ℕ)} (hq : ∀ e, q e = false → p' e = p e)
    (h : ∀ x ∈ (if q e then [(e, i)] else []) ++ a, p' x.1 = p x.1) : p' e = p e ∧ ∀ x ∈ a, p' x.1 = p x.1 := by
  refine ⟨?_, fun x hx => h x (List.mem_append_right _ hx)⟩
  cases hb : q e with
  | false => exact hq e hb
  | true => exact h (e, i) (by simp [hb])

theorem mem_dropLast_append {α : Type} {a b : List α} {x : α} (h : x ∈ (a ++ b).dropLast) : x ∈ a ∨ x ∈ b.dropLast := by
  by_cases hb : b = []
  · subst hb
    rw [List.append_nil] at h
    exact .inl (List.mem_of_mem_dropLast h)
  · rw [List.dropLast_append_of_ne_nil hb] at h
    exact List.mem_append.mp h

/-! ## Searches -/

theorem scan_sublist : ∀ (l : List (Ext T)) (i : ℕ), (scan q p l i).Sublist (l.zipIdx i) := by
  intro l
  induction l with
  | nil => intro i; exact List.Sublist.refl _
  | cons e l ih =>
    intro i
    rw [scan, List.zipIdx_cons]
    refine head_sublist ?_
    split
    · exact List.nil_sublist _
    · exact ih _

theorem scan_mem : ∀ (l : List (Ext T)) (i : ℕ), ∀ x ∈ scan q p l i, q x.1 = true := by
  intro l
  induction l with
  | nil => intro i x hx; cases hx
  | cons e l ih =>
    intro i x hx
    rw [scan] at hx
    rcases List.mem_append.mp hx with hx | hx
    · obtain ⟨h1, rfl⟩ := head_mem hx
      exact h1
    · split at hx
      · cases hx
      · exact ih _ x hx

theorem scan_none : ∀ (l : List (Ext T)) (i : ℕ), (∀ e ∈ l, p e = false) → ∀ x ∈ scan q p l i, p x.1 = false := by
  intro l i h x hx
  have := (scan_sublist (q := q) (p := p) l i).subset hx
  exact h x.1 (List.fst_mem_of_mem_zipIdx this)

theorem scan_dropLast : ∀ (l : List (Ext T)) (i : ℕ), ∀ x ∈ (scan q p l i).dropLast, p x.1 = false := by
  intro l
  induction l with
  | nil => intro i x hx; cases hx
  | cons e l ih =>
    intro i x hx
    rw [scan] at hx
    cases hp : p e with
    | true =>
      rw [hp, if_pos rfl, List.append_nil] at hx
      cases hq : q e with
      | true => rw [hq, if_pos rfl] at hx; cases hx
      | false => rw [hq, if_neg (by decide)] at hx; cases hx
    | false =>
      simp only [hp, Bool.false_eq_true, if_false] at hx
      rcases mem_dropLast_append hx with hx | hx
      · obtain ⟨_, rfl⟩ := head_mem hx
        exact hp
      · exact ih _ x hx

theorem findIdx?_agree (hq : ∀ e, q e = false → p' e = p e) : ∀ (l : List (Ext T)) (i : ℕ),
    (∀ x ∈ scan q p l i, p' x.1 = p x.1) → l.findIdx? p' = l.findIdx? p := by
  intro l
  induction l with
  | nil => intro i _; rfl
  | cons e l ih =>
    intro i h
    rw [scan] at h
    obtain ⟨h1, h2⟩ := head_agree hq h
    rw [List.findIdx?_cons, List.findIdx?_cons, h1]
    cases hp : p e with
    | true => rfl
    | false =>
      rw [hp, if_neg (by decide)] at h2
      rw [if_neg (by decide), if_neg (by decide), ih _ h2]

/-! ## Enumerations -/

theorem visit_sublist {go : List T → Bool} : ∀ (l : List (Ext T)) (got : List T) (i : ℕ),
    (visit q p go got l i).Sublist (l.zipIdx i) := by
  intro l
  induction l with
  | nil => intro got i; exact List.Sublist.refl _
  | cons e l ih =>
    intro got i
    rw [visit, List.zipIdx_cons]
    refine head_sublist ?_
    split
    · split
      · exact ih _ _
      · exact List.nil_sublist _
    · exact ih _ _

theorem visit_mem {go : List T → Bool} : ∀ (l : List (Ext T)) (got : List T) (i : ℕ),
    ∀ x ∈ visit q p go got l i, q x.1 = true := by
  intro l
  induction l with
  | nil => intro got i x hx; cases hx
  | cons e l ih =>
    intro got i x hx
    rw [visit] at hx
    rcases List.mem_append.mp hx with hx | hx
    · obtain ⟨h1, rfl⟩ := head_mem hx
      exact h1
    · split at hx
      · split at hx
        · exact ih _ _ x hx
        · cases hx
      · exact ih _ _ x hx

end Verif.Ask

namespace Verif.DivList

open Verif.DivMask (Ext canDivide)

variable {T : Type} {c : Conf T}

theorem asks_mask {a b : Ext T} (h : asks c a b = true) (hu : c.useDivMask = true) : canDivide a.mask b.mask = true := by
  rw [asks, hu] at h
  exact h

theorem divides_of_asks {a b : Ext T} (h : asks c a b = true) : divides c a b = c.dm.divides a.t b.t := by
  rw [divides, DivMask.Ext.divides]
  cases hu : c.useDivMask with
  | false => rfl
  | true => rw [if_pos rfl, if_pos (asks_mask h hu)]

theorem divides_of_not {a b : Ext T} (h : asks c a b = false) : divides c a b = false := by
  rw [asks] at h
  simp only [Bool.or_eq_false_iff, Bool.not_eq_false'] at h
  rw [divides, DivMask.Ext.divides, h.1, if_pos rfl, h.2]
  rfl

theorem asks_with {d : T → T → Bool} (a b : Ext T) : asks (c.withDivides d) a b = asks c a b := rfl

theorem ext_with {d : T → T → Bool} (s : State T) (m : T) : ext (c.withDivides d) s m = ext c s m := rfl

theorem divides_with_not {d : T → T → Bool} {a b : Ext T} (h : asks c a b = false) :
    divides (c.withDivides d) a b = divides c a b := by
  rw [divides_of_not h, divides_of_not (c := c.withDivides d) h]

theorem divides_with_asks {d : T → T → Bool} {a b : Ext T} (h : asks c a b = true)
    (hd : d a.t b.t = c.dm.divides a.t b.t) : divides (c.withDivides d) a b = divides c a b := by
  rw [divides_of_asks h, divides_of_asks (c := c.withDivides d) h]
  exact hd

theorem findLoop_agree {d : T → T → Bool} {m : Ext T} : ∀ (l : List (Ext T)) (i : ℕ),
    (∀ x ∈ Ask.scan (fun e => asks c e m) (fun e => divides c e m) l i, divides (c.withDivides d) x.1 m = divides c x.1 m) →
    findLoop (c.withDivides d) m l = findLoop c m l := by
  intro l
  induction l with
  | nil => intro i _; rfl
  | cons e l ih =>
    intro i h
    rw [Ask.scan] at h
    obtain ⟨h1, h2⟩ := Ask.head_agree (p' := fun e => divides (c.withDivides d) e m) (p := fun e => divides c e m)
      (q := fun e => asks c e m) (fun e he => divides_with_not he) h
    rw [findLoop, findLoop, h1]
    cases hp : divides c e m with
    | true => rfl
    | false =>
      rw [if_neg (by simp [hp])] at h2
      rw [if_neg (by decide), if_neg (by decide), ih _ h2]

theorem findSortedListA_sublist {m : Ext T} : ∀ (l : List (Ext T)) (count i : ℕ),
    (findSortedListA c m count l i).Sublist (l.zipIdx i) := by
  intro l
  induction l with
  | nil => intro count i; exact List.Sublist.refl _
  | cons e l ih =>
    intro count i
    rw [findSortedListA, List.zipIdx_cons]
    split
    · split
      · exact List.nil_sublist _
      · refine Ask.head_sublist ?_
        split
        · exact List.nil_sublist _
        · exact ih _ _
    · refine Ask.head_sublist ?_
      split
      · exact List.nil_sublist _
      · exact ih _ _

theorem findSortedListA_mem {m : Ext T} : ∀ (l : List (Ext T)) (count i : ℕ),
    ∀ x ∈ findSortedListA c m count l i, asks c x.1 m = true := by
  intro l
  induction l with
  | nil => intro count i x hx; cases hx
  | cons e l ih =>
    intro count i x hx
    rw [findSortedListA] at hx
    split at hx
    · split at hx
      · cases hx
      · rcases List.mem_append.mp hx with hx | hx
        · obtain ⟨h1, rfl⟩ := Ask.head_mem hx
          exact h1
        · split at hx
          · cases hx
          · exact ih _ _ x hx
    · rcases List.mem_append.mp hx with hx | hx
      · obtain ⟨h1, rfl⟩ := Ask.head_mem hx
        exact h1
      · split at hx
        · cases hx
        · exact ih _ _ x hx

theorem head_dropLast {m e : Ext T} {i : ℕ} {a : List (Ext T × ℕ)} (ha : ∀ x ∈ a.dropLast, divides c x.1 m = false) :
    ∀ x ∈ ((if asks c e m then [(e, i)] else []) ++ if divides c e m then [] else a).dropLast,
      divides c x.1 m = false := by
  intro x hx
  cases hp : divides c e m with
  | true =>
    rw [hp, if_pos rfl, List.append_nil] at hx
    cases hq : asks c e m with
    | true => rw [hq, if_pos rfl] at hx; cases hx
    | false => rw [hq, if_neg (by decide)] at hx; cases hx
  | false =>
    simp only [hp, Bool.false_eq_true, if_false] at hx
    rcases Ask.mem_dropLast_append hx with hx | hx
    · obtain ⟨_, rfl⟩ := Ask.head_mem hx
      exact hp
    · exact ha x hx

theorem findSortedListA_dropLast {m : Ext T} : ∀ (l : List (Ext T)) (count i : ℕ),
    ∀ x ∈ (findSortedListA c m count l i).dropLast, divides c x.1 m = false := by
  intro l
  induction l with
  | nil => intro count i x hx; cases hx
  | cons e l ih =>
    intro count i
    rw [findSortedListA]
    split
    · split
      · intro x hx; cases hx
      · exact head_dropLast (ih _ _)
    · exact head_dropLast (ih _ _)

theorem findSortedList_agree {d : T → T → Bool} {m : Ext T} : ∀ (l : List (Ext T)) (count i : ℕ),
    (∀ x ∈ findSortedListA c m count l i, divides (c.withDivides d) x.1 m = divides c x.1 m) →
    findSortedList (c.withDivides d) m count l = findSortedList c m count l := by
  intro l
  induction l with
  | nil => intro count i _; rfl
  | cons e l ih =>
    intro count i h
    rw [findSortedListA] at h
    rw [findSortedList, findSortedList, show comparer (c.withDivides d) m e = comparer c m e from rfl]
    by_cases hc : count + 1 = 35
    · rw [if_pos hc] at h ⊢
      rw [if_pos hc]
      by_cases hm : comparer c m e = true
      · rw [if_pos hm, if_pos hm]
      · rw [if_neg hm] at h ⊢
        rw [if_neg hm]
        obtain ⟨h1, h2⟩ := Ask.head_agree (p' := fun e => divides (c.withDivides d) e m) (p := fun e => divides c e m)
          (q := fun e => asks c e m) (fun e he => divides_with_not he) h
        rw [h1]
        cases hp : divides c e m with
        | true => rfl
        | false =>
          rw [if_neg (by simp [hp])] at h2
          rw [if_neg (by decide), if_neg (by decide), ih _ _ h2]
    · rw [if_neg hc] at h ⊢
      rw [if_neg hc]
      obtain ⟨h1, h2⟩ := Ask.head_agree (p' := fun e => divides (c.withDivides d) e m) (p := fun e => divides c e m)
        (q := fun e => asks c e m) (fun e he => divides_with_not he) h
      rw [h1]
      cases hp : divides c e m with
      | true => rfl
      | false =>
        rw [if_neg (by simp [hp])] at h2
        rw [if_neg (by decide), if_neg (by decide), ih _ _ h2]

theorem zipIdx_take_sublist {α : Type} (l : List α) (k i : ℕ) : ((l.take k).zipIdx i).Sublist (l.zipIdx i) := by
  rw [← List.take_append_drop k l, List.zipIdx_append, List.take_append_drop]
  exact List.sublist_append_left _ _

/-- What `findDivisor` asks about is in the list, in order, and each element once. -/
theorem findDivisorA_sublist (s : State T) (m : T) : (findDivisorA c s m).Sublist s.list.zipIdx := by
  unfold findDivisorA
  simp only
  split
  · exact Ask.scan_sublist _ _
  · split
    · exact findSortedListA_sublist _ _ _
    · split
      · exact List.nil_sublist _
      · exact (Ask.scan_sublist _ _).trans (zipIdx_take_sublist _ _ _)

theorem findDivisorA_mem (s : State T) (m : T) : ∀ x ∈ findDivisorA c s m, asks c x.1 (ext c s m) = true := by
  unfold findDivisorA
  simp only
  split
  · exact Ask.scan_mem _ _
  · split
    · exact findSortedListA_mem _ _ _
    · split
      · intro x hx; cases hx
      · exact Ask.scan_mem _ _

theorem findDivisorA_dropLast (s : State T) (m : T) :
    ∀ x ∈ (findDivisorA c s m).dropLast, divides c x.1 (ext c s m) = false := by
  unfold findDivisorA
  simp only
  split
  · exact Ask.scan_dropLast _ _
  · split
    · exact findSortedListA_dropLast _ _ _
    · split
      · intro x hx; cases hx
      · exact Ask.scan_dropLast _ _

theorem iterator_agree {d : T → T → Bool} (s : State T) (m : T)
    (h : ∀ x ∈ findDivisorA c s m, divides (c.withDivides d) x.1 (ext c s m) = divides c x.1 (ext c s m)) :
    findDivisorIterator (c.withDivides d) s m = findDivisorIterator c s m := by
  unfold findDivisorA at h
  simp only at h
  unfold findDivisorIterator
  simp only [ext_with, show (c.withDivides d).sortOnInsert = c.sortOnInsert from rfl,
    show (c.withDivides d).useLinkedList = c.useLinkedList from rfl]
  by_cases h1 : (!c.sortOnInsert) = true
  · rw [if_pos h1] at h ⊢
    rw [if_pos h1, findLoop_agree _ _ h]
  · rw [if_neg h1] at h ⊢
    rw [if_neg h1]
    by_cases h2 : c.useLinkedList = true
    · rw [if_pos h2] at h ⊢
      rw [if_pos h2, findSortedList_agree _ _ _ h]
    · rw [if_neg h2] at h ⊢
      rw [if_neg h2]
      unfold findSortedVector
      rw [show upperBound (comparer (c.withDivides d)) s.list (ext c s m) = upperBound (comparer c) s.list (ext c s m)
        from rfl]
      cases hu : upperBound (comparer c) s.list (ext c s m) with
      | none => rfl
      | some k =>
        rw [hu] at h
        simp only
        rw [findLoop_agree _ _ h]

theorem visit_agree {q p p' : Ext T → Bool} {go : List T → Bool}
    (hq : ∀ e, q e = false → p' e = p e) : ∀ (l : List (Ext T)) (got : List T) (i : ℕ),
    (∀ x ∈ Ask.visit q p go got l i, p' x.1 = p x.1) → visit Ext.t p' go got l = visit Ext.t p go got l := by
  intro l
  induction l with
  | nil => intro got i _; rfl
  | cons e l ih =>
    intro got i h
    rw [Ask.visit] at h
    obtain ⟨h1, h2⟩ := Ask.head_agree hq h
    rw [visit, visit, h1]
    cases hp : p e with
    | true =>
      rw [hp, if_pos rfl] at h2
      rw [if_pos rfl, if_pos rfl]
      by_cases hg : go (got ++ [e.t]) = true
      · rw [if_pos hg] at h2 ⊢
        rw [if_pos hg, ih _ _ h2]
      · rw [if_neg hg, if_neg hg]
    | false =>
      rw [hp, if_neg (by decide)] at h2
      rw [if_neg (by decide), if_neg (by decide), ih _ _ h2]

theorem visitSortedListA_sublist {m : Ext T} {go : List T → Bool} : ∀ (l : List (Ext T)) (count : ℕ) (got : List T)
    (i : ℕ), (visitSortedListA c m go count got l i).Sublist (l.zipIdx i) := by
  intro l
  induction l with
  | nil => intro count got i; exact List.Sublist.refl _
  | cons e l ih =>
    intro count got i
    rw [visitSortedListA, List.zipIdx_cons]
    split
    · exact List.nil_sublist _
    · refine Ask.head_sublist ?_
      split
      · split
        · exact ih _ _ _
        · exact List.nil_sublist _
      · exact ih _ _ _

theorem visitSortedListA_mem {m : Ext T} {go : List T → Bool} : ∀ (l : List (Ext T)) (count : ℕ) (got : List T)
    (i : ℕ), ∀ x ∈ visitSortedListA c m go count got l i, asks c x.1 m = true := by
  intro l
  induction l with
  | nil => intro count got i x hx; cases hx
  | cons e l ih =>
    intro count got i x hx
    rw [visitSortedListA] at hx
    split at hx
    · cases hx
    · rcases List.mem_append.mp hx with hx | hx
      · obtain ⟨h1, rfl⟩ := Ask.head_mem hx
        exact h1
      · split at hx
        · split at hx
          · exact ih _ _ _ x hx
          · cases hx
        · exact ih _ _ _ x hx

theorem visitSortedList_agree {d : T → T → Bool} {m : Ext T} {go : List T → Bool} : ∀ (l : List (Ext T)) (count : ℕ)
    (got : List T) (i : ℕ),
    (∀ x ∈ visitSortedListA c m go count got l i, divides (c.withDivides d) x.1 m = divides c x.1 m) →
    visitSortedList (c.withDivides d) m go count got l = visitSortedList c m go count got l := by
  intro l
  induction l with
  | nil => intro count got i _; rfl
  | cons e l ih =>
    intro count got i h
    rw [visitSortedListA] at h
    rw [visitSortedList, visitSortedList, show comparer (c.withDivides d) m e = comparer c m e from rfl]
    by_cases hc : (decide (count + 1 = 35) && comparer c m e) = true
    · rw [if_pos hc, if_pos hc]
    · rw [if_neg hc] at h ⊢
      rw [if_neg hc]
      simp only at h ⊢
      obtain ⟨h1, h2⟩ := Ask.head_agree (p' := fun e => divides (c.withDivides d) e m) (p := fun e => divides c e m)
        (q := fun e => asks c e m) (fun e he => divides_with_not he) h
      rw [h1]
      cases hp : divides c e m with
      | true =>
        rw [if_pos hp] at h2
        rw [if_pos rfl, if_pos rfl]
        by_cases hg : go (got ++ [e.t]) = true
        · rw [if_pos hg] at h2 ⊢
          rw [if_pos hg, ih _ _ _ h2]
        · rw [if_neg hg, if_neg hg]
      | false =>
        rw [if_neg (by simp [hp])] at h2
        simp only [Bool.false_eq_true, if_false]
        exact ih _ _ _ h2

theorem findAllDivisorsA_sublist (s : State T) (m : T) (go : List T → Bool) :
    (findAllDivisorsA c s m go).Sublist s.list.zipIdx := by
  unfold findAllDivisorsA
  simp only
  split
  · exact Ask.visit_sublist _ _ _
  · split
    · exact visitSortedListA_sublist _ _ _ _
    · split
      · exact List.nil_sublist _
      · exact (Ask.visit_sublist _ _ _).trans (zipIdx_take_sublist _ _ _)

theorem findAllDivisorsA_mem (s : State T) (m : T) (go : List T → Bool) :
    ∀ x ∈ findAllDivisorsA c s m go, asks c x.1 (ext c s m) = true := by
  unfold findAllDivisorsA
  simp only
  split
  · exact Ask.visit_mem _ _ _
  · split
    · exact visitSortedListA_mem _ _ _ _
    · split
      · intro x hx; cases hx
      · exact Ask.visit_mem _ _ _

theorem findAllDivisors_agree {d : T → T → Bool} (s : State T) (m : T) (go : List T → Bool)
    (h : ∀ x ∈ findAllDivisorsA c s m go, divides (c.withDivides d) x.1 (ext c s m) = divides c x.1 (ext c s m)) :
    findAllDivisors (c.withDivides d) s m go = findAllDivisors c s m go := by
  unfold findAllDivisorsA at h
  simp only at h
  unfold findAllDivisors
  simp only [ext_with, show (c.withDivides d).sortOnInsert = c.sortOnInsert from rfl,
    show (c.withDivides d).useLinkedList = c.useLinkedList from rfl]
  have hq : ∀ e, (fun e => asks c e (ext c s m)) e = false →
      (fun e => divides (c.withDivides d) e (ext c s m)) e = (fun e => divides c e (ext c s m)) e :=
    fun e he => divides_with_not he
  by_cases h1 : (!c.sortOnInsert) = true
  · rw [if_pos h1] at h ⊢
    rw [if_pos h1, visit_agree hq _ _ _ h]
  · rw [if_neg h1] at h ⊢
    rw [if_neg h1]
    by_cases h2 : c.useLinkedList = true
    · rw [if_pos h2] at h ⊢
      rw [if_pos h2, visitSortedList_agree _ _ _ _ h]
    · rw [if_neg h2] at h ⊢
      rw [if_neg h2]
      rw [show upperBound (comparer (c.withDivides d)) s.list (ext c s m) = upperBound (comparer c) s.list (ext c s m)
        from rfl]
      cases hu : upperBound (comparer c) s.list (ext c s m) with
      | none => rfl
      | some k =>
        rw [hu] at h
        simp only
        rw [visit_agree hq _ _ _ h]

theorem findAllMultiples_agree {d : T → T → Bool} (s : State T) (m : T) (go : List T → Bool)
    (h : ∀ x ∈ findAllMultiplesA c s m go, divides (c.withDivides d) (ext c s m) x.1 = divides c (ext c s m) x.1) :
    findAllMultiples (c.withDivides d) s m go = findAllMultiples c s m go := by
  have hq : ∀ e, (fun e => asks c (ext c s m) e) e = false →
      (fun e => divides (c.withDivides d) (ext c s m) e) e = (fun e => divides c (ext c s m) e) e :=
    fun e he => divides_with_not he
  exact visit_agree hq _ _ _ h

end Verif.DivList
