import Verif.KDAskProofs

/-!
# Lemmas on questions that matter

If a single entry divides, and the query asks about it, then the query comes to it.
-/

namespace Verif.Ask

open Verif.DivMask (Ext)

variable {T : Type} {p : Ext T → Bool} {t : T}

theorem find_hit {l : List (Ext T)} {x : Ext T} (hx : x ∈ l) (hp : p x = true) (ht : ∀ e, p e = true → e.t = t) :
    ∃ j e, l.findIdx? p = some j ∧ l[j]? = some e ∧ e.t = t := by
  cases h : l.findIdx? p with
  | none =>
    rw [List.findIdx?_eq_none_iff] at h
    rw [h x hx] at hp
    cases hp
  | some j =>
    rw [List.findIdx?_eq_some_iff_getElem] at h
    obtain ⟨hj, h1, _⟩ := h
    exact ⟨j, l[j], rfl, List.getElem?_eq_getElem hj, ht _ h1⟩

end Verif.Ask

namespace Verif.DivList

open Verif.DivMask (Ext)

variable {T : Type} {c : Conf T} {t : T}

theorem hit_t {d : T → T → Bool} {m : Ext T} (hd : ∀ e, d e m.t = true ↔ e = t) {e : Ext T}
    (h : divides (c.withDivides d) e m = true) : e.t = t := by
  cases ha : asks (c.withDivides d) e m with
  | false => rw [divides_of_not ha] at h; cases h
  | true => rw [divides_of_asks ha] at h; exact (hd _).mp h

theorem hit_of {d : T → T → Bool} {m : Ext T} (hd : ∀ e, d e m.t = true ↔ e = t) {e : Ext T}
    (ha : asks c e m = true) (ht : e.t = t) : divides (c.withDivides d) e m = true := by
  rw [divides_of_asks (c := c.withDivides d) ha]
  exact (hd _).mpr ht

theorem hit_t' {d : T → T → Bool} {m : Ext T} (hd : ∀ e, d m.t e = true ↔ e = t) {e : Ext T}
    (h : divides (c.withDivides d) m e = true) : e.t = t := by
  cases ha : asks (c.withDivides d) m e with
  | false => rw [divides_of_not ha] at h; cases h
  | true => rw [divides_of_asks ha] at h; exact (hd _).mp h

theorem hit_of' {d : T → T → Bool} {m : Ext T} (hd : ∀ e, d m.t e = true ↔ e = t) {e : Ext T}
    (ha : asks c m e = true) (ht : e.t = t) : divides (c.withDivides d) m e = true := by
  rw [divides_of_asks (c := c.withDivides d) ha]
  exact (hd _).mpr ht

theorem findLoop_hit {m x : Ext T} : ∀ {l : List (Ext T)}, x ∈ l → divides c x m = true →
    ∃ e, l[findLoop c m l]? = some e ∧ divides c e m = true := by
  intro l
  induction l with
  | nil => intro h; cases h
  | cons e l ih =>
    intro hx hp
    rw [findLoop]
    cases he : divides c e m with
    | true => exact ⟨e, rfl, he⟩
    | false =>
      rcases List.mem_cons.mp hx with rfl | hx
      · rw [hp] at he; cases he
      · obtain ⟨y, h1, h2⟩ := ih hx hp
        exact ⟨y, by simpa using h1, h2⟩

theorem lt_of_getElem? {α : Type} {l : List α} {i : ℕ} {x : α} (h : l[i]? = some x) : i < l.length :=
  (List.getElem?_eq_some_iff.mp h).1

theorem findSortedList_hit {d : T → T → Bool} {m x : Ext T} (hd : ∀ e, d e m.t = true ↔ e = x.t) {j : ℕ} :
    ∀ (l : List (Ext T)) (count i : ℕ), (x, j) ∈ findSortedListA c m count l i →
    ∃ k e, findSortedList (c.withDivides d) m count l = some k ∧ l[k]? = some e ∧ e.t = x.t := by
  intro l
  induction l with
  | nil => intro count i h; cases h
  | cons e l ih =>
    intro count i h
    have hstep : ∀ cnt, (x, j) ∈ (if asks c e m then [(e, i)] else []) ++
          (if divides c e m then [] else findSortedListA c m cnt l (i + 1)) →
        ∃ k y, (if divides (c.withDivides d) e m then some 0
          else (findSortedList (c.withDivides d) m cnt l).map (· + 1)) = some k ∧ (e :: l)[k]? = some y ∧ y.t = x.t := by
      intro cnt h
      cases he : divides (c.withDivides d) e m with
      | true => exact ⟨0, e, rfl, rfl, hit_t hd he⟩
      | false =>
        rcases List.mem_append.mp h with h | h
        · obtain ⟨h1, h2⟩ := Ask.head_mem h
          cases h2
          rw [hit_of hd h1 rfl] at he
          cases he
        · split at h
          · cases h
          · obtain ⟨k, y, g1, g2, g3⟩ := ih _ _ h
            exact ⟨k + 1, y, by simp [g1], by simpa using g2, g3⟩
    rw [findSortedListA] at h
    rw [findSortedList, show comparer (c.withDivides d) m e = comparer c m e from rfl]
    by_cases hc : count + 1 = 35
    · rw [if_pos hc] at h ⊢
      by_cases hm : comparer c m e = true
      · rw [if_pos hm] at h; cases h
      · rw [if_neg hm] at h ⊢
        exact hstep _ h
    · rw [if_neg hc] at h ⊢
      exact hstep _ h

/-- If nothing but an entry asked about divides, then it is found. -/
theorem findDivisor_hit {s : State T} {m : T} {x : Ext T × ℕ} (hx : x ∈ findDivisorA c s m) {d : T → T → Bool}
    (hd : ∀ e, d e m = true ↔ e = x.1.t) : findDivisor (c.withDivides d) s m = some (some x.1.t) := by
  have key : ∃ k e, findDivisorIterator (c.withDivides d) s m = some k ∧ s.list[k]? = some e ∧ e.t = x.1.t := by
    have hask := findDivisorA_mem s m x hx
    have hdv : divides (c.withDivides d) x.1 (ext c s m) = true := hit_of (m := ext c s m) hd hask rfl
    unfold findDivisorA at hx
    simp only at hx
    unfold findDivisorIterator
    simp only [ext_with, show (c.withDivides d).sortOnInsert = c.sortOnInsert from rfl,
      show (c.withDivides d).useLinkedList = c.useLinkedList from rfl]
    by_cases h1 : (!c.sortOnInsert) = true
    · rw [if_pos h1] at hx ⊢
      obtain ⟨e, e1, e2⟩ := findLoop_hit (List.fst_mem_of_mem_zipIdx ((Ask.scan_sublist _ _).subset hx)) hdv
      exact ⟨_, e, rfl, e1, hit_t (m := ext c s m) hd e2⟩
    · rw [if_neg h1] at hx ⊢
      by_cases h2 : c.useLinkedList = true
      · rw [if_pos h2] at hx ⊢
        obtain ⟨k, e, e1, e2, e3⟩ := findSortedList_hit (m := ext c s m) (x := x.1) (j := x.2) hd _ _ _ hx
        exact ⟨k, e, by rw [e1]; rfl, e2, e3⟩
      · rw [if_neg h2] at hx ⊢
        unfold findSortedVector
        rw [show upperBound (comparer (c.withDivides d)) s.list (ext c s m) = upperBound (comparer c) s.list (ext c s m)
          from rfl]
        cases hu : upperBound (comparer c) s.list (ext c s m) with
        | none => rw [hu] at hx; cases hx
        | some k =>
          rw [hu] at hx
          obtain ⟨e, e1, e2⟩ := findLoop_hit (List.fst_mem_of_mem_zipIdx ((Ask.scan_sublist _ _).subset hx)) hdv
          simp only
          rw [if_pos (lt_of_getElem? e1)]
          refine ⟨_, e, rfl, ?_, hit_t (m := ext c s m) hd e2⟩
          have hlt := lt_of_getElem? e1
          rw [List.length_take] at hlt
          rwa [List.getElem?_take_of_lt (by omega)] at e1
  obtain ⟨k, e, e1, e2, e3⟩ := key
  unfold findDivisor
  rw [e1]
  simp only
  rw [if_neg (Nat.ne_of_lt (lt_of_getElem? e2)), e2]
  simp [e3]

theorem visit_prefix {p : Ext T → Bool} {go : List T → Bool} : ∀ (l : List (Ext T)) (got : List T),
    got <+: visit Ext.t p go got l := by
  intro l
  induction l with
  | nil => intro got; exact List.prefix_refl _
  | cons e l ih =>
    intro got
    rw [visit]
    split
    · split
      · exact (List.prefix_append _ _).trans (ih _)
      · exact List.prefix_append _ _
    · exact ih _

theorem head_of_prefix {t : T} {l : List T} (h : [t] <+: l) : l.head? = some t := by
  obtain ⟨r, rfl⟩ := h
  rfl

theorem visit_hit {p : Ext T → Bool} {go : List T → Bool} (ht : ∀ e, p e = true → e.t = t) {x : Ext T} :
    ∀ {l : List (Ext T)}, x ∈ l → p x = true → (visit Ext.t p go [] l).head? = some t := by
  intro l
  induction l with
  | nil => intro h; cases h
  | cons e l ih =>
    intro hx hp
    rw [visit]
    cases he : p e with
    | true =>
      rw [if_pos rfl, List.nil_append, ht e he]
      split
      · exact head_of_prefix (visit_prefix _ _)
      · rfl
    | false =>
      rcases List.mem_cons.mp hx with rfl | hx
      · rw [hp] at he; cases he
      · simp only [Bool.false_eq_true, if_false]
        exact ih hx hp

theorem visitSortedList_prefix {m : Ext T} {go : List T → Bool} : ∀ (l : List (Ext T)) (count : ℕ) (got : List T),
    got <+: visitSortedList c m go count got l := by
  intro l
  induction l with
  | nil => intro count got; exact List.prefix_refl _
  | cons e l ih =>
    intro count got
    rw [visitSortedList]
    split
    · exact List.prefix_refl _
    · simp only
      split
      · split
        · exact (List.prefix_append _ _).trans (ih _ _)
        · exact List.prefix_append _ _
      · exact ih _ _

theorem visitSortedList_hit {d : T → T → Bool} {m x : Ext T} (hd : ∀ e, d e m.t = true ↔ e = x.t) {j : ℕ}
    {go : List T → Bool} : ∀ (l : List (Ext T)) (count : ℕ) (got : List T) (i : ℕ),
    (x, j) ∈ visitSortedListA c m go count got l i →
    (visitSortedList (c.withDivides d) m go count [] l).head? = some x.t := by
  intro l
  induction l with
  | nil => intro count got i h; cases h
  | cons e l ih =>
    intro count got i h
    rw [visitSortedListA] at h
    rw [visitSortedList, show comparer (c.withDivides d) m e = comparer c m e from rfl]
    by_cases hc : (decide (count + 1 = 35) && comparer c m e) = true
    · rw [if_pos hc] at h; cases h
    · rw [if_neg hc] at h ⊢
      simp only at h ⊢
      cases he : divides (c.withDivides d) e m with
      | true =>
        rw [if_pos rfl, List.nil_append, hit_t hd he]
        split
        · exact head_of_prefix (visitSortedList_prefix _ _ _)
        · rfl
      | false =>
        simp only [Bool.false_eq_true, if_false]
        rcases List.mem_append.mp h with h | h
        · obtain ⟨h1, h2⟩ := Ask.head_mem h
          cases h2
          rw [hit_of hd h1 rfl] at he
          cases he
        · split at h
          · split at h
            · exact ih _ _ _ h
            · cases h
          · exact ih _ _ _ h

/-- If nothing but an entry asked about divides, then it is the first that the output receives. -/
theorem findAllDivisors_hit {s : State T} {m : T} {go : List T → Bool} {x : Ext T × ℕ}
    (hx : x ∈ findAllDivisorsA c s m go) {d : T → T → Bool} (hd : ∀ e, d e m = true ↔ e = x.1.t) :
    ∃ l, findAllDivisors (c.withDivides d) s m go = some (x.1.t :: l) := by
  have hask := findAllDivisorsA_mem s m go x hx
  have hdv : divides (c.withDivides d) x.1 (ext c s m) = true := hit_of (m := ext c s m) hd hask rfl
  have key : ∃ r, findAllDivisors (c.withDivides d) s m go = some r ∧ r.head? = some x.1.t := by
    unfold findAllDivisorsA at hx
    simp only at hx
    unfold findAllDivisors
    simp only [ext_with, show (c.withDivides d).sortOnInsert = c.sortOnInsert from rfl,
      show (c.withDivides d).useLinkedList = c.useLinkedList from rfl]
    by_cases h1 : (!c.sortOnInsert) = true
    · rw [if_pos h1] at hx ⊢
      exact ⟨_, rfl, visit_hit (fun e he => hit_t (m := ext c s m) hd he)
        (List.fst_mem_of_mem_zipIdx ((Ask.visit_sublist _ _ _).subset hx)) hdv⟩
    · rw [if_neg h1] at hx ⊢
      by_cases h2 : c.useLinkedList = true
      · rw [if_pos h2] at hx ⊢
        exact ⟨_, rfl, visitSortedList_hit (m := ext c s m) (x := x.1) (j := x.2) hd _ _ _ _ hx⟩
      · rw [if_neg h2] at hx ⊢
        rw [show upperBound (comparer (c.withDivides d)) s.list (ext c s m) = upperBound (comparer c) s.list (ext c s m)
          from rfl]
        cases hu : upperBound (comparer c) s.list (ext c s m) with
        | none => rw [hu] at hx; cases hx
        | some k =>
          rw [hu] at hx
          exact ⟨_, rfl, visit_hit (fun e he => hit_t (m := ext c s m) hd he)
            (List.fst_mem_of_mem_zipIdx ((Ask.visit_sublist _ _ _).subset hx)) hdv⟩
  obtain ⟨r, h1, h2⟩ := key
  cases r with
  | nil => cases h2
  | cons y l => cases h2; exact ⟨l, h1⟩

/-- The same for multiples. -/
theorem findAllMultiples_hit {s : State T} {m : T} {go : List T → Bool} {x : Ext T × ℕ}
    (hx : x ∈ findAllMultiplesA c s m go) {d : T → T → Bool} (hd : ∀ e, d m e = true ↔ e = x.1.t) :
    ∃ l, findAllMultiples (c.withDivides d) s m go = x.1.t :: l := by
  have hask : asks c (ext c s m) x.1 = true := Ask.visit_mem _ _ _ x hx
  have h2 : (findAllMultiples (c.withDivides d) s m go).head? = some x.1.t :=
    visit_hit (fun e he => hit_t' (m := ext c s m) hd he)
      (List.fst_mem_of_mem_zipIdx ((Ask.visit_sublist _ _ _).subset hx)) (hit_of' (m := ext c s m) hd hask rfl)
  cases hr : findAllMultiples (c.withDivides d) s m go with
  | nil => rw [hr] at h2; cases h2
  | cons y l => rw [hr] at h2; cases h2; exact ⟨l, rfl⟩

end Verif.DivList

namespace Verif.Ask

open Verif.DivMask (Ext)

variable {T X : Type} {φ : T → Bool} {go : List T → Bool}

/-! ## Enumerations stop when they are told to -/

theorem hits_append (l₁ l₂ : List (Ext T × X)) : hits φ (l₁ ++ l₂) = hits φ l₁ ++ hits φ l₂ := by
  simp [hits]

theorem hits_one (x : Ext T × X) : hits φ [x] = if φ x.1.t then [x.1.t] else [] := by
  cases h : φ x.1.t <;> simp [hits, h]

theorem heeds_nil (got : List T) : Heeds φ go got ([] : List (Ext T × X)) := by
  intro l₁ x l₂ h
  simp at h

theorem heeds_one (got : List T) (x : Ext T × X) : Heeds φ go got [x] := by
  intro l₁ y l₂ h hne
  cases l₁ with
  | nil => cases h; exact absurd rfl hne
  | cons z l => simp at h

/-- One more question at the front. -/
theorem heeds_cons {got : List T} {x : Ext T × X} {l : List (Ext T × X)}
    (h1 : l ≠ [] → φ x.1.t = true → go (got ++ [x.1.t]) = true) (h2 : Heeds φ go (got ++ hits φ [x]) l) :
    Heeds φ go got (x :: l) := by
  intro l₁ y l₂ h hne hy
  cases l₁ with
  | nil =>
    cases h
    rw [List.nil_append, hits_one, if_pos hy]
    exact h1 hne hy
  | cons z l₁ =>
    cases h
    have := h2 l₁ y l₂ rfl hne hy
    rwa [List.append_assoc, ← hits_append] at this

/-- All outputs said that they wanted more. -/
def AllGo (φ : T → Bool) (go : List T → Bool) (got : List T) (l : List (Ext T × X)) : Prop :=
  ∀ l₁ x l₂, l = l₁ ++ x :: l₂ → φ x.1.t = true → go (got ++ hits φ (l₁ ++ [x])) = true

theorem heeds_append {got : List T} : ∀ {a b : List (Ext T × X)}, AllGo φ go got a →
    Heeds φ go (got ++ hits φ a) b → Heeds φ go got (a ++ b) := by
  intro a b ha hb l₁ x l₂ h hne hx
  rw [List.append_eq_append_iff] at h
  rcases h with ⟨r, h1, h2⟩ | ⟨r, h1, h2⟩
  · rw [h1, List.append_assoc, hits_append, ← List.append_assoc]
    exact hb r x l₂ h2 hne hx
  · cases r with
    | nil =>
      rw [List.append_nil] at h1
      rw [← h1, hits_append, ← List.append_assoc]
      have := hb [] x l₂ h2.symm hne hx
      rwa [List.nil_append] at this
    | cons y r =>
      cases h2
      exact ha l₁ x r h1 hx

theorem visit_heeds {q p : Ext T → Bool} (hp : ∀ e, q e = true → p e = φ e.t) (hq : ∀ e, q e = false → p e = false) :
    ∀ (l : List (Ext T)) (got : List T) (i : ℕ), Heeds φ go got (visit q p go got l i) := by
  intro l
  induction l with
  | nil => intro got i; exact heeds_nil _
  | cons e l ih =>
    intro got i
    rw [visit]
    cases hqe : q e with
    | false =>
      simp only [hq e hqe, Bool.false_eq_true, if_false, List.nil_append]
      exact ih _ _
    | true =>
      rw [if_pos rfl, List.singleton_append]
      cases hpe : p e with
      | false =>
        simp only [Bool.false_eq_true, if_false]
        have hφ : φ e.t = false := by rw [← hp e hqe, hpe]
        refine heeds_cons (fun _ h => by rw [hφ] at h; cases h) ?_
        rw [hits_one]
        simp only [hφ, Bool.false_eq_true, if_false, List.append_nil]
        exact ih _ _
      | true =>
        simp only [if_true]
        have hφ : φ e.t = true := by rw [← hp e hqe, hpe]
        by_cases hg : go (got ++ [e.t]) = true
        · rw [if_pos hg]
          refine heeds_cons (fun _ _ => hg) ?_
          rw [hits_one, if_pos hφ]
          exact ih _ _
        · rw [if_neg hg]
          exact heeds_one _ _

theorem divList_visit_hits {q p : Ext T → Bool} (hp : ∀ e, q e = true → p e = φ e.t)
    (hq : ∀ e, q e = false → p e = false) : ∀ (l : List (Ext T)) (got : List T) (i : ℕ),
    DivList.visit Ext.t p go got l = got ++ hits φ (visit q p go got l i) := by
  intro l
  induction l with
  | nil => intro got i; simp [DivList.visit, visit, hits]
  | cons e l ih =>
    intro got i
    rw [visit, DivList.visit, hits_append]
    cases hqe : q e with
    | false =>
      simp only [hq e hqe, Bool.false_eq_true, if_false]
      rw [ih got (i + 1)]
      rfl
    | true =>
      rw [if_pos rfl, hits_one]
      cases hpe : p e with
      | false =>
        have hφ : φ e.t = false := by rw [← hp e hqe, hpe]
        simp only [hφ, Bool.false_eq_true, if_false, List.nil_append]
        exact ih _ _
      | true =>
        have hφ : φ e.t = true := by rw [← hp e hqe, hpe]
        simp only [hφ, if_true]
        split
        · rw [ih (got ++ [e.t]) (i + 1), List.append_assoc]
        · rw [← List.append_assoc]; simp [hits]

theorem sortedList_hits {c : DivList.Conf T} {m : Ext T} (hm : φ = fun e => c.dm.divides e m.t) : ∀ (l : List (Ext T))
    (count : ℕ) (got : List T) (i : ℕ), Heeds φ go got (DivList.visitSortedListA c m go count got l i) ∧
    DivList.visitSortedList c m go count got l = got ++ hits φ (DivList.visitSortedListA c m go count got l i) := by
  intro l
  induction l with
  | nil => intro count got i; exact ⟨heeds_nil _, by simp [DivList.visitSortedList, DivList.visitSortedListA, hits]⟩
  | cons e l ih =>
    intro count got i
    rw [DivList.visitSortedListA, DivList.visitSortedList]
    split
    · exact ⟨heeds_nil _, by simp [hits]⟩
    · simp only
      cases hqe : DivList.asks c e m with
      | false =>
        simp only [DivList.divides_of_not hqe, Bool.false_eq_true, if_false, List.nil_append]
        exact ih _ _ _
      | true =>
        have hp : DivList.divides c e m = φ e.t := by rw [DivList.divides_of_asks hqe, hm]
        rw [if_pos rfl, List.singleton_append, hp]
        cases hφ : φ e.t with
        | false =>
          simp only [Bool.false_eq_true, if_false]
          obtain ⟨g1, g2⟩ := ih (if count + 1 = 35 then 0 else count + 1) got (i + 1)
          refine ⟨heeds_cons (fun _ h => by rw [hφ] at h; cases h) ?_, ?_⟩
          · rw [hits_one]
            simp only [hφ, Bool.false_eq_true, if_false, List.append_nil]
            exact g1
          · rw [g2, ← List.singleton_append, hits_append, hits_one]
            simp [hφ]
        | true =>
          simp only [if_true]
          by_cases hg : go (got ++ [e.t]) = true
          · rw [if_pos hg, if_pos hg]
            obtain ⟨g1, g2⟩ := ih (if count + 1 = 35 then 0 else count + 1) (got ++ [e.t]) (i + 1)
            refine ⟨heeds_cons (fun _ _ => hg) ?_, ?_⟩
            · rw [hits_one, if_pos hφ]
              exact g1
            · rw [g2, ← List.singleton_append (l := DivList.visitSortedListA _ _ _ _ _ _ _), hits_append, hits_one,
                if_pos hφ, List.append_assoc]
          · rw [if_neg hg, if_neg hg]
            refine ⟨heeds_one _ _, ?_⟩
            rw [hits_one, if_pos hφ]

end Verif.Ask
