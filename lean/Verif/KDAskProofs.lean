import Verif.DivAskProofs
import Mathlib.Data.List.Nodup

/-!
# Lemmas on what queries of KD trees ask
-/

namespace Verif.KDTree

open Verif.DivMask (Ext Bits canDivide)

variable {T : Type} {c : Conf T} {bits : Bits}

theorem asks_mask {a b : Ext T} (h : asks c a b = true) (hu : c.useDivMask = true) : canDivide a.mask b.mask = true := by
  rw [asks, hu] at h
  exact h

theorem divides_of_asks {a b : Ext T} (h : asks c a b = true) : divides c a b = c.dm.divides a.t b.t := by
  rw [divides, DivMask.Ext.divides]
  cases hu : c.useDivMask with
  | false => rfl
  | true => rw [if_pos rfl, if_pos (asks_mask h hu)]

theorem divides_of_not {a b : Ext T} (h : asks c a b = false) : divides c a b = false := by
  rw [asks] at h
  simp only [Bool.or_eq_false_iff, Bool.not_eq_false'] at h
  rw [divides, DivMask.Ext.divides, h.1, if_pos rfl, h.2]
  rfl

theorem divides_with_not {d : T → T → Bool} {a b : Ext T} (h : asks c a b = false) :
    divides (c.withDivides d) a b = divides c a b := by
  rw [divides_of_not h, divides_of_not (c := c.withDivides d) h]

theorem divides_with_asks {d : T → T → Bool} {a b : Ext T} (h : asks c a b = true)
    (hd : d a.t b.t = c.dm.divides a.t b.t) : divides (c.withDivides d) a b = divides c a b := by
  rw [divides_of_asks h, divides_of_asks (c := c.withDivides d) h]
  exact hd

/-! ## Arrays -/

theorem one_sublist {e : Ext T} {l : List (Ext T)} {b : Bool} :
    (if b then [(e, 0)] else []).Sublist ((e :: l).zipIdx) := by
  rw [List.zipIdx_cons]
  cases b with
  | true => exact (List.nil_sublist _).cons_cons _
  | false => exact List.nil_sublist _

theorem arr_findDivisorA_sublist (m : Ext T) (a : Arr T) : (a.findDivisorA c m).Sublist a.es.zipIdx := by
  unfold Arr.findDivisorA
  split
  · exact List.nil_sublist _
  · split
    · cases a.es with
      | nil => exact List.nil_sublist _
      | cons e l => exact one_sublist
    · split
      · exact Ask.scan_sublist _ _
      · split
        · exact List.nil_sublist _
        · exact (Ask.scan_sublist _ _).trans (DivList.zipIdx_take_sublist _ _ _)

theorem arr_findDivisorA_mem (m : Ext T) (a : Arr T) : ∀ x ∈ a.findDivisorA c m, asks c x.1 m = true := by
  unfold Arr.findDivisorA
  split
  · intro x hx; cases hx
  · split
    · cases a.es with
      | nil => intro x hx; cases hx
      | cons e l =>
        intro x hx
        obtain ⟨h1, rfl⟩ := Ask.head_mem hx
        exact h1
    · split
      · exact Ask.scan_mem _ _
      · split
        · intro x hx; cases hx
        · exact Ask.scan_mem _ _

theorem arr_findDivisorA_dropLast (m : Ext T) (a : Arr T) :
    ∀ x ∈ (a.findDivisorA c m).dropLast, divides c x.1 m = false := by
  unfold Arr.findDivisorA
  split
  · intro x hx; cases hx
  · split
    · cases a.es with
      | nil => intro x hx; cases hx
      | cons e l =>
        intro x hx
        simp only at hx
        split at hx <;> cases hx
    · split
      · exact Ask.scan_dropLast _ _
      · split
        · intro x hx; cases hx
        · exact Ask.scan_dropLast _ _

theorem arr_findDivisorA_none (m : Ext T) (a : Arr T) (h : a.findDivisor c m = some none) :
    ∀ x ∈ a.findDivisorA c m, divides c x.1 m = false := by
  unfold Arr.findDivisor at h
  unfold Arr.findDivisorA
  by_cases h1 : a.maskRejects c m = true
  · rw [if_pos h1]
    intro x hx; cases hx
  · rw [if_neg h1] at h ⊢
    by_cases h2 : c.leafSize = 1
    · rw [if_pos h2] at h ⊢
      cases hes : a.es with
      | nil => intro x hx; cases hx
      | cons e l =>
        intro x hx
        obtain ⟨_, rfl⟩ := Ask.head_mem hx
        rw [hes] at h
        simp only [List.isEmpty_cons, Bool.and_false, Bool.false_eq_true, if_false, Option.some.injEq,
          ite_eq_right_iff, reduceCtorEq, imp_false, Bool.not_eq_true] at h
        exact h
    · rw [if_neg h2] at h ⊢
      by_cases h3 : (!c.sortOnInsert) = true
      · rw [if_pos h3] at h ⊢
        simp only [Option.some.injEq, List.findIdx?_eq_none_iff] at h
        exact Ask.scan_none _ _ h
      · rw [if_neg h3] at h ⊢
        cases hu : DivList.upperBound (comparer c) a.es m with
        | none => intro x hx; cases hx
        | some k =>
          rw [hu] at h
          simp only [Option.some.injEq, List.findIdx?_eq_none_iff] at h
          exact Ask.scan_none _ _ h

theorem arr_findDivisor_agree {d : T → T → Bool} {m : Ext T} {a : Arr T}
    (h : ∀ x ∈ a.findDivisorA c m, divides (c.withDivides d) x.1 m = divides c x.1 m) :
    a.findDivisor (c.withDivides d) m = a.findDivisor c m := by
  have hq : ∀ e, (fun e => asks c e m) e = false →
      (fun e => divides (c.withDivides d) e m) e = (fun e => divides c e m) e := fun e he => divides_with_not he
  unfold Arr.findDivisorA at h
  unfold Arr.findDivisor
  simp only [show a.maskRejects (c.withDivides d) m = a.maskRejects c m from rfl,
    show (c.withDivides d).leafSize = c.leafSize from rfl,
    show (c.withDivides d).allowRemovals = c.allowRemovals from rfl,
    show (c.withDivides d).sortOnInsert = c.sortOnInsert from rfl,
    show comparer (c.withDivides d) = comparer c from rfl]
  by_cases h1 : a.maskRejects c m = true
  · rw [if_pos h1, if_pos h1]
  · rw [if_neg h1] at h ⊢
    rw [if_neg h1]
    by_cases h2 : c.leafSize = 1
    · rw [if_pos h2] at h ⊢
      rw [if_pos h2]
      cases hes : a.es with
      | nil => rfl
      | cons e l =>
        rw [hes] at h
        simp only at h ⊢
        have := (Ask.head_agree (a := []) hq (by rw [List.append_nil]; exact h)).1
        rw [this]
    · rw [if_neg h2] at h ⊢
      rw [if_neg h2]
      by_cases h3 : (!c.sortOnInsert) = true
      · rw [if_pos h3] at h ⊢
        rw [if_pos h3, Ask.findIdx?_agree hq _ _ h]
      · rw [if_neg h3] at h ⊢
        rw [if_neg h3]
        cases hu : DivList.upperBound (comparer c) a.es m with
        | none => rfl
        | some k =>
          rw [hu] at h
          simp only
          rw [Ask.findIdx?_agree hq _ _ h]

theorem visit_agree {q p p' : Ext T → Bool} {proceed : List T → Flow}
    (hq : ∀ e, q e = false → p' e = p e) : ∀ (l : List (Ext T)) (got : List T) (i : ℕ),
    (∀ x ∈ Ask.visit q p (fun l => proceed l == .go) got l i, p' x.1 = p x.1) →
    visit p' proceed got l = visit p proceed got l := by
  intro l
  induction l with
  | nil => intro got i _; rfl
  | cons e l ih =>
    intro got i h
    rw [Ask.visit] at h
    obtain ⟨h1, h2⟩ := Ask.head_agree hq h
    rw [visit, visit, h1]
    cases hp : p e with
    | true =>
      rw [hp, if_pos rfl] at h2
      rw [if_pos rfl, if_pos rfl]
      cases hg : proceed (got ++ [e.t]) with
      | go =>
        rw [if_pos (by rw [hg]; rfl)] at h2
        exact ih _ _ h2
      | stop => rfl
      | threw => rfl
    | false =>
      simp only [hp, Bool.false_eq_true, if_false] at h2 ⊢
      exact ih _ _ h2

theorem visitOneA_sublist (q : Ext T → Bool) (a : Arr T) : (a.visitOneA q).Sublist a.es.zipIdx := by
  unfold Arr.visitOneA
  cases a.es with
  | nil => exact List.nil_sublist _
  | cons e l => exact one_sublist

theorem visitOneA_mem (q : Ext T → Bool) (a : Arr T) : ∀ x ∈ a.visitOneA q, q x.1 = true := by
  unfold Arr.visitOneA
  cases a.es with
  | nil => intro x hx; cases hx
  | cons e l =>
    intro x hx
    obtain ⟨h1, rfl⟩ := Ask.head_mem hx
    exact h1

theorem visitOne_agree {d : T → T → Bool} {q p p' : Ext T → Bool} {proceed : List T → Flow} {got : List T} {a : Arr T}
    (hq : ∀ e, q e = false → p' e = p e) (h : ∀ x ∈ a.visitOneA q, p' x.1 = p x.1) :
    a.visitOne (c.withDivides d) p' proceed got = a.visitOne c p proceed got := by
  unfold Arr.visitOneA at h
  unfold Arr.visitOne
  rw [show (c.withDivides d).allowRemovals = c.allowRemovals from rfl]
  cases hes : a.es with
  | nil => rfl
  | cons e l =>
    rw [hes] at h
    simp only at h ⊢
    rw [(Ask.head_agree (a := []) hq (by rw [List.append_nil]; exact h)).1]

theorem arr_findAllDivisorsA_sublist (m : Ext T) (proceed : List T → Flow) (got : List T) (a : Arr T) :
    (a.findAllDivisorsA c m proceed got).Sublist a.es.zipIdx := by
  unfold Arr.findAllDivisorsA
  split
  · exact List.nil_sublist _
  · split
    · exact visitOneA_sublist _ _
    · split
      · exact Ask.visit_sublist _ _ _
      · split
        · exact List.nil_sublist _
        · exact (Ask.visit_sublist _ _ _).trans (DivList.zipIdx_take_sublist _ _ _)

theorem arr_findAllDivisorsA_mem (m : Ext T) (proceed : List T → Flow) (got : List T) (a : Arr T) :
    ∀ x ∈ a.findAllDivisorsA c m proceed got, asks c x.1 m = true := by
  unfold Arr.findAllDivisorsA
  split
  · intro x hx; cases hx
  · split
    · exact visitOneA_mem _ _
    · split
      · exact Ask.visit_mem _ _ _
      · split
        · intro x hx; cases hx
        · exact Ask.visit_mem _ _ _

theorem arr_findAllDivisors_agree {d : T → T → Bool} {m : Ext T} {proceed : List T → Flow} {got : List T} {a : Arr T}
    (h : ∀ x ∈ a.findAllDivisorsA c m proceed got, divides (c.withDivides d) x.1 m = divides c x.1 m) :
    a.findAllDivisors (c.withDivides d) m proceed got = a.findAllDivisors c m proceed got := by
  have hq : ∀ e, (fun e => asks c e m) e = false →
      (fun e => divides (c.withDivides d) e m) e = (fun e => divides c e m) e := fun e he => divides_with_not he
  unfold Arr.findAllDivisorsA at h
  unfold Arr.findAllDivisors
  simp only [show a.maskRejects (c.withDivides d) m = a.maskRejects c m from rfl,
    show (c.withDivides d).leafSize = c.leafSize from rfl,
    show (c.withDivides d).sortOnInsert = c.sortOnInsert from rfl,
    show comparer (c.withDivides d) = comparer c from rfl]
  by_cases h1 : a.maskRejects c m = true
  · rw [if_pos h1, if_pos h1]
  · rw [if_neg h1] at h ⊢
    rw [if_neg h1]
    by_cases h2 : c.leafSize = 1
    · rw [if_pos h2] at h ⊢
      rw [if_pos h2]
      exact visitOne_agree hq h
    · rw [if_neg h2] at h ⊢
      rw [if_neg h2]
      by_cases h3 : (!c.sortOnInsert) = true
      · rw [if_pos h3] at h ⊢
        rw [if_pos h3, visit_agree hq _ _ _ h]
      · rw [if_neg h3] at h ⊢
        rw [if_neg h3]
        cases hu : DivList.upperBound (comparer c) a.es m with
        | none => rfl
        | some k =>
          rw [hu] at h
          simp only
          rw [visit_agree hq _ _ _ h]

theorem arr_findAllMultiplesA_sublist (m : Ext T) (proceed : List T → Flow) (got : List T) (a : Arr T) :
    (a.findAllMultiplesA c m proceed got).Sublist a.es.zipIdx := by
  unfold Arr.findAllMultiplesA
  split
  · exact visitOneA_sublist _ _
  · exact Ask.visit_sublist _ _ _

theorem arr_findAllMultiplesA_mem (m : Ext T) (proceed : List T → Flow) (got : List T) (a : Arr T) :
    ∀ x ∈ a.findAllMultiplesA c m proceed got, asks c m x.1 = true := by
  unfold Arr.findAllMultiplesA
  split
  · exact visitOneA_mem _ _
  · exact Ask.visit_mem _ _ _

theorem arr_findAllMultiples_agree {d : T → T → Bool} {m : Ext T} {proceed : List T → Flow} {got : List T} {a : Arr T}
    (h : ∀ x ∈ a.findAllMultiplesA c m proceed got, divides (c.withDivides d) m x.1 = divides c m x.1) :
    a.findAllMultiples (c.withDivides d) m proceed got = a.findAllMultiples c m proceed got := by
  have hq : ∀ e, (fun e => asks c m e) e = false →
      (fun e => divides (c.withDivides d) m e) e = (fun e => divides c m e) e := fun e he => divides_with_not he
  unfold Arr.findAllMultiplesA at h
  unfold Arr.findAllMultiples
  simp only [show (c.withDivides d).leafSize = c.leafSize from rfl]
  by_cases h2 : c.leafSize = 1
  · rw [if_pos h2] at h ⊢
    rw [if_pos h2]
    exact visitOne_agree hq h
  · rw [if_neg h2] at h ⊢
    rw [if_neg h2, visit_agree hq _ _ _ h]

/-! ## Searches -/

theorem expand_with {d : T → T → Bool} (k : Kind T) (n : Node T) : ∀ p : Path,
    expand (c.withDivides d) p n k = expand c p n k := by
  have h1 : ∀ (m : Ext T) (n : Node T) p acc, expandDivisors (c.withDivides d) m p acc n = expandDivisors c m p acc n := by
    intro m n
    induction n with
    | entries a => intro p acc; rfl
    | split mask var exp le gt ih1 ih2 =>
      intro p acc
      rw [expandDivisors, expandDivisors, ih1]
      rfl
  have h2 : ∀ (m : Ext T) (n : Node T) p acc,
      expandMultiplesB (c.withDivides d) m p acc n = expandMultiplesB c m p acc n := by
    intro m n
    induction n with
    | entries a => intro p acc; rfl
    | split mask var exp le gt ih1 ih2 =>
      intro p acc
      rw [expandMultiplesB, expandMultiplesB, ih2]
      rfl
  have h3 : ∀ (m : Ext T) (n : Node T) p acc,
      expandMultiplesP (c.withDivides d) m p acc n = expandMultiplesP c m p acc n := by
    intro m n
    induction n with
    | entries a => intro p acc; rfl
    | split mask var exp le gt ih1 ih2 =>
      intro p acc
      rw [expandMultiplesP, expandMultiplesP, ih1]
      rfl
  intro p
  cases k with
  | divisors m => exact h1 m n p []
  | multiples m =>
    rw [expand, expand, h2, h3]
    rfl
  | all => rfl

/-- A search that keeps a list tells what another search does, if the other acts alike for what is on the list. -/
theorem loop_log {σ X : Type} {c' : Conf T} {k : Kind T} (hexp : ∀ p n, expand c' p n k = expand c p n k)
    {act' : Path → σ → Option (σ × Flow)} {actA : Path → σ × List X → Option ((σ × List X) × Flow)} {P : X → Prop}
    (hact : ∀ p s log s' log' f, actA p (s, log) = some ((s', log'), f) →
      (∀ x ∈ log, x ∈ log') ∧ ((∀ x ∈ log', P x) → act' p s = some (s', f))) :
    ∀ (n : ℕ) (s : σ) (log : List X) (cur : Path × Node T) (stack : List (Path × Node T)), sizes (cur :: stack) = n →
      ∀ s' log' f tmp, loop c k actA (s, log) cur stack = some ((s', log'), f, tmp) →
      (∀ x ∈ log, x ∈ log') ∧ ((∀ x ∈ log', P x) → loop c' k act' s cur stack = some (s', f, tmp)) := by
  intro n
  induction n using Nat.strong_induction_on with
  | _ n ih =>
    intro s log cur stack hn s' log' f tmp hf
    have hsz := expand_sizes c k cur.1 cur.2
    have hsizes : sizes (cur :: stack) = cur.2.size + sizes stack := by simp [sizes]
    rw [loop] at hf
    rw [loop]
    have hE := hexp cur.1 cur.2
    simp only [hexp]
    generalize expand c cur.1 cur.2 k = E at *
    rcases E with ⟨pre, leaf, post⟩
    cases leaf with
    | none =>
      simp only at hf hsz ⊢
      cases h0 : pre ++ stack with
      | nil =>
        have hf' : (some ((s, log), Flow.go, []) : Option ((σ × List X) × Flow × List Path)) =
            some ((s', log'), f, tmp) := by
          rw [← hf]
          split
          · rfl
          · rename_i h1; rw [h0] at h1; cases h1
        cases hf'
        refine ⟨fun x hx => hx, fun _ => ?_⟩
        split
        · rfl
        · rename_i h1; simp [hE, h0] at h1
      | cons nxt rest =>
        have hlt : sizes (nxt :: rest) < n := by
          rw [← h0, sizes_append]
          omega
        have hf' : loop c k actA (s, log) nxt rest = some ((s', log'), f, tmp) := by
          rw [← hf]
          split
          · rename_i h1; rw [h0] at h1; cases h1
          · rename_i h1; rw [h0] at h1; cases h1; rfl
        obtain ⟨g1, g2⟩ := ih _ hlt s log nxt rest rfl _ _ _ _ hf'
        refine ⟨g1, fun hP => ?_⟩
        split
        · rename_i h1; simp [hE, h0] at h1
        · rename_i h1; simp only [hE, h0, List.cons.injEq] at h1; obtain ⟨rfl, rfl⟩ := h1; exact g2 hP
    | some p =>
      simp only at hf hsz ⊢
      cases ha : actA p (s, log) with
      | none => rw [ha] at hf; cases hf
      | some r =>
        rcases r with ⟨⟨s1, log1⟩, f1⟩
        obtain ⟨a1, a2⟩ := hact _ _ _ _ _ _ ha
        rw [ha] at hf
        cases f1 with
        | stop =>
          cases hf
          exact ⟨a1, fun hP => by rw [a2 hP]⟩
        | threw =>
          cases hf
          exact ⟨a1, fun hP => by rw [a2 hP]⟩
        | go =>
          simp only at hf
          cases h0 : post ++ (pre ++ stack) with
          | nil =>
            have hf' : (some ((s1, log1), Flow.go, []) : Option ((σ × List X) × Flow × List Path)) =
                some ((s', log'), f, tmp) := by
              rw [← hf]
              split
              · rfl
              · rename_i h1; rw [h0] at h1; cases h1
            cases hf'
            refine ⟨a1, fun hP => ?_⟩
            rw [a2 hP]
            simp only
            split
            · rfl
            · rename_i h1; simp [hE, h0] at h1
          | cons nxt rest =>
            have hlt : sizes (nxt :: rest) < n := by
              rw [← h0, sizes_append, sizes_append]
              omega
            have hf' : loop c k actA (s1, log1) nxt rest = some ((s', log'), f, tmp) := by
              rw [← hf]
              split
              · rename_i h1; rw [h0] at h1; cases h1
              · rename_i h1; rw [h0] at h1; cases h1; rfl
            obtain ⟨g1, g2⟩ := ih _ hlt s1 log1 nxt rest rfl _ _ _ _ hf'
            refine ⟨fun x hx => g1 x (a1 x hx), fun hP => ?_⟩
            rw [a2 (fun x hx => hP x (g1 x hx))]
            simp only
            split
            · rename_i h1; simp [hE, h0] at h1
            · rename_i h1; simp only [hE, h0, List.cons.injEq] at h1; obtain ⟨rfl, rfl⟩ := h1; exact g2 hP

theorem search_log {σ X : Type} {c' : Conf T} {k : Kind T} (hexp : ∀ p n, expand c' p n k = expand c p n k)
    {act' : Path → σ → Option (σ × Flow)} {actA : Path → σ × List X → Option ((σ × List X) × Flow)} {P : X → Prop}
    (hact : ∀ p s log s' log' f, actA p (s, log) = some ((s', log'), f) →
      (∀ x ∈ log, x ∈ log') ∧ ((∀ x ∈ log', P x) → act' p s = some (s', f)))
    {s s' : σ} {root : Node T} {log' : List X} {tmp tmp' : List Path} {f : Flow}
    (h : search c k actA (s, []) root tmp = some ((s', log'), f, tmp')) (hP : ∀ x ∈ log', P x) :
    search c' k act' s root tmp = some (s', f, tmp') := by
  unfold search at h ⊢
  cases hm : tmp.mapM (fun p => (root.sub p).map (p, ·)) with
  | none => rw [hm] at h; cases h
  | some stack =>
    rw [hm] at h
    exact (loop_log hexp hact _ _ _ _ _ rfl _ _ _ _ h).2 hP

/-- What is put on the list, array by array. -/
def foldLog {σ X : Type} (act : Path → σ → Option (σ × Flow)) (g : Path → σ → List X) (s : σ) : List Path → List X
  | [] => []
  | p :: l => g p s ++
    match act p s with
    | some (s', .go) => foldLog act g s' l
    | _ => []

theorem fold_log {σ X : Type} {act : Path → σ → Option (σ × Flow)} {g : Path → σ → List X}
    {actA : Path → σ × List X → Option ((σ × List X) × Flow)}
    (hA : ∀ p s log, actA p (s, log) = (act p s).map (fun r => ((r.1, log ++ g p s), r.2))) :
    ∀ (l : List Path) (s : σ) (log : List X) (s' : σ) (f : Flow), foldAct act s l = some (s', f) →
      foldAct actA (s, log) l = some ((s', log ++ foldLog act g s l), f) := by
  intro l
  induction l with
  | nil => intro s log s' f h; cases h; simp [foldAct, foldLog]
  | cons p l ih =>
    intro s log s' f h
    rw [foldAct] at h ⊢
    rw [foldLog, hA]
    cases ha : act p s with
    | none => rw [ha] at h; cases h
    | some r =>
      rcases r with ⟨s1, f1⟩
      rw [ha] at h
      cases f1 with
      | go =>
        simp only [Option.map_some] at h ⊢
        rw [ih _ _ _ _ h, List.append_assoc]
      | stop => cases h; simp
      | threw => cases h; simp

theorem foldLog_mem {σ X : Type} {act : Path → σ → Option (σ × Flow)} {g : Path → σ → List X} {x : X} :
    ∀ (l : List Path) (s : σ), x ∈ foldLog act g s l → ∃ p ∈ l, ∃ s, x ∈ g p s := by
  intro l
  induction l with
  | nil => intro s h; cases h
  | cons p l ih =>
    intro s h
    rw [foldLog] at h
    rcases List.mem_append.mp h with h | h
    · exact ⟨p, by simp, s, h⟩
    · split at h
      · obtain ⟨p', h1, h2⟩ := ih _ h
        exact ⟨p', List.mem_cons_of_mem _ h1, h2⟩
      · cases h

theorem foldLog_nodup {σ : Type} {act : Path → σ → Option (σ × Flow)} {g : Path → σ → List (Ext T × Ptr)}
    (h1 : ∀ p s, ((g p s).map Prod.snd).Nodup) (h2 : ∀ p s, ∀ x ∈ g p s, x.2.1 = p) :
    ∀ (l : List Path) (s : σ), l.Nodup → ((foldLog act g s l).map Prod.snd).Nodup := by
  intro l
  induction l with
  | nil => intro s _; exact List.nodup_nil
  | cons p l ih =>
    intro s hl
    obtain ⟨hp, hl⟩ := List.nodup_cons.mp hl
    rw [foldLog]
    split
    · rename_i s' _
      rw [List.map_append, List.nodup_append]
      refine ⟨h1 p s, ih s' hl, ?_⟩
      intro a ha b hb hab
      obtain ⟨x, hx, rfl⟩ := List.mem_map.mp ha
      obtain ⟨y, hy, rfl⟩ := List.mem_map.mp hb
      obtain ⟨p', hp', s'', hy⟩ := foldLog_mem _ _ hy
      have e1 := h2 p s x hx
      have e2 := h2 p' s'' y hy
      rw [hab, e2] at e1
      rw [e1] at hp'
      exact hp hp'
    · rw [List.append_nil]
      exact h1 p s

theorem foldLog_sublist {σ : Type} {act : Path → σ → Option (σ × Flow)} {g : Path → σ → List (Ext T × Ptr)} :
    ∀ (l : List (Path × Arr T)) (s : σ),
      (∀ x ∈ l, ∀ s, ((g x.1 s).map (fun y => y.1.t)).Sublist (x.2.es.map Ext.t)) →
      ((foldLog act g s (l.map Prod.fst)).map (fun y => y.1.t)).Sublist (arrEntries l) := by
  intro l
  induction l with
  | nil => intro s _; exact List.Sublist.refl _
  | cons x l ih =>
    intro s h
    rw [List.map_cons, foldLog, List.map_append, arrEntries, List.flatMap_cons]
    refine (h x (by simp) s).append ?_
    split
    · exact ih _ (fun y hy => h y (List.mem_cons_of_mem _ hy))
    · exact List.nil_sublist _

theorem foldLog_dropLast {σ X : Type} {act : Path → σ → Option (σ × Flow)} {g : Path → σ → List X} {φ : X → Prop}
    (h1 : ∀ p s s', act p s = some (s', .go) → ∀ x ∈ g p s, φ x) (h2 : ∀ p s, ∀ x ∈ (g p s).dropLast, φ x) :
    ∀ (l : List Path) (s : σ), ∀ x ∈ (foldLog act g s l).dropLast, φ x := by
  intro l
  induction l with
  | nil => intro s x hx; cases hx
  | cons p l ih =>
    intro s x hx
    rw [foldLog] at hx
    split at hx
    · rename_i s' ha
      rcases Ask.mem_dropLast_append hx with hx | hx
      · exact h1 p s s' ha x hx
      · exact ih _ x hx
    · rw [List.append_nil] at hx
      exact h2 p s x hx

theorem visited_subperm {k : Kind T} (n : Node T) : ∀ p : Path, (arrEntries (visited c k p n)).Subperm n.contents := by
  induction n with
  | entries a => intro p; simp [visited, arrEntries, Node.contents, List.Subperm.refl]
  | split mask var exp le gt ih1 ih2 =>
    intro p
    have hle : ∀ b : Bool, (arrEntries (if b then [] else visited c k (p ++ [false]) le)).Subperm le.contents := by
      intro b
      cases b with
      | true => exact List.nil_subperm
      | false => exact ih1 _
    have hgt : ∀ b : Bool, (arrEntries (if b then visited c k (p ++ [true]) gt else [])).Subperm gt.contents := by
      intro b
      cases b with
      | true => exact ih2 _
      | false => exact List.nil_subperm
    rw [Node.contents]
    cases k with
    | divisors m =>
      rw [visited]
      split
      · exact List.nil_subperm
      · rw [arrEntries_append]
        exact (ih1 _).append (hgt _)
    | multiples m =>
      rw [visited]
      split
      · rw [arrEntries_append]
        exact (hle _).append (ih2 _)
      · rw [arrEntries_append]
        exact ((ih2 _).append (hle _)).trans List.perm_append_comm.subperm
    | all =>
      rw [visited, arrEntries_append]
      exact (ih1 _).append (ih2 _)

theorem asked_nodup {p : Path} {a : Arr T} {l : List (Ext T × ℕ)} (h : l.Sublist a.es.zipIdx) :
    ((asked p l).map Prod.snd).Nodup := by
  have : (asked p l).map Prod.snd = (l.map Prod.snd).map (fun i => (p, i)) := by simp [asked]
  rw [this]
  refine List.Nodup.map (fun i j hij => by cases hij; rfl) ?_
  refine (h.map Prod.snd).nodup ?_
  rw [List.zipIdx_map_snd]
  exact List.nodup_range' ..

theorem asked_fst {p : Path} {l : List (Ext T × ℕ)} {x : Ext T × Ptr} (h : x ∈ asked p l) :
    x.2.1 = p ∧ (x.1, x.2.2) ∈ l := by
  obtain ⟨y, hy, rfl⟩ := List.mem_map.mp h
  exact ⟨rfl, hy⟩

theorem asked_sublist {p : Path} {a : Arr T} {l : List (Ext T × ℕ)} (h : l.Sublist a.es.zipIdx) :
    ((asked p l).map (fun y => y.1.t)).Sublist (a.es.map Ext.t) := by
  have e : (asked p l).map (fun y => y.1.t) = (l.map Prod.fst).map Ext.t := by simp [asked]
  rw [e]
  have := (h.map Prod.fst).map Ext.t
  rwa [List.zipIdx_map_fst] at this

theorem asked_dropLast {p : Path} {l : List (Ext T × ℕ)} : (asked p l).dropLast = asked p l.dropLast := by
  rw [asked, asked, List.map_dropLast]

/-! ## Trees -/

/-- What is asked in the array at a path. -/
def gDivisor (c : Conf T) (m : Ext T) (root : Node T) (p : Path) : List (Ext T × Ptr) :=
  match root.arrAt p with
  | none => []
  | some a => asked p (a.findDivisorA c m)

/-- What is asked in the array at a path. -/
def gVisit (g : List T → Arr T → List (Ext T × ℕ)) (root : Node T) (p : Path) (got : List T) : List (Ext T × Ptr) :=
  match root.arrAt p with
  | none => []
  | some a => asked p (g got a)

theorem actDivisorA_eq {m : Ext T} {root : Node T} (p : Path) (s : Option Ptr) (log : List (Ext T × Ptr)) :
    actDivisorA c m root p (s, log) =
      (actDivisor c m root p s).map (fun r => ((r.1, log ++ gDivisor c m root p), r.2)) := by
  unfold actDivisorA actDivisor gDivisor
  cases root.arrAt p with
  | none => rfl
  | some a =>
    simp only
    cases a.findDivisor c m with
    | none => rfl
    | some r => cases r <;> rfl

theorem actVisitA_eq {f : List T → Arr T → Option (List T × Flow)} {g : List T → Arr T → List (Ext T × ℕ)}
    {root : Node T} (p : Path) (s : List T) (log : List (Ext T × Ptr)) :
    actVisitA f g root p (s, log) = (actVisit f root p s).map (fun r => ((r.1, log ++ gVisit g root p s), r.2)) := by
  unfold actVisitA actVisit gVisit
  cases root.arrAt p with
  | none => rfl
  | some a =>
    simp only
    cases f s a with
    | none => rfl
    | some r => rfl

/-- The search for a divisor, with what it asks. -/
theorem tree_findDivisorA (hl : c.Lawful) (hc : Calc c bits) {m : Ext T} (hm : IsExt c bits m) {n : Node T}
    (h : Tree.Ok c bits ⟨some n, []⟩) : ∃ r f tmp, search c (.divisors m) (actDivisorA c m n) (none, []) n [] =
      some ((r, foldLog (actDivisor c m n) (fun p _ => gDivisor c m n p) none ((visited c (.divisors m) [] n).map Prod.fst)),
        f, tmp) := by
  have hw := h.wf n rfl
  have hA := fun p s log => actDivisorA_eq (c := c) (m := m) (root := n) p s log
  rcases fold_findDivisor (root := n) hl hc hm (visited c (.divisors m) [] n) (visited_arrAt n [] (sub_nil n))
    (visited_wf n [] hw) (fun ha => visited_ne n [] (h.ne ha n rfl)) with ⟨p, i, a, e, h1, -⟩ | ⟨h1, -⟩
  · obtain ⟨tmp, g1, -⟩ := search_eq (fold_log (g := fun p _ => gDivisor c m n p) hA _ _ [] _ _ h1)
    rw [List.nil_append] at g1
    exact ⟨_, _, _, g1⟩
  · obtain ⟨tmp, g1, -⟩ := search_eq (fold_log (g := fun p _ => gDivisor c m n p) hA _ _ [] _ _ h1)
    rw [List.nil_append] at g1
    exact ⟨_, _, _, g1⟩

/-- An enumeration, with what it asks. -/
theorem tree_enumerateA {n : Node T} (h : Tree.Ok c bits ⟨some n, []⟩) {k : Kind T} {proceed : List T → Flow}
    {q : T → Bool} {f : List T → Arr T → Option (List T × Flow)} {g : List T → Arr T → List (Ext T × ℕ)}
    (hf : ∀ a got, ArrOk c bits a → (c.allowRemovals = false → a.es ≠ []) →
      f got a = some (deliver proceed got ((a.es.map Ext.t).filter q))) :
    ∃ r fl tmp, search c k (actVisitA f g n) ([], []) n [] =
      some ((r, foldLog (actVisit f n) (gVisit g n) [] ((visited c k [] n).map Prod.fst)), fl, tmp) := by
  have hA := fun p s log => actVisitA_eq (f := f) (g := g) (root := n) p s log
  have hfold := fold_visit (f := f) (proceed := proceed) (q := q) (root := n) (visited c k [] n) []
    (visited_arrAt n [] (sub_nil n))
    (fun x hx got => hf x.2 got (visited_wf n [] (h.wf n rfl) x hx) (fun ha => visited_ne n [] (h.ne ha n rfl) x hx))
  obtain ⟨tmp, g1, -⟩ := search_eq (fold_log hA _ _ [] _ _ hfold)
  rw [List.nil_append] at g1
  exact ⟨_, _, _, g1⟩

theorem once_nil (t : Tree T) : Once t [] := ⟨List.nodup_nil, nofun, List.nil_subperm⟩

theorem once_fold {σ : Type} {n : Node T} {tmp : List Path} {k : Kind T} {act : Path → σ → Option (σ × Flow)}
    {s : σ} {g : Path → σ → List (Ext T × Ptr)}
    (hg : ∀ p s, (g p s = [] ∨ ∃ a l, n.arrAt p = some a ∧ l.Sublist a.es.zipIdx ∧ g p s = asked p l)) :
    Once ⟨some n, tmp⟩ (foldLog act g s ((visited c k [] n).map Prod.fst)) := by
  refine ⟨foldLog_nodup ?_ ?_ _ _ (visited_nodup n []), ?_, ?_⟩
  · intro p s
    rcases hg p s with h | ⟨a, l, _, h2, h3⟩
    · rw [h]; exact List.nodup_nil
    · rw [h3]; exact asked_nodup h2
  · intro p s x hx
    rcases hg p s with h | ⟨a, l, _, h2, h3⟩
    · rw [h] at hx; cases hx
    · rw [h3] at hx; exact (asked_fst hx).1
  · intro x hx
    obtain ⟨p, _, s', hx⟩ := foldLog_mem _ _ hx
    rcases hg p s' with h | ⟨a, l, h1, h2, h3⟩
    · rw [h] at hx; cases hx
    · rw [h3] at hx
      obtain ⟨e1, e2⟩ := asked_fst hx
      have := h2.subset e2
      rw [List.mem_zipIdx_iff_getElem?] at this
      exact ⟨n, a, rfl, by rw [e1, h1], this⟩
  · refine (foldLog_sublist _ _ ?_).subperm.trans (visited_subperm n [])
    intro x hx s'
    rcases hg x.1 s' with h | ⟨a, l, h1, h2, h3⟩
    · rw [h]; exact List.nil_sublist _
    · rw [h3]
      have := visited_arrAt n [] (sub_nil n) x hx
      rw [h1] at this
      cases this
      exact asked_sublist h2

theorem gDivisor_once {m : Ext T} {n : Node T} (p : Path) :
    gDivisor c m n p = [] ∨ ∃ a l, n.arrAt p = some a ∧ l.Sublist a.es.zipIdx ∧ gDivisor c m n p = asked p l := by
  unfold gDivisor
  cases ha : n.arrAt p with
  | none => exact .inl rfl
  | some a => exact .inr ⟨a, _, rfl, arr_findDivisorA_sublist m a, rfl⟩

theorem gVisit_once {n : Node T} {g : List T → Arr T → List (Ext T × ℕ)} (hg : ∀ got a, (g got a).Sublist a.es.zipIdx)
    (p : Path) (got : List T) :
    gVisit g n p got = [] ∨ ∃ a l, n.arrAt p = some a ∧ l.Sublist a.es.zipIdx ∧ gVisit g n p got = asked p l := by
  unfold gVisit
  cases ha : n.arrAt p with
  | none => exact .inl rfl
  | some a => exact .inr ⟨a, _, rfl, hg got a, rfl⟩

/-- What `findDivisor` of a tree asks, and that nothing else matters for what it returns. -/
theorem tree_findDivisor_asks (hl : c.Lawful) (hc : Calc c bits) {m : Ext T} (hm : IsExt c bits m) {t : Tree T}
    (h : t.Ok c bits) (ht : t.tmp = []) :
    Once t (t.findDivisorA c m) ∧ (∀ x ∈ t.findDivisorA c m, asks c x.1 m = true) ∧
    (∀ x ∈ (t.findDivisorA c m).dropLast, divides c x.1 m = false) ∧
    ∀ d, (∀ x ∈ t.findDivisorA c m, divides (c.withDivides d) x.1 m = divides c x.1 m) →
      t.findDivisor (c.withDivides d) m = t.findDivisor c m := by
  rcases t with ⟨root, tmp⟩
  cases ht
  cases root with
  | none => exact ⟨once_nil _, nofun, nofun, fun _ _ => rfl⟩
  | some n =>
    obtain ⟨r, f, tmp, hs⟩ := tree_findDivisorA hl hc hm h
    have hlog : Tree.findDivisorA c ⟨some n, []⟩ m = foldLog (actDivisor c m n) (fun p _ => gDivisor c m n p) none
        ((visited c (.divisors m) [] n).map Prod.fst) := by
      unfold Tree.findDivisorA
      simp only [hs]
    rw [hlog]
    refine ⟨once_fold (fun p _ => gDivisor_once p), ?_, ?_, ?_⟩
    · intro x hx
      obtain ⟨p, _, _, hx⟩ := foldLog_mem _ _ hx
      unfold gDivisor at hx
      split at hx
      · cases hx
      · exact arr_findDivisorA_mem _ _ _ (asked_fst hx).2
    · refine foldLog_dropLast (φ := fun x : Ext T × Ptr => divides c x.1 m = false) ?_ ?_ _ _
      · intro p s s' ha x hx
        unfold gDivisor at hx
        unfold actDivisor at ha
        split at hx
        · cases hx
        · rename_i a hp
          rw [hp] at ha
          simp only at ha
          cases hd : a.findDivisor c m with
          | none => rw [hd] at ha; cases ha
          | some r =>
            cases r with
            | none => exact arr_findDivisorA_none m a hd _ (asked_fst hx).2
            | some i => rw [hd] at ha; cases ha
      · intro p _ x hx
        unfold gDivisor at hx
        split at hx
        · cases hx
        · rw [asked_dropLast] at hx
          exact arr_findDivisorA_dropLast _ _ _ (asked_fst hx).2
    · intro d hd
      have hact : ∀ d, ∀ p s log s' log' f, actDivisorA c m n p (s, log) = some ((s', log'), f) →
          (∀ x ∈ log, x ∈ log') ∧
          ((∀ x ∈ log', divides (c.withDivides d) x.1 m = divides c x.1 m) →
            actDivisor (c.withDivides d) m n p s = some (s', f)) := by
        intro d p s log s' log' f hA
        rw [actDivisorA_eq, Option.map_eq_some_iff] at hA
        obtain ⟨r, hr, e⟩ := hA
        cases e
        refine ⟨fun x hx => List.mem_append_left _ hx, fun hP => ?_⟩
        rw [← hr]
        unfold actDivisor
        unfold gDivisor at hP
        cases ha : n.arrAt p with
        | none => rfl
        | some a =>
          rw [ha] at hP
          simp only at hP ⊢
          rw [arr_findDivisor_agree (fun x hx => hP (x.1, p, x.2)
            (List.mem_append_right _ (List.mem_map.mpr ⟨x, hx, rfl⟩)))]
      have h1 := search_log (c' := c.withDivides d) (fun p n => expand_with _ n p) (hact d) hs hd
      have h2 := search_log (c' := c.withDivides c.dm.divides) (fun p n => expand_with _ n p) (hact c.dm.divides) hs
        (fun _ _ => rfl)
      have h2' : search c (.divisors m) (actDivisor c m n) none n [] = some (r, f, tmp) := h2
      unfold Tree.findDivisor
      simp only [h1, h2']

/-- What an enumeration asks, and that nothing else matters for what it delivers. -/
theorem tree_enumerate_asks {t : Tree T} (h : t.Ok c bits) (ht : t.tmp = []) {k : Kind T} {proceed : List T → Flow}
    {q : T → Bool} {f : List T → Arr T → Option (List T × Flow)} {g : List T → Arr T → List (Ext T × ℕ)}
    {φ : Ext T → Prop} (hf : ∀ a got, ArrOk c bits a → (c.allowRemovals = false → a.es ≠ []) →
      f got a = some (deliver proceed got ((a.es.map Ext.t).filter q)))
    (hg1 : ∀ got a, (g got a).Sublist a.es.zipIdx) (hg2 : ∀ got a, ∀ x ∈ g got a, φ x.1) :
    Once t (t.enumerateA c k f g) ∧ (∀ x ∈ t.enumerateA c k f g, φ x.1) ∧
    ∀ (d : T → T → Bool) (f' : List T → Arr T → Option (List T × Flow)) (P : Ext T → Prop),
      (∀ got a, (∀ x ∈ g got a, P x.1) → f' got a = f got a) → (∀ x ∈ t.enumerateA c k f g, P x.1) →
      t.enumerate (c.withDivides d) k f' = t.enumerate c k f := by
  rcases t with ⟨root, tmp⟩
  cases ht
  cases root with
  | none => exact ⟨once_nil _, nofun, fun _ _ _ _ _ => rfl⟩
  | some n =>
    obtain ⟨r, fl, tmp, hs⟩ := tree_enumerateA (g := g) (k := k) h hf
    have hlog : Tree.enumerateA c ⟨some n, []⟩ k f g = foldLog (actVisit f n) (gVisit g n) []
        ((visited c k [] n).map Prod.fst) := by
      unfold Tree.enumerateA
      simp only [hs]
    rw [hlog]
    refine ⟨once_fold (gVisit_once hg1), ?_, ?_⟩
    · intro x hx
      obtain ⟨p, _, _, hx⟩ := foldLog_mem _ _ hx
      unfold gVisit at hx
      split at hx
      · cases hx
      · exact hg2 _ _ _ (asked_fst hx).2
    · intro d f' P hf' hP
      have hact : ∀ (f' : List T → Arr T → Option (List T × Flow)) (P : Ext T → Prop),
          (∀ got a, (∀ x ∈ g got a, P x.1) → f' got a = f got a) →
          ∀ p s (log : List (Ext T × Ptr)) s' (log' : List (Ext T × Ptr)) fl, actVisitA f g n p (s, log) = some ((s', log'), fl) →
          (∀ x ∈ log, x ∈ log') ∧ ((∀ x ∈ log', P x.1) → actVisit f' n p s = some (s', fl)) := by
        intro f' P hf' p s log s' log' fl hA
        rw [actVisitA_eq, Option.map_eq_some_iff] at hA
        obtain ⟨r, hr, e⟩ := hA
        cases e
        refine ⟨fun x hx => List.mem_append_left _ hx, fun hP => ?_⟩
        rw [← hr]
        unfold actVisit
        unfold gVisit at hP
        cases ha : n.arrAt p with
        | none => rfl
        | some a =>
          rw [ha] at hP
          simp only at hP ⊢
          exact hf' s a (fun x hx => hP (x.1, p, x.2) (List.mem_append_right _ (List.mem_map.mpr ⟨x, hx, rfl⟩)))
      have h1 := search_log (c' := c.withDivides d) (P := fun x : Ext T × Ptr => P x.1) (fun p n => expand_with _ n p)
        (hact f' P hf') hs hP
      have h2 := search_log (c' := c) (P := fun _ : Ext T × Ptr => True) (fun _ _ => rfl)
        (hact f (fun _ => True) (fun _ _ _ => rfl)) hs (fun _ _ => trivial)
      unfold Tree.enumerate
      simp only [h1, h2]

end Verif.KDTree
