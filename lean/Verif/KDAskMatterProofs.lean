import Verif.AskMatterProofs

/-!
# Lemmas on questions that matter in KD trees
-/

namespace Verif.KDTree

open Verif.DivMask (Ext Bits)

variable {T : Type} {c : Conf T} {bits : Bits} {t : T}

/-! ## Leaves -/

/-- The entries of a leaf that a search for divisors may look at. -/
def leafRange (c : Conf T) (m : Ext T) (a : Arr T) : Option (List (Ext T)) :=
  if a.maskRejects c m then some []
  else if c.leafSize = 1 then
    if c.allowRemovals && a.es.isEmpty then some []
    else
      match a.es with
      | [] => none
      | e :: _ => some [e]
  else if !c.sortOnInsert then some a.es
  else (DivList.upperBound (comparer c) a.es m).map (a.es.take ·)

/-- The entries of a leaf that a search for multiples may look at. -/
def leafAll (c : Conf T) (a : Arr T) : Option (List (Ext T)) :=
  if c.leafSize = 1 then
    if c.allowRemovals && a.es.isEmpty then some []
    else
      match a.es with
      | [] => none
      | e :: _ => some [e]
  else some a.es

theorem leafRange_prefix {m : Ext T} {a : Arr T} {l : List (Ext T)} (h : leafRange c m a = some l) : l <+: a.es := by
  unfold leafRange at h
  split at h
  · cases h; exact List.nil_prefix
  · split at h
    · split at h
      · cases h; exact List.nil_prefix
      · split at h
        · cases h
        · rename_i e r hes
          cases h
          rw [hes]
          exact ⟨r, rfl⟩
    · split at h
      · cases h; exact List.prefix_refl _
      · obtain ⟨k, _, rfl⟩ := Option.map_eq_some_iff.mp h
        exact List.take_prefix _ _

theorem arr_findDivisor_range (m : Ext T) (a : Arr T) :
    a.findDivisor c m = (leafRange c m a).map (fun l => l.findIdx? (fun e => divides c e m)) := by
  unfold Arr.findDivisor leafRange
  split
  · rfl
  · split
    · split
      · rfl
      · cases a.es with
        | nil => rfl
        | cons e l => cases h : divides c e m <;> simp [List.findIdx?_cons, h]
    · split
      · rfl
      · cases DivList.upperBound (comparer c) a.es m <;> rfl

theorem arr_findDivisorA_range {m : Ext T} {a : Arr T} {x : Ext T × ℕ} (h : x ∈ a.findDivisorA c m) :
    ∃ l, leafRange c m a = some l ∧ x.1 ∈ l := by
  unfold Arr.findDivisorA at h
  unfold leafRange
  split at h
  · cases h
  · rename_i h1
    rw [if_neg h1]
    split at h
    · rename_i h2
      rw [if_pos h2]
      cases hes : a.es with
      | nil => rw [hes] at h; cases h
      | cons e l =>
        rw [hes] at h
        obtain ⟨_, rfl⟩ := Ask.head_mem h
        exact ⟨[e], by simp, by simp⟩
    · rename_i h2
      rw [if_neg h2]
      split at h
      · rename_i h3
        rw [if_pos h3]
        exact ⟨_, rfl, List.fst_mem_of_mem_zipIdx ((Ask.scan_sublist _ _).subset h)⟩
      · rename_i h3
        rw [if_neg h3]
        cases hu : DivList.upperBound (comparer c) a.es m with
        | none => rw [hu] at h; cases h
        | some k =>
          rw [hu] at h
          exact ⟨_, rfl, List.fst_mem_of_mem_zipIdx ((Ask.scan_sublist _ _).subset h)⟩

theorem visitOne_range {p : Ext T → Bool} {proceed : List T → Flow} {got : List T} {a : Arr T} :
    a.visitOne c p proceed got = (if c.allowRemovals && a.es.isEmpty then some []
      else
        match a.es with
        | [] => none
        | e :: _ => some [e]).map (fun l => visit p proceed got l) := by
  unfold Arr.visitOne
  split
  · rfl
  · cases a.es with
    | nil => rfl
    | cons e l =>
      simp only [Option.map_some, visit]
      cases p e with
      | false => rfl
      | true =>
        simp only [Bool.not_true, Bool.false_eq_true, if_false, if_true]
        cases proceed (got ++ [e.t]) <;> rfl

theorem visitOneA_range {q p : Ext T → Bool} {go : List T → Bool} {got : List T} {a : Arr T} :
    a.visitOneA q = (if c.allowRemovals && a.es.isEmpty then some []
      else
        match a.es with
        | [] => none
        | e :: _ => some [e]).elim [] (fun l => Ask.visit q p go got l 0) := by
  unfold Arr.visitOneA
  cases a.es with
  | nil => cases c.allowRemovals <;> rfl
  | cons e l =>
    simp only [List.isEmpty_cons, Bool.and_false, Bool.false_eq_true, if_false, Option.elim_some, Ask.visit]
    cases p e <;> simp

theorem arr_findAllDivisors_range {m : Ext T} {proceed : List T → Flow} {got : List T} {a : Arr T} :
    a.findAllDivisors c m proceed got =
      (leafRange c m a).map (fun l => visit (fun e => divides c e m) proceed got l) := by
  unfold Arr.findAllDivisors leafRange
  split
  · rfl
  · split
    · exact visitOne_range
    · split
      · rfl
      · cases DivList.upperBound (comparer c) a.es m <;> rfl

theorem arr_findAllDivisorsA_range {m : Ext T} {proceed : List T → Flow} {got : List T} {a : Arr T} :
    a.findAllDivisorsA c m proceed got = (leafRange c m a).elim [] (fun l =>
      Ask.visit (fun e => asks c e m) (fun e => divides c e m) (fun l => proceed l == .go) got l 0) := by
  unfold Arr.findAllDivisorsA leafRange
  split
  · rfl
  · split
    · exact visitOneA_range
    · split
      · rfl
      · cases DivList.upperBound (comparer c) a.es m <;> rfl

theorem arr_findAllMultiples_range {m : Ext T} {proceed : List T → Flow} {got : List T} {a : Arr T} :
    a.findAllMultiples c m proceed got =
      (leafAll c a).map (fun l => visit (fun e => divides c m e) proceed got l) := by
  unfold Arr.findAllMultiples leafAll
  split
  · exact visitOne_range
  · rfl

theorem arr_findAllMultiplesA_range {m : Ext T} {proceed : List T → Flow} {got : List T} {a : Arr T} :
    a.findAllMultiplesA c m proceed got = (leafAll c a).elim [] (fun l =>
      Ask.visit (fun e => asks c m e) (fun e => divides c m e) (fun l => proceed l == .go) got l 0) := by
  unfold Arr.findAllMultiplesA leafAll
  split
  · exact visitOneA_range
  · rfl

theorem visit_flow {φ : T → Bool} {q p : Ext T → Bool} {proceed : List T → Flow}
    (hp : ∀ e, q e = true → p e = φ e.t) (hq : ∀ e, q e = false → p e = false) :
    ∀ (l : List (Ext T)) (got : List T) (i : ℕ),
    (visit p proceed got l).1 = got ++ Ask.hits φ (Ask.visit q p (fun l => proceed l == .go) got l i) ∧
    ((visit p proceed got l).2 = .go →
      Ask.AllGo φ (fun l => proceed l == .go) got (Ask.visit q p (fun l => proceed l == .go) got l i)) := by
  have allgo_cons : ∀ {got : List T} {x : Ext T × ℕ} {l : List (Ext T × ℕ)},
      (φ x.1.t = true → (proceed (got ++ [x.1.t]) == .go) = true) →
      Ask.AllGo φ (fun l => proceed l == .go) (got ++ Ask.hits φ [x]) l →
      Ask.AllGo φ (fun l => proceed l == .go) got (x :: l) := by
    intro got x l h1 h2 l₁ y l₂ h hy
    cases l₁ with
    | nil =>
      cases h
      rw [List.nil_append, Ask.hits_one, if_pos hy]
      exact h1 hy
    | cons z l₁ =>
      cases h
      have := h2 l₁ y l₂ rfl hy
      rwa [List.append_assoc, ← Ask.hits_append] at this
  intro l
  induction l with
  | nil =>
    intro got i
    refine ⟨by simp [visit, Ask.visit, Ask.hits], fun _ => ?_⟩
    intro l₁ x l₂ h
    simp [Ask.visit] at h
  | cons e l ih =>
    intro got i
    rw [Ask.visit, visit]
    cases hqe : q e with
    | false =>
      simp only [hq e hqe, Bool.false_eq_true, if_false, List.nil_append]
      exact ih _ _
    | true =>
      rw [if_pos rfl, List.singleton_append]
      cases hpe : p e with
      | false =>
        have hφ : φ e.t = false := by rw [← hp e hqe, hpe]
        simp only [Bool.false_eq_true, if_false]
        obtain ⟨g1, g2⟩ := ih got (i + 1)
        refine ⟨?_, fun hgo => allgo_cons (fun h => by rw [hφ] at h; cases h) ?_⟩
        · rw [g1, ← List.singleton_append, Ask.hits_append, Ask.hits_one]
          simp [hφ]
        · rw [Ask.hits_one]
          simp only [hφ, Bool.false_eq_true, if_false, List.append_nil]
          exact g2 hgo
      | true =>
        have hφ : φ e.t = true := by rw [← hp e hqe, hpe]
        simp only [if_true]
        cases hg : proceed (got ++ [e.t]) with
        | go =>
          obtain ⟨g1, g2⟩ := ih (got ++ [e.t]) (i + 1)
          rw [if_pos (by rfl)]
          refine ⟨?_, fun hgo => allgo_cons (fun _ => by rw [hg]; rfl) ?_⟩
          · simp only
            rw [g1, ← List.singleton_append (l := Ask.visit _ _ _ _ _ _), Ask.hits_append, Ask.hits_one, if_pos hφ,
              List.append_assoc]
          · rw [Ask.hits_one, if_pos hφ]
            exact g2 hgo
        | stop =>
          rw [if_neg (by decide), Ask.hits_one, if_pos hφ]
          exact ⟨rfl, nofun⟩
        | threw =>
          rw [if_neg (by decide), Ask.hits_one, if_pos hφ]
          exact ⟨rfl, nofun⟩

/-! ## Trees -/

theorem hits_asked {φ : T → Bool} {p : Path} {l : List (Ext T × ℕ)} : Ask.hits φ (asked p l) = Ask.hits φ l := by
  simp only [Ask.hits, asked, List.map_map]
  rfl

theorem heeds_asked {φ : T → Bool} {go : List T → Bool} {got : List T} {p : Path} {l : List (Ext T × ℕ)}
    (h : Ask.Heeds φ go got l) : Ask.Heeds φ go got (asked p l) := by
  intro l₁ x l₂ he hne hx
  obtain ⟨r₁, r, rfl, e1, e2⟩ := List.map_eq_append_iff.mp he
  obtain ⟨y, r₂, rfl, e3, e4⟩ := List.map_eq_cons_iff.mp e2
  subst e1 e3 e4
  have := h r₁ y r₂ rfl (by intro h; rw [h] at hne; exact hne rfl) hx
  rw [show Ask.hits φ (List.map (fun x => (x.1, p, x.2)) r₁ ++ [(y.1, p, y.2)]) = Ask.hits φ (r₁ ++ [y]) by
    simp only [Ask.hits, List.map_append, List.map_map]; rfl]
  exact this

theorem allGo_asked {φ : T → Bool} {go : List T → Bool} {got : List T} {p : Path} {l : List (Ext T × ℕ)}
    (h : Ask.AllGo φ go got l) : Ask.AllGo φ go got (asked p l) := by
  intro l₁ x l₂ he hx
  obtain ⟨r₁, r, rfl, e1, e2⟩ := List.map_eq_append_iff.mp he
  obtain ⟨y, r₂, rfl, e3, e4⟩ := List.map_eq_cons_iff.mp e2
  subst e1 e3 e4
  have := h r₁ y r₂ rfl hx
  rw [show Ask.hits φ (List.map (fun x => (x.1, p, x.2)) r₁ ++ [(y.1, p, y.2)]) = Ask.hits φ (r₁ ++ [y]) by
    simp only [Ask.hits, List.map_append, List.map_map]; rfl]
  exact this

/-- What is delivered are the entries asked about with the answer yes, and there is no question after the output said
to stop. -/
theorem fold_heeds {φ : T → Bool} {q p : Ext T → Bool} {proceed : List T → Flow} {R : Arr T → Option (List (Ext T))}
    {f : List T → Arr T → Option (List T × Flow)} {g : List T → Arr T → List (Ext T × ℕ)} {root : Node T}
    (hp : ∀ e, q e = true → p e = φ e.t) (hq : ∀ e, q e = false → p e = false)
    (hf : ∀ got a, f got a = (R a).map (fun l => visit p proceed got l))
    (hg : ∀ got a, g got a = (R a).elim [] (fun l => Ask.visit q p (fun l => proceed l == .go) got l 0)) :
    ∀ (l : List Path) (got got' : List T) (fl : Flow), foldAct (actVisit f root) got l = some (got', fl) →
      got' = got ++ Ask.hits φ (foldLog (actVisit f root) (gVisit g root) got l) ∧
      Ask.Heeds φ (fun l => proceed l == .go) got (foldLog (actVisit f root) (gVisit g root) got l) := by
  intro l
  induction l with
  | nil =>
    intro got got' fl h
    cases h
    exact ⟨by simp [foldLog, Ask.hits], Ask.heeds_nil _⟩
  | cons x l ih =>
    intro got got' fl h
    rw [foldAct] at h
    rw [foldLog]
    cases ha : root.arrAt x with
    | none => rw [show actVisit f root x got = none by simp [actVisit, ha]] at h; cases h
    | some a =>
      have e1 : actVisit f root x got = f got a := by simp [actVisit, ha]
      have e2 : gVisit g root x got = asked x (g got a) := by simp [gVisit, ha]
      rw [e1, hf] at h
      rw [e1, e2, hf, hg]
      cases hR : R a with
      | none => rw [hR] at h; cases h
      | some r =>
        rw [hR] at h
        simp only [Option.map_some, Option.elim_some] at h ⊢
        obtain ⟨v1, v2⟩ := visit_flow (proceed := proceed) hp hq r got 0
        have v3 := Ask.visit_heeds (go := fun l => proceed l == .go) hp hq r got 0
        rcases hv : visit p proceed got r with ⟨got1, f1⟩
        rw [hv] at h v1 v2
        simp only at v1
        cases f1 with
        | go =>
          obtain ⟨g1, g2⟩ := ih _ _ _ h
          refine ⟨?_, ?_⟩
          · simp only
            rw [g1, Ask.hits_append, hits_asked, v1, List.append_assoc]
          · refine Ask.heeds_append (allGo_asked (v2 rfl)) ?_
            rw [hits_asked, ← v1]
            exact g2
        | stop =>
          cases h
          simp only [List.append_nil]
          exact ⟨by rw [hits_asked, ← v1], heeds_asked v3⟩
        | threw =>
          cases h
          simp only [List.append_nil]
          exact ⟨by rw [hits_asked, ← v1], heeds_asked v3⟩

theorem visit_prefix {p : Ext T → Bool} {proceed : List T → Flow} : ∀ (l : List (Ext T)) (got : List T),
    got <+: (visit p proceed got l).1 := by
  intro l
  induction l with
  | nil => intro got; exact List.prefix_refl _
  | cons e l ih =>
    intro got
    rw [visit]
    split
    · split
      · exact (List.prefix_append _ _).trans (ih _)
      · exact List.prefix_append _ _
      · exact List.prefix_append _ _
    · exact ih _

theorem visit_hit {p : Ext T → Bool} {proceed : List T → Flow} (ht : ∀ e, p e = true → e.t = t) :
    ∀ {l : List (Ext T)}, (∃ e ∈ l, p e = true) → (visit p proceed [] l).1.head? = some t := by
  intro l
  induction l with
  | nil => rintro ⟨e, h, _⟩; cases h
  | cons e l ih =>
    rintro ⟨x, hx, hp⟩
    rw [visit]
    cases he : p e with
    | true =>
      simp only [if_true, List.nil_append, ht e he]
      split
      · exact DivList.head_of_prefix (visit_prefix _ _)
      · rfl
      · rfl
    | false =>
      rcases List.mem_cons.mp hx with rfl | hx
      · rw [hp] at he; cases he
      · simp only [Bool.false_eq_true, if_false]
        exact ih ⟨x, hx, hp⟩

theorem visit_miss {p : Ext T → Bool} {proceed : List T → Flow} : ∀ {l : List (Ext T)}, (∀ e ∈ l, p e = false) →
    visit p proceed [] l = ([], .go) := by
  intro l
  induction l with
  | nil => intro _; rfl
  | cons e l ih =>
    intro h
    rw [visit]
    simp only [h e (by simp), Bool.false_eq_true, if_false]
    exact ih (fun x hx => h x (List.mem_cons_of_mem _ hx))

theorem fold_prefix {p : Ext T → Bool} {proceed : List T → Flow} {R : Arr T → Option (List (Ext T))}
    {f : List T → Arr T → Option (List T × Flow)} {root : Node T}
    (hf : ∀ got a, f got a = (R a).map (fun l => visit p proceed got l)) :
    ∀ (l : List (Path × Arr T)) (got : List T), (∀ x ∈ l, root.arrAt x.1 = some x.2) → (∀ x ∈ l, (R x.2).isSome) →
      ∃ got' fl, foldAct (actVisit f root) got (l.map Prod.fst) = some (got', fl) ∧ got <+: got' := by
  intro l
  induction l with
  | nil => intro got _ _; exact ⟨got, .go, rfl, List.prefix_refl _⟩
  | cons x l ih =>
    intro got h1 h2
    obtain ⟨r, hr⟩ := Option.isSome_iff_exists.mp (h2 x (by simp))
    have hact : actVisit f root x.1 got = some (visit p proceed got r) := by
      simp [actVisit, h1 x (by simp), hf, hr]
    have hpre := visit_prefix (p := p) (proceed := proceed) r got
    rw [List.map_cons, foldAct, hact]
    rcases hv : visit p proceed got r with ⟨g, fl⟩
    rw [hv] at hpre
    cases fl with
    | go =>
      obtain ⟨g', fl, e1, e2⟩ := ih g (fun y hy => h1 y (List.mem_cons_of_mem _ hy))
        (fun y hy => h2 y (List.mem_cons_of_mem _ hy))
      exact ⟨g', fl, e1, hpre.trans e2⟩
    | stop => exact ⟨g, .stop, rfl, hpre⟩
    | threw => exact ⟨g, .threw, rfl, hpre⟩

theorem fold_visit_hit {p : Ext T → Bool} {proceed : List T → Flow} {R : Arr T → Option (List (Ext T))}
    {f : List T → Arr T → Option (List T × Flow)} {root : Node T} (ht : ∀ e, p e = true → e.t = t)
    (hf : ∀ got a, f got a = (R a).map (fun l => visit p proceed got l)) :
    ∀ (l : List (Path × Arr T)), (∀ x ∈ l, root.arrAt x.1 = some x.2) → (∀ x ∈ l, (R x.2).isSome) →
      (∃ x ∈ l, ∃ r, R x.2 = some r ∧ ∃ e ∈ r, p e = true) →
      ∃ got' fl, foldAct (actVisit f root) [] (l.map Prod.fst) = some (t :: got', fl) := by
  intro l
  induction l with
  | nil => rintro _ _ ⟨x, h, _⟩; cases h
  | cons x l ih =>
    rintro h1 h2 ⟨y, hy, r', hr', hh⟩
    obtain ⟨r, hr⟩ := Option.isSome_iff_exists.mp (h2 x (by simp))
    have hact : actVisit f root x.1 [] = some (visit p proceed [] r) := by
      simp [actVisit, h1 x (by simp), hf, hr]
    rw [List.map_cons, foldAct, hact]
    by_cases hex : ∃ e ∈ r, p e = true
    · have hhead := visit_hit (proceed := proceed) ht hex
      rcases hv : visit p proceed [] r with ⟨g, fl⟩
      rw [hv] at hhead
      cases g with
      | nil => cases hhead
      | cons z g =>
        cases hhead
        cases fl with
        | go =>
          obtain ⟨g', fl, e1, e2⟩ := fold_prefix hf l (t :: g) (fun y hy => h1 y (List.mem_cons_of_mem _ hy))
            (fun y hy => h2 y (List.mem_cons_of_mem _ hy))
          obtain ⟨r2, rfl⟩ := e2
          exact ⟨_, fl, e1⟩
        | stop => exact ⟨g, .stop, rfl⟩
        | threw => exact ⟨g, .threw, rfl⟩
    · have hno : ∀ e ∈ r, p e = false := by
        intro e he
        cases hpe : p e with
        | false => rfl
        | true => exact absurd ⟨e, he, hpe⟩ hex
      rw [visit_miss hno]
      refine ih (fun y hy => h1 y (List.mem_cons_of_mem _ hy)) (fun y hy => h2 y (List.mem_cons_of_mem _ hy)) ?_
      rcases List.mem_cons.mp hy with rfl | hy
      · rw [hr] at hr'
        cases hr'
        exact absurd hh hex
      · exact ⟨y, hy, r', hr', hh⟩

theorem fold_divisor_hit {m : Ext T} {root : Node T} (ht : ∀ e, divides c e m = true → e.t = t) :
    ∀ (l : List (Path × Arr T)), (∀ x ∈ l, root.arrAt x.1 = some x.2) → (∀ x ∈ l, (leafRange c m x.2).isSome) →
      (∃ x ∈ l, ∃ r, leafRange c m x.2 = some r ∧ ∃ e ∈ r, divides c e m = true) →
      ∃ p j a e, foldAct (actDivisor c m root) none (l.map Prod.fst) = some (some (p, j), .stop) ∧
        root.arrAt p = some a ∧ a.es[j]? = some e ∧ e.t = t := by
  intro l
  induction l with
  | nil => rintro _ _ ⟨x, h, _⟩; cases h
  | cons x l ih =>
    rintro h1 h2 ⟨y, hy, r', hr', hh⟩
    obtain ⟨r, hr⟩ := Option.isSome_iff_exists.mp (h2 x (by simp))
    have hfd : x.2.findDivisor c m = some (r.findIdx? (fun e => divides c e m)) := by
      rw [arr_findDivisor_range, hr]; rfl
    by_cases hex : ∃ e ∈ r, divides c e m = true
    · obtain ⟨e0, he0, hd0⟩ := hex
      obtain ⟨j, e, g1, g2, g3⟩ := Ask.find_hit (p := fun e => divides c e m) he0 hd0 ht
      have hact : actDivisor c m root x.1 none = some (some (x.1, j), .stop) := by
        rw [actDivisor, h1 x (by simp)]
        simp only [hfd, g1]
      refine ⟨x.1, j, x.2, e, ?_, h1 x (by simp), ?_, g3⟩
      · rw [List.map_cons, foldAct, hact]
      · obtain ⟨r2, hr2⟩ := leafRange_prefix hr
        rw [← hr2, List.getElem?_append_left (DivList.lt_of_getElem? g2)]
        exact g2
    · have hno : r.findIdx? (fun e => divides c e m) = none := by
        rw [List.findIdx?_eq_none_iff]
        intro e he
        cases hpe : divides c e m with
        | false => rfl
        | true => exact absurd ⟨e, he, hpe⟩ hex
      have hact : actDivisor c m root x.1 none = some (none, .go) := by
        rw [actDivisor, h1 x (by simp)]
        simp only [hfd, hno]
      rw [List.map_cons, foldAct, hact]
      refine ih (fun y hy => h1 y (List.mem_cons_of_mem _ hy)) (fun y hy => h2 y (List.mem_cons_of_mem _ hy)) ?_
      rcases List.mem_cons.mp hy with rfl | hy
      · rw [hr] at hr'
        cases hr'
        exact absurd hh hex
      · exact ⟨y, hy, r', hr', hh⟩

theorem visited_with {d : T → T → Bool} {k : Kind T} (n : Node T) : ∀ p : Path,
    visited (c.withDivides d) k p n = visited c k p n := by
  induction n with
  | entries a => intro p; rfl
  | split mask var exp le gt ih1 ih2 =>
    intro p
    cases k with
    | divisors m => simp only [visited, ih1, ih2]; rfl
    | multiples m => simp only [visited, ih1, ih2]; rfl
    | all => simp only [visited, ih1, ih2]

theorem hit_t {d : T → T → Bool} {m : Ext T} (hd : ∀ e, d e m.t = true ↔ e = t) {e : Ext T}
    (h : divides (c.withDivides d) e m = true) : e.t = t := by
  cases ha : asks (c.withDivides d) e m with
  | false => rw [divides_of_not ha] at h; cases h
  | true => rw [divides_of_asks ha] at h; exact (hd _).mp h

theorem hit_of {d : T → T → Bool} {m : Ext T} (hd : ∀ e, d e m.t = true ↔ e = t) {e : Ext T}
    (ha : asks c e m = true) (ht : e.t = t) : divides (c.withDivides d) e m = true := by
  rw [divides_of_asks (c := c.withDivides d) ha]
  exact (hd _).mpr ht

theorem hit_t' {d : T → T → Bool} {m : Ext T} (hd : ∀ e, d m.t e = true ↔ e = t) {e : Ext T}
    (h : divides (c.withDivides d) m e = true) : e.t = t := by
  cases ha : asks (c.withDivides d) m e with
  | false => rw [divides_of_not ha] at h; cases h
  | true => rw [divides_of_asks ha] at h; exact (hd _).mp h

theorem hit_of' {d : T → T → Bool} {m : Ext T} (hd : ∀ e, d m.t e = true ↔ e = t) {e : Ext T}
    (ha : asks c m e = true) (ht : e.t = t) : divides (c.withDivides d) m e = true := by
  rw [divides_of_asks (c := c.withDivides d) ha]
  exact (hd _).mpr ht

theorem leafRange_some (hl : c.Lawful) (hc : Calc c bits) {m : Ext T} (hm : IsExt c bits m) {a : Arr T}
    (ha : ArrOk c bits a) (hn : c.allowRemovals = false → a.es ≠ []) : (leafRange c m a).isSome := by
  obtain ⟨r, h, _⟩ := arr_findDivisor_ok hl hc ha hn hm
  rw [arr_findDivisor_range] at h
  cases hr : leafRange c m a with
  | none => rw [hr] at h; cases h
  | some l => rfl

theorem leafAll_some {a : Arr T} (hn : c.allowRemovals = false → a.es ≠ []) : (leafAll c a).isSome := by
  unfold leafAll
  split
  · split
    · rfl
    · rename_i h
      cases hes : a.es with
      | nil =>
        rw [hes] at h
        cases hr : c.allowRemovals with
        | false => exact absurd hes (hn hr)
        | true => rw [hr] at h; exact absurd rfl h
      | cons e l => rfl
  · rfl

/-- If nothing but an entry asked about divides, the tree finds it. -/
theorem tree_findDivisor_hit (hl : c.Lawful) (hc : Calc c bits) {m : Ext T} (hm : IsExt c bits m) {tr : Tree T}
    (h : tr.Ok c bits) (htmp : tr.tmp = []) {x : Ext T × Ptr} (hx : x ∈ tr.findDivisorA c m) {d : T → T → Bool}
    (hd : ∀ e, d e m.t = true ↔ e = x.1.t) :
    ∃ p, tr.findDivisor (c.withDivides d) m = some (some p, tr) ∧ tr.deref p = some x.1.t := by
  have hask := (tree_findDivisor_asks hl hc hm h htmp).2.1 x hx
  rcases tr with ⟨root, tmp⟩
  cases htmp
  cases root with
  | none => cases hx
  | some n =>
    obtain ⟨r, f, tmp, hs⟩ := tree_findDivisorA hl hc hm h
    have hlog : Tree.findDivisorA c ⟨some n, []⟩ m = foldLog (actDivisor c m n) (fun p _ => gDivisor c m n p) none
        ((visited c (.divisors m) [] n).map Prod.fst) := by
      unfold Tree.findDivisorA
      simp only [hs]
    rw [hlog] at hx
    obtain ⟨p, hp, _, hx⟩ := foldLog_mem _ _ hx
    obtain ⟨y, hy, rfl⟩ := List.mem_map.mp hp
    have hya := visited_arrAt n [] (sub_nil n) y hy
    unfold gDivisor at hx
    rw [hya] at hx
    obtain ⟨l, hl1, hl2⟩ := arr_findDivisorA_range (asked_fst hx).2
    have hok : ∀ z ∈ visited c (.divisors m) [] n, (leafRange c m z.2).isSome := fun z hz =>
      leafRange_some hl hc hm (visited_wf n [] (h.wf n rfl) z hz) (fun ha => visited_ne n [] (h.ne ha n rfl) z hz)
    obtain ⟨q, j, a, e, f1, f2, f3, f4⟩ := fold_divisor_hit (c := c.withDivides d) (m := m) (root := n)
      (t := x.1.t) (fun e he => hit_t hd he) (visited c (.divisors m) [] n) (visited_arrAt n [] (sub_nil n)) hok
      ⟨y, hy, l, hl1, x.1, hl2, hit_of hd hask rfl⟩
    obtain ⟨tmp, g1, g2⟩ := search_eq (c := c.withDivides d) (k := .divisors m) (by rw [visited_with]; exact f1)
    refine ⟨(q, j), ?_, ?_⟩
    · simp [Tree.findDivisor, g1, g2 (by decide)]
    · simp [Tree.deref, f2, f3, f4]

/-- An enumeration: what it delivers, no questions after the end, and that each question matters. -/
theorem tree_enumerate_matters {tr : Tree T} (h : tr.Ok c bits) (htmp : tr.tmp = []) {k : Kind T}
    {proceed : List T → Flow} {φ : T → Bool} {q p : Ext T → Bool} {R : Arr T → Option (List (Ext T))}
    {f : List T → Arr T → Option (List T × Flow)} {g : List T → Arr T → List (Ext T × ℕ)}
    (hp : ∀ e, q e = true → p e = φ e.t) (hq : ∀ e, q e = false → p e = false)
    (hf : ∀ got a, f got a = (R a).map (fun l => visit p proceed got l))
    (hg : ∀ got a, g got a = (R a).elim [] (fun l => Ask.visit q p (fun l => proceed l == .go) got l 0))
    (hR : ∀ a, ArrOk c bits a → (c.allowRemovals = false → a.es ≠ []) → (R a).isSome) :
    (∃ fl tr', tr.enumerate c k f = some (Ask.hits φ (tr.enumerateA c k f g), fl, tr')) ∧
    Ask.Heeds φ (fun l => proceed l == .go) [] (tr.enumerateA c k f g) ∧
    ∀ x ∈ tr.enumerateA c k f g, ∀ (d : T → T → Bool) (p' : Ext T → Bool) (f' : List T → Arr T → Option (List T × Flow)),
      (∀ e, p' e = true → e.t = x.1.t) → (q x.1 = true → p' x.1 = true) →
      (∀ got a, f' got a = (R a).map (fun l => visit p' proceed got l)) →
      ∃ got fl tr', tr.enumerate (c.withDivides d) k f' = some (x.1.t :: got, fl, tr') := by
  rcases tr with ⟨root, tmp⟩
  cases htmp
  cases root with
  | none => exact ⟨⟨_, _, rfl⟩, Ask.heeds_nil _, nofun⟩
  | some n =>
    have hok : ∀ z ∈ visited c k [] n, (R z.2).isSome := fun z hz =>
      hR _ (visited_wf n [] (h.wf n rfl) z hz) (fun ha => visited_ne n [] (h.ne ha n rfl) z hz)
    have harr := visited_arrAt (c := c) (k := k) n [] (sub_nil n)
    obtain ⟨got', fl, hfold, -⟩ := fold_prefix hf (visited c k [] n) [] harr hok
    have hA := fun p s log => actVisitA_eq (f := f) (g := g) (root := n) p s log
    obtain ⟨tmp, g1, -⟩ := search_eq (fold_log hA _ _ [] _ _ hfold)
    rw [List.nil_append] at g1
    have hlog : Tree.enumerateA c ⟨some n, []⟩ k f g = foldLog (actVisit f n) (gVisit g n) []
        ((visited c k [] n).map Prod.fst) := by
      unfold Tree.enumerateA
      simp only [g1]
    obtain ⟨e1, e2⟩ := fold_heeds hp hq hf hg _ _ _ _ hfold
    rw [List.nil_append] at e1
    obtain ⟨tmp2, s1, -⟩ := search_eq hfold
    rw [hlog]
    refine ⟨⟨fl, ⟨some n, tmp2⟩, by simp [Tree.enumerate, s1, e1]⟩, e2, ?_⟩
    intro x hx d p' f' ht hpx hf'
    obtain ⟨pth, hpth, got, hx⟩ := foldLog_mem _ _ hx
    obtain ⟨y, hy, rfl⟩ := List.mem_map.mp hpth
    unfold gVisit at hx
    rw [harr y hy] at hx
    obtain ⟨r, hr⟩ := Option.isSome_iff_exists.mp (hok y hy)
    have hx2 := (asked_fst hx).2
    rw [hg, hr] at hx2
    have hqx : q x.1 = true := Ask.visit_mem _ _ _ _ hx2
    have hmem : x.1 ∈ r := List.fst_mem_of_mem_zipIdx ((Ask.visit_sublist _ _ _).subset hx2)
    obtain ⟨got2, fl2, hfold2⟩ := fold_visit_hit ht hf' (visited c k [] n) harr hok ⟨y, hy, r, hr, x.1, hmem, hpx hqx⟩
    obtain ⟨tmp3, s2, -⟩ := search_eq (c := c.withDivides d) (k := k) (by rw [visited_with]; exact hfold2)
    exact ⟨got2, fl2, ⟨some n, tmp3⟩, by simp [Tree.enumerate, s2]⟩

end Verif.KDTree
