import Verif.KDAssert
import Verif.KDStateProofs

/-!
# Lemmas on the debug builds of the KD trees

Arrays first: where the release build is defined, so that it ends without an exception, no assertion
fails.
-/

namespace Verif.KDTree

open Verif.DivMask (Ext Bits Mask combineAnd canDivide canDivide_iff maxMask)
open Verif.Dbg

variable {T : Type} {c : Conf T} {bits : Bits}

/-! ## Arrays -/

theorem pushBackD_of {a a' : Arr T} {e : Ext T} (h : a.pushBack c e = some a') : a.pushBackD c e = .ok a' := by
  have h' := h
  unfold Arr.pushBack at h'
  split at h'
  · rename_i hlt
    rw [Arr.pushBackD, assert_of (by simpa using hlt), ok_bind, h, lift_some]
  · cases h'

theorem popBackD_of {a a' : Arr T} (h : a.popBack = some a') : a.popBackD = .ok a' := by
  have h' := h
  unfold Arr.popBack at h'
  split at h'
  · cases h'
  · rename_i hne
    rw [Arr.popBackD, assert_of (by simpa using hne), ok_bind, h, lift_some]

theorem pushAllD_of : ∀ {l : List (Ext T)} {a a' : Arr T}, a.pushAll c l = some a' → a.pushAllD c l = .ok a' := by
  intro l
  induction l with
  | nil => intro a a' h; cases h; rfl
  | cons e l ih =>
    intro a a' h
    rw [Arr.pushAll] at h
    cases hp : a.pushBack c e with
    | none => rw [hp] at h; cases h
    | some b =>
      rw [hp] at h
      rw [Arr.pushAllD, pushBackD_of hp, ok_bind]
      exact ih h

theorem pushAll_length : ∀ {l : List (Ext T)} {a a' : Arr T}, a.es.length ≤ c.leafSize →
    a.pushAll c l = some a' → a.es.length + l.length ≤ c.leafSize := by
  intro l
  induction l with
  | nil => intro a a' h0 _; simpa using h0
  | cons e l ih =>
    intro a a' h0 h
    rw [Arr.pushAll, Arr.pushBack] at h
    by_cases hlt : a.es.length < c.leafSize
    · rw [if_pos hlt] at h
      have := ih (by simp; omega) h
      simp at this ⊢
      omega
    · rw [if_neg hlt] at h
      cases h

theorem ofRangeD_of {l : List (Ext T)} {a : Arr T} (h : Arr.ofRange c l = some a) : Arr.ofRangeD c l = .ok a := by
  unfold Arr.ofRange at h
  cases hp : (Arr.empty : Arr T).pushAll c l with
  | none => rw [hp] at h; cases h
  | some b =>
    rw [hp] at h
    cases h
    have hlen := pushAll_length (by simp [Arr.empty]) hp
    rw [Arr.ofRangeD, assert_of (by simpa [Arr.empty] using hlen), ok_bind, pushAllD_of hp, ok_bind]
    rfl

theorem insertAtD_of {a a' : Arr T} {it : ℕ} {e : Ext T} (hlt : a.es.length < c.leafSize)
    (h : a.insertAt c it e = some a') : a.insertAtD c it e = .ok a' := by
  rw [Arr.insertAtD, assert_of (by simpa using hlt), ok_bind]
  unfold Arr.insertAt at h
  by_cases hit : it = a.es.length
  · rw [if_pos hit] at h ⊢
    exact pushBackD_of h
  · rw [if_neg hit] at h ⊢
    cases hb : a.es.getLast? with
    | none => rw [hb] at h; cases h
    | some b =>
      rw [hb] at h
      simp only at h
      have hne : a.es ≠ [] := by intro h0; rw [h0] at hb; cases hb
      have hbk : a.backD = .ok b := by
        rw [Arr.backD, assert_of (by simpa using hne), ok_bind, hb, lift_some]
      cases hp : a.pushBack c b with
      | none => rw [hp] at h; cases h
      | some a1 =>
        rw [hp] at h
        simp only at h
        cases hs : shiftUp a1.es (a1.es.length - 1) (a1.es.length - 1 - it) with
        | none => rw [hs] at h; cases h
        | some es =>
          rw [hs] at h
          simp only at h
          rw [hbk, ok_bind, pushBackD_of hp, ok_bind, hs, lift_some, ok_bind, setAt, h, lift_some]

theorem insertD_of {a a' : Arr T} {e : Ext T} (hlt : a.es.length < c.leafSize) (h : a.insert c e = some a') :
    a.insertD c e = .ok a' := by
  rw [Arr.insertD, assert_of (by simpa using hlt), ok_bind]
  unfold Arr.insert at h
  by_cases hs : (!c.sortOnInsert) = true
  · rw [if_pos hs] at h ⊢
    exact pushBackD_of h
  · rw [if_neg hs] at h ⊢
    cases hu : DivList.upperBound (comparer c) a.es e with
    | none => rw [hu] at h; cases h
    | some it =>
      rw [hu] at h
      rw [lift_some, ok_bind]
      exact insertAtD_of hlt h

theorem removeOneD_of (m : Ext T) (a : Arr T) : ∀ l, l = a.es → ∃ r, a.removeOneD c m l = .ok r := by
  intro l hl
  match l with
  | [] => exact ⟨_, rfl⟩
  | e :: l' =>
    rw [Arr.removeOneD]
    split
    · exact ⟨_, rfl⟩
    · have hne : a.es ≠ [] := by rw [← hl]; simp
      have hp : a.popBack = some { a with es := a.es.dropLast } := by rw [Arr.popBack, if_neg hne]
      rw [popBackD_of hp, ok_bind]
      exact ⟨_, rfl⟩

theorem arr_removeMultiplesD (ha : c.allowRemovals = true) (m : Ext T) {a : Arr T} {r : Arr T × List T × ℕ}
    (h : a.removeMultiples c m = some r) : a.removeMultiplesD c m = .ok r := by
  rw [Arr.removeMultiplesD, assert_of ha, ok_bind]
  unfold Arr.removeMultiples at h
  by_cases h1 : c.leafSize = 1
  · rw [if_pos h1] at h ⊢
    rcases a with ⟨es, mask⟩
    cases es with
    | nil => cases h; rfl
    | cons e l =>
      rw [Arr.removeOneD]
      simp only at h
      by_cases hd : (!divides c m e) = true
      · rw [if_pos hd] at h ⊢
        cases h; rfl
      · rw [if_neg hd] at h ⊢
        cases hp : Arr.popBack (⟨e :: l, mask⟩ : Arr T) with
        | none => rw [hp] at h; cases h
        | some a' =>
          rw [hp] at h
          cases h
          rw [popBackD_of hp, ok_bind]
          rfl
  · rw [if_neg h1] at h ⊢
    cases hf : a.es.findIdx? (fun e => divides c m e) with
    | none => rw [hf] at h; cases h; rfl
    | some it =>
      rw [hf] at h
      simp only at h
      have hit : it < a.es.length := by
        have := (List.findIdx?_eq_some_iff_getElem.mp hf)
        exact this.1
      rw [Arr.removeFromD, List.getElem?_eq_getElem hit, lift_some, ok_bind]
      rw [List.getElem?_eq_getElem hit] at h
      simp only at h
      obtain ⟨l', g1, g2, g3⟩ := compact_spec (fun e => divides c m e) (a.es.length - (it + 1)) a.es (it + 1) it
        [a.es[it].t] (by omega) (by omega)
      rw [g1] at h
      simp only at h
      have hle : ((a.es.drop (it + 1)).filter (fun e => !divides c m e)).length ≤ a.es.length - (it + 1) := by
        refine (List.length_filter_le _ _).trans ?_
        rw [List.length_drop]
      rw [g1, lift_some, ok_bind]
      simp only
      obtain ⟨k, hk⟩ : ∃ k, l'.length = it + ((a.es.drop (it + 1)).filter (fun e => !divides c m e)).length + k + 1 :=
        ⟨l'.length - (it + ((a.es.drop (it + 1)).filter (fun e => !divides c m e)).length) - 1, by omega⟩
      have hpop := popLoop_eq k ({ a with es := l' } : Arr T) _ hk
      rw [assert_of (by simp; omega), ok_bind]
      rw [hpop] at h ⊢
      cases h
      simp only [caught]
      rw [ok_bind, assert_of (by simp; omega), ok_bind]
      rfl

theorem arr_removeElementD (m : T) {a : Arr T} {r : Bool × Arr T} (h : a.removeElement c m = some r) :
    a.removeElementD c m = .ok r := by
  unfold Arr.removeElement at h
  unfold Arr.removeElementD
  cases hf : a.es.findIdx? (fun e => sameExponents c m e.t) with
  | none => rw [hf] at h; cases h; rfl
  | some it =>
    rw [hf] at h
    simp only at h
    rw [Arr.removeAtD]
    cases hs : shiftDown a.es it (a.es.length - 1 - it) with
    | none => rw [hs] at h; cases h
    | some l =>
      rw [hs] at h
      simp only at h
      rw [lift_some, ok_bind]
      cases hp : Arr.popBack ({ a with es := l } : Arr T) with
      | none => rw [hp] at h; cases h
      | some a' =>
        rw [hp] at h
        cases h
        rw [popBackD_of hp, ok_bind]
        rfl

theorem oneD_of {a : Arr T} (h : c.leafSize = 1 → c.allowRemovals = false → a.es ≠ []) : a.oneD c = .ok () := by
  unfold Arr.oneD whenD
  by_cases h1 : c.leafSize = 1
  · rw [if_pos (by simpa using h1)]
    apply assert_of
    cases ha : c.allowRemovals with
    | true => rfl
    | false => simpa using h h1 ha
  · rw [if_neg (by simpa using h1)]

theorem visitOne_ne {a : Arr T} {p : Ext T → Bool} {proceed : List T → Flow} {got : List T} {r : List T × Flow}
    (h : a.visitOne c p proceed got = some r) : c.allowRemovals = false → a.es ≠ [] := by
  intro ha h0
  unfold Arr.visitOne at h
  rw [ha, h0] at h
  cases h

theorem arr_findDivisorD {m : Ext T} {a : Arr T} {r : Option ℕ} (h : a.findDivisor c m = some r) :
    a.findDivisorD c m = .ok r := by
  unfold Arr.findDivisorD
  have h' := h
  unfold Arr.findDivisor at h'
  by_cases hm : a.maskRejects c m = true
  · rw [if_pos hm] at h' ⊢
    cases h'; rfl
  · rw [if_neg hm] at h' ⊢
    rw [oneD_of ?_, ok_bind, h, lift_some]
    intro h1 ha h0
    rw [if_pos h1, ha, h0] at h'
    cases h'

theorem arr_findAllDivisorsD {m : Ext T} {a : Arr T} {proceed : List T → Flow} {got : List T} {r : List T × Flow}
    (h : a.findAllDivisors c m proceed got = some r) : a.findAllDivisorsD c m proceed got = .ok r := by
  unfold Arr.findAllDivisorsD
  have h' := h
  unfold Arr.findAllDivisors at h'
  by_cases hm : a.maskRejects c m = true
  · rw [if_pos hm] at h' ⊢
    cases h'; rfl
  · rw [if_neg hm] at h' ⊢
    rw [oneD_of ?_, ok_bind, h, lift_some]
    intro h1
    rw [if_pos h1] at h'
    exact visitOne_ne h'

theorem arr_findAllMultiplesD {m : Ext T} {a : Arr T} {proceed : List T → Flow} {got : List T} {r : List T × Flow}
    (h : a.findAllMultiples c m proceed got = some r) : a.findAllMultiplesD c m proceed got = .ok r := by
  unfold Arr.findAllMultiplesD
  have h' := h
  unfold Arr.findAllMultiples at h'
  rw [oneD_of ?_, ok_bind, h, lift_some]
  intro h1
  rw [if_pos h1] at h'
  exact visitOne_ne h'

theorem arr_forAllD {a : Arr T} {proceed : List T → Flow} {got : List T} {r : List T × Flow}
    (h : a.forAll c proceed got = some r) : a.forAllD c proceed got = .ok r := by
  unfold Arr.forAllD
  have h' := h
  unfold Arr.forAll at h'
  rw [oneD_of ?_, ok_bind, h, lift_some]
  intro h1
  rw [if_pos h1] at h'
  exact visitOne_ne h'

theorem splitD_of {α : Type} {f : α → T} {l : List α} {extra : Option α} {hint : Option ℕ} {r : Option (Split α)}
    (hl : l ≠ []) (h : split c f l extra hint = some r) : splitD c f l extra hint = caught r := by
  rw [splitD, assert_of (by simpa using hl), ok_bind, h, lift_some, ok_bind]

/-! ## Masks down the tree -/

theorem canDivide_max (m : Mask) : canDivide m maxMask = true := by
  simp [canDivide, maxMask]

theorem canDivide_and {m a b : Mask} (h1 : canDivide m a = true) (h2 : canDivide m b = true) :
    canDivide m (combineAnd a b) = true := by
  rw [canDivide_iff] at *
  intro k hk hm
  unfold combineAnd
  rw [BitVec.getLsbD_and, h1 k hk hm, h2 k hk hm]
  rfl

theorem canDivide_lower {m a b : Mask} (h1 : canDivide m a = true) (h2 : canDivide m b = true) :
    canDivide m (lower c a b) = true := by
  unfold lower
  split
  · exact canDivide_and h1 h2
  · exact h1

theorem canDivide_fold {m : Mask} : ∀ (ms : List Mask) (a : Mask), canDivide m a = true →
    (∀ x ∈ ms, canDivide m x = true) → canDivide m (ms.foldl combineAnd a) = true := by
  intro ms
  induction ms with
  | nil => intro a h _; exact h
  | cons x ms ih =>
    intro a h hx
    exact ih _ (canDivide_and h (hx x List.mem_cons_self)) (fun y hy => hx y (List.mem_cons_of_mem _ hy))

theorem canDivide_lowerBound {m : Mask} {ms : List Mask} (h : ∀ x ∈ ms, canDivide m x = true) :
    canDivide m (DivMask.lowerBound ms) = true := canDivide_fold ms maxMask (canDivide_max m) h

/-- A mask that can divide those of all entries can divide that of the array, for arrays made in these
ways. -/
theorem pushAll_mask {m : Mask} : ∀ {l : List (Ext T)} {a a' : Arr T}, a.pushAll c l = some a' →
    canDivide m a.mask = true → (∀ e ∈ l, canDivide m e.mask = true) → canDivide m a'.mask = true := by
  intro l
  induction l with
  | nil => intro a a' h h1 _; cases h; exact h1
  | cons e l ih =>
    intro a a' h h1 h2
    rw [Arr.pushAll, Arr.pushBack] at h
    by_cases hlt : a.es.length < c.leafSize
    · rw [if_pos hlt] at h
      exact ih h (canDivide_lower h1 (h2 e List.mem_cons_self)) (fun x hx => h2 x (List.mem_cons_of_mem _ hx))
    · rw [if_neg hlt] at h; cases h

theorem ofRange_mask {m : Mask} {l : List (Ext T)} {a : Arr T} (h : Arr.ofRange c l = some a)
    (h2 : ∀ e ∈ l, canDivide m e.mask = true) : canDivide m a.mask = true := by
  unfold Arr.ofRange at h
  cases hp : (Arr.empty : Arr T).pushAll c l with
  | none => rw [hp] at h; cases h
  | some b =>
    rw [hp] at h
    cases h
    have h0 : canDivide m (Arr.empty : Arr T).mask = true := by rw [Arr.empty]; exact canDivide_max m
    exact pushAll_mask (a' := b) hp h0 h2

theorem recalculate_mask {m : Mask} {es : List (Ext T)} {k : Mask} (hk : canDivide m k = true)
    (h2 : ∀ e ∈ es, canDivide m e.mask = true) : canDivide m (Arr.recalculate c ⟨es, k⟩).mask = true := by
  unfold Arr.recalculate
  split
  · exact hk
  · refine canDivide_lowerBound ?_
    intro x hx
    obtain ⟨e, he, rfl⟩ := List.mem_map.mp hx
    exact h2 e he

theorem insert_mask {m : Mask} {a a' : Arr T} {x : Ext T} (h : a.insert c x = some a')
    (h0 : canDivide m a.mask = true) (h1 : canDivide m x.mask = true)
    (h2 : ∀ e ∈ a.es, canDivide m e.mask = true) : canDivide m a'.mask = true := by
  have push : ∀ {e : Ext T} {b : Arr T}, a.pushBack c e = some b → canDivide m e.mask = true →
      canDivide m b.mask = true := by
    intro e b hb he
    unfold Arr.pushBack at hb
    split at hb
    · cases hb; exact canDivide_lower h0 he
    · cases hb
  unfold Arr.insert at h
  split at h
  · exact push h h1
  · cases hu : DivList.upperBound (comparer c) a.es x with
    | none => rw [hu] at h; cases h
    | some it =>
      rw [hu] at h
      simp only at h
      unfold Arr.insertAt at h
      split at h
      · exact push h h1
      · cases hb : a.es.getLast? with
        | none => rw [hb] at h; cases h
        | some b =>
          rw [hb] at h
          simp only at h
          have hbm : b ∈ a.es := List.mem_of_getLast? hb
          cases hp : a.pushBack c b with
          | none => rw [hp] at h; cases h
          | some a1 =>
            rw [hp] at h
            simp only at h
            cases hs : shiftUp a1.es (a1.es.length - 1) (a1.es.length - 1 - it) with
            | none => rw [hs] at h; cases h
            | some es =>
              rw [hs] at h
              simp only at h
              split at h
              · cases h
                exact canDivide_lower (push hp (h2 b hbm)) h1
              · cases h

/-- The mask of each split can divide the masks of the two nodes below it. -/
def Node.Chain (c : Conf T) : Node T → Prop
  | .entries _ => True
  | .split mask _ _ le gt =>
    (c.useTreeDivMask = true → canDivide mask le.mask = true ∧ canDivide mask gt.mask = true) ∧
      le.Chain c ∧ gt.Chain c

theorem arr_valid {a : Arr T} (h : ArrOk c bits a) (hne : c.allowRemovals = false → a.es ≠ []) :
    a.valid c = true := by
  unfold Arr.valid
  simp only [Bool.and_eq_true, Bool.or_eq_true, Bool.not_eq_true', decide_eq_true_eq, List.all_eq_true]
  refine ⟨⟨?_, h.cap⟩, ?_⟩
  · cases ha : c.allowRemovals with
    | true => exact .inl rfl
    | false => exact .inr (by simpa using hne ha)
  · cases hu : c.useTreeDivMask with
    | false => exact .inl rfl
    | true => exact .inr (h.low hu)

theorem checkBelow_of {m : Mask} {p : Arr T → Bool} {q : T → Prop} (hp : ∀ a : Arr T, (∀ e ∈ a.es, q e.t) → p a = true) :
    ∀ (n : Node T), n.Chain c → (c.useTreeDivMask = true → canDivide m n.mask = true) → (∀ e ∈ n.exts, q e.t) →
    checkBelow c m p n = true := by
  have hmask : ∀ k : Mask, (c.useTreeDivMask = true → canDivide m k = true) →
      (!c.useTreeDivMask || canDivide m k) = true := by
    intro k hk
    cases hu : c.useTreeDivMask with
    | false => rfl
    | true => simpa using hk hu
  intro n
  induction n with
  | entries a =>
    intro _ hm hq
    rw [checkBelow, hmask a.mask hm, hp a hq]
    rfl
  | split mask var exp le gt ih1 ih2 =>
    intro hc hm hq
    obtain ⟨h1, h2, h3⟩ := hc
    rw [checkBelow, hmask mask hm, ih1 h2 (fun hu => DivMask.canDivide_trans (hm hu) (h1 hu).1)
      (fun e he => hq e (List.mem_append_left _ he)), ih2 h3 (fun hu => DivMask.canDivide_trans (hm hu) (h1 hu).2)
      (fun e he => hq e (List.mem_append_right _ he))]
    rfl

theorem node_valid : ∀ (n : Node T), n.WF c bits → n.Chain c → (c.allowRemovals = false → n.NE) →
    n.valid c = true := by
  intro n
  induction n with
  | entries a => intro h _ hne; exact arr_valid h hne
  | split mask var exp le gt ih1 ih2 =>
    intro h hc hne
    obtain ⟨h1, h2, hv, h3, h4, h5⟩ := h
    obtain ⟨c1, c2, c3⟩ := hc
    rw [Node.valid, ih1 h1 c2 (fun ha => (hne ha).1), ih2 h2 c3 (fun ha => (hne ha).2),
      checkBelow_of (q := fun t => c.dm.getExponent t var ≤ exp) ?_ le c2 (fun hu => (c1 hu).1) h3,
      checkBelow_of (q := fun t => exp < c.dm.getExponent t var) ?_ gt c3 (fun hu => (c1 hu).2) h4]
    · simpa using hv
    · intro a ha
      rw [Arr.allGT, List.all_eq_true]
      intro e he
      exact inChild_true.mpr (ha e he)
    · intro a ha
      rw [Arr.allLE, List.all_eq_true]
      intro e he
      simpa using inChild_false.mpr (ha e he)

/-- The masks of a tree go down. -/
def Tree.Chain (c : Conf T) (t : Tree T) : Prop := ∀ n, t.root = some n → n.Chain c

theorem validD_of {pos : Bool} (hpos : c.doAutomaticRebuilds = true → pos = true) {t : Tree T} (h : t.Ok c bits)
    (hc : t.Chain c) (ht : t.tmp = []) : t.validD c pos = .ok () := by
  have hp : (!c.doAutomaticRebuilds || pos) = true := by
    cases hd : c.doAutomaticRebuilds with
    | false => rfl
    | true => simpa using hpos hd
  rw [Tree.validD, assert_of (by rw [ht]; rfl), ok_bind, assert_of hp, ok_bind]
  apply assert_of
  cases hr : t.root with
  | none => rfl
  | some n => exact node_valid n (h.wf n hr) (hc n hr) (fun ha => h.ne ha n hr)

/-! ## Insertion -/

theorem childValid_of {m : Mask} {a b : Node T}
    (h : c.useTreeDivMask = true → canDivide m a.mask = true ∧ canDivide m b.mask = true) :
    childValid c m a b = true := by
  unfold childValid
  cases hu : c.useTreeDivMask with
  | false => rfl
  | true => simpa using h hu

theorem insert_room {b b' : Arr T} {x : Ext T} (hi : b.insert c x = some b') : b.es.length < c.leafSize := by
  rcases Nat.lt_or_ge b.es.length c.leafSize with h' | h'
  · exact h'
  · exfalso
    have hno : ∀ e : Ext T, b.pushBack c e = none := fun e => by rw [Arr.pushBack, if_neg (by omega)]
    unfold Arr.insert at hi
    split at hi
    · rw [hno] at hi; cases hi
    · split at hi
      · cases hi
      · unfold Arr.insertAt at hi
        split at hi
        · rw [hno] at hi; cases hi
        · split at hi
          · cases hi
          · rw [hno] at hi; cases hi

/-- The end of `splitInsert` in a packed tree. -/
theorem splitP_end {x : Ext T} {M : Mask} {var : ℕ} {exp : ℤ} {ale agt : Arr T} {n : Node T}
    (hale : c.useTreeDivMask = true → canDivide M ale.mask = true)
    (hagt : c.useTreeDivMask = true → canDivide M agt.mask = true)
    (hxm : c.useTreeDivMask = true → canDivide M x.mask = true)
    (ole : ArrOk c bits ale) (ogt : ArrOk c bits agt) (hwf : n.WF c bits) (hne : n.NE)
    (h : (if inChild c var exp x.t then
          (agt.insert c x).map (fun t => Node.split M var exp (.entries ale) (.entries t))
        else (ale.insert c x).map (fun o => Node.split M var exp (.entries o) (.entries agt))) = some n) :
    (if inChild c var exp x.t then do
      let t ← agt.insertD c x
      assert (splitValid c M ale t)
      return .split M var exp (.entries ale) (.entries t)
    else do
      let o ← ale.insertD c x
      assert (splitValid c M o agt)
      return .split M var exp (.entries o) (.entries agt)) = Dbg.ok n ∧ n.Chain c ∧ n.mask = M := by
  by_cases hc : inChild c var exp x.t = true
  · rw [if_pos hc] at h ⊢
    obtain ⟨o, o1, o2⟩ := Option.map_eq_some_iff.mp h
    subst o2
    have hoc : c.useTreeDivMask = true → canDivide M o.mask = true := fun hu =>
      insert_mask o1 (hagt hu) (hxm hu) (fun e he => DivMask.canDivide_trans (hagt hu) (ogt.low hu e he))
    have hv : splitValid c M ale o = true := by
      have e1 := arr_valid hwf.2.1 (fun _ => hne.2)
      have e2 := arr_valid hwf.1 (fun _ => hne.1)
      have e3 := childValid_of (c := c) (m := M) (a := .entries ale) (b := .entries o) (fun hu => ⟨hale hu, hoc hu⟩)
      rw [splitValid, e1, e2, e3]
      rfl
    rw [insertD_of (insert_room o1) o1, ok_bind, assert_of hv, ok_bind]
    exact ⟨rfl, ⟨fun hu => ⟨hale hu, hoc hu⟩, trivial, trivial⟩, rfl⟩
  · rw [if_neg hc] at h ⊢
    obtain ⟨o, o1, o2⟩ := Option.map_eq_some_iff.mp h
    subst o2
    have hoc : c.useTreeDivMask = true → canDivide M o.mask = true := fun hu =>
      insert_mask o1 (hale hu) (hxm hu) (fun e he => DivMask.canDivide_trans (hale hu) (ole.low hu e he))
    have hv : splitValid c M o agt = true := by
      have e1 := arr_valid hwf.2.1 (fun _ => hne.2)
      have e2 := arr_valid hwf.1 (fun _ => hne.1)
      have e3 := childValid_of (c := c) (m := M) (a := .entries o) (b := .entries agt) (fun hu => ⟨hoc hu, hagt hu⟩)
      rw [splitValid, e1, e2, e3]
      rfl
    rw [insertD_of (insert_room o1) o1, ok_bind, assert_of hv, ok_bind]
    exact ⟨rfl, ⟨fun hu => ⟨hoc hu, hagt hu⟩, trivial, trivial⟩, rfl⟩

/-- The end of `splitInsert` in a binary tree. -/
theorem splitB_end {x : Ext T} {M : Mask} {var : ℕ} {exp : ℤ} {ale agt : Arr T} {n : Node T}
    (hale : c.useTreeDivMask = true → canDivide M ale.mask = true)
    (hagt : c.useTreeDivMask = true → canDivide M agt.mask = true)
    (hxm : c.useTreeDivMask = true → canDivide M x.mask = true)
    (ole : ArrOk c bits ale) (ogt : ArrOk c bits agt)
    (h : (if inChild c var exp x.t then
          (agt.insert c x).map (fun t => Node.split M var exp (.entries ale) (.entries t))
        else (ale.insert c x).map (fun o => Node.split M var exp (.entries o) (.entries agt))) = some n) :
    (if inChild c var exp x.t then do
      assert (decide (agt.es.length < c.leafSize))
      let t ← agt.insertD c x
      return .split M var exp (.entries ale) (.entries t)
    else do
      assert (decide (ale.es.length < c.leafSize))
      let o ← ale.insertD c x
      return .split M var exp (.entries o) (.entries agt)) = Dbg.ok n ∧ n.Chain c ∧ n.mask = M := by
  by_cases hc : inChild c var exp x.t = true
  · rw [if_pos hc] at h ⊢
    obtain ⟨o, o1, o2⟩ := Option.map_eq_some_iff.mp h
    subst o2
    have hlt := insert_room o1
    have hoc : c.useTreeDivMask = true → canDivide M o.mask = true := fun hu =>
      insert_mask o1 (hagt hu) (hxm hu) (fun e he => DivMask.canDivide_trans (hagt hu) (ogt.low hu e he))
    rw [assert_of (by simpa using hlt), ok_bind, insertD_of hlt o1, ok_bind]
    exact ⟨rfl, ⟨fun hu => ⟨hale hu, hoc hu⟩, trivial, trivial⟩, rfl⟩
  · rw [if_neg hc] at h ⊢
    obtain ⟨o, o1, o2⟩ := Option.map_eq_some_iff.mp h
    subst o2
    have hlt := insert_room o1
    have hoc : c.useTreeDivMask = true → canDivide M o.mask = true := fun hu =>
      insert_mask o1 (hale hu) (hxm hu) (fun e he => DivMask.canDivide_trans (hale hu) (ole.low hu e he))
    rw [assert_of (by simpa using hlt), ok_bind, insertD_of hlt o1, ok_bind]
    exact ⟨rfl, ⟨fun hu => ⟨hoc hu, hagt hu⟩, trivial, trivial⟩, rfl⟩

/-- A split of a full array with the insertion, in a debug build. -/
theorem splitInsert_chain (hl : c.Lawful) {a : Arr T} (h : ArrOk c bits a) (hfull : a.es.length = c.leafSize)
    {x : Ext T} (hx : IsExt c bits x) {r : Split (Ext T)} (hr : SplitOk c Ext.t a.es (some x) r) :
    ∃ n, (if c.packed then splitInsertP c x a r else splitInsertB c x r) = some n ∧
      (if c.packed then splitInsertPD c x a r else splitInsertBD c x r) = .ok n ∧ n.Chain c ∧
      ∀ m, c.useTreeDivMask = true → canDivide m a.mask = true → canDivide m x.mask = true →
        canDivide m n.mask = true := by
  have hmem : ∀ e, e ∈ r.le ++ r.gt ↔ e ∈ a.es := fun e => hr.perm.mem_iff
  have hlen : r.le.length + r.gt.length = c.leafSize := by
    rw [← hfull, ← hr.perm.length_eq, List.length_append]
  have mle : ∀ e ∈ r.le, e ∈ a.es := fun e he => (hmem e).mp (List.mem_append_left _ he)
  have mgt : ∀ e ∈ r.gt, e ∈ a.es := fun e he => (hmem e).mp (List.mem_append_right _ he)
  have hxle : ∀ e ∈ r.le, IsExt c bits e := fun e he => h.exts e (mle e he)
  have hxgt : ∀ e ∈ r.gt, IsExt c bits e := fun e he => h.exts e (mgt e he)
  obtain ⟨n, n1, n2, n3, n4⟩ := splitInsert_ok hl h hfull hx hr
  refine ⟨n, n1, ?_⟩
  by_cases hpk : c.packed = true
  · rw [if_pos hpk] at n1 ⊢
    obtain ⟨ale, a1, a2, a3⟩ := ofRange_ok hl (l := r.le) (by omega) hxle
    obtain ⟨b2, b3⟩ := recalculate_ok hl (l := r.gt) maxMask (by omega) hxgt
    have hrec : ∀ m, (∀ e ∈ r.gt, canDivide m e.mask = true) →
        canDivide m (Arr.recalculate c ⟨sortEntries c r.gt, maxMask⟩).mask = true := fun m hm =>
      recalculate_mask (canDivide_max _) (fun e he => hm e ((sortEntries_perm hl _).subset he))
    have hup : ∀ m, canDivide m a.mask = true → canDivide m x.mask = true →
        canDivide m (lower c (lower c maxMask a.mask) x.mask) = true :=
      fun m h1 h2 => canDivide_lower (canDivide_lower (canDivide_max m) h1) h2
    have hxm : c.useTreeDivMask = true → canDivide (lower c (lower c maxMask a.mask) x.mask) x.mask = true :=
      fun hu => lower_right hu (canDivide_self _)
    have hdown : c.useTreeDivMask = true →
        ∀ e ∈ a.es, canDivide (lower c (lower c maxMask a.mask) x.mask) e.mask = true :=
      fun hu e he => lower_left hu (lower_right hu (h.low hu e he))
    unfold splitInsertP at n1
    unfold splitInsertPD
    rw [a1] at n1
    rw [ofRangeD_of a1, ok_bind]
    simp only [hl.selfCopy hpk, Bool.false_and, Bool.false_eq_true, if_false] at n1 ⊢
    generalize lower c (lower c maxMask a.mask) x.mask = M at n1 hup hxm hdown ⊢
    generalize Arr.recalculate c ⟨sortEntries c r.gt, maxMask⟩ = agt at n1 b2 b3 hrec ⊢
    obtain ⟨e1, e2, e3⟩ := splitP_end (ale := ale) (agt := agt)
      (fun hu => ofRange_mask a1 (fun e he => hdown hu e (mle e he)))
      (fun hu => hrec M (fun e he => hdown hu e (mgt e he))) hxm a3 b3 n2 n3 n1
    exact ⟨e1, e2, fun m _ h1 h2 => by rw [e3]; exact hup m h1 h2⟩
  · rw [if_neg hpk] at n1 ⊢
    obtain ⟨agt, a1, a2, a3⟩ := ofRange_ok hl (l := r.gt) (by omega) hxgt
    obtain ⟨b2, b3⟩ := recalculate_ok hl (l := r.le) maxMask (by omega) hxle
    have hrec : ∀ m, (∀ e ∈ r.le, canDivide m e.mask = true) →
        canDivide m (Arr.recalculate c ⟨sortEntries c r.le, maxMask⟩).mask = true := fun m hm =>
      recalculate_mask (canDivide_max _) (fun e he => hm e ((sortEntries_perm hl _).subset he))
    unfold splitInsertB at n1
    unfold splitInsertBD
    rw [a1] at n1
    rw [ofRangeD_of a1, ok_bind]
    simp only at n1 ⊢
    generalize Arr.recalculate c ⟨sortEntries c r.le, maxMask⟩ = ale at n1 b2 b3 hrec ⊢
    have hup : ∀ m, c.useTreeDivMask = true → canDivide m a.mask = true → canDivide m x.mask = true →
        canDivide m (lower c (lower c (lower c maxMask ale.mask) agt.mask) x.mask) = true := by
      intro m hu h1 h2
      have hall : ∀ e ∈ a.es, canDivide m e.mask = true := fun e he => DivMask.canDivide_trans h1 (h.low hu e he)
      refine canDivide_lower (canDivide_lower (canDivide_lower (canDivide_max m) ?_) ?_) h2
      · exact hrec m (fun e he => hall e (mle e he))
      · exact ofRange_mask a1 (fun e he => hall e (mgt e he))
    have hthis : c.useTreeDivMask = true →
        canDivide (lower c (lower c (lower c maxMask ale.mask) agt.mask) x.mask) ale.mask = true :=
      fun hu => lower_left hu (lower_left hu (lower_right hu (canDivide_self _)))
    have hother : c.useTreeDivMask = true →
        canDivide (lower c (lower c (lower c maxMask ale.mask) agt.mask) x.mask) agt.mask = true :=
      fun hu => lower_left hu (lower_right hu (canDivide_self _))
    have hxm : c.useTreeDivMask = true →
        canDivide (lower c (lower c (lower c maxMask ale.mask) agt.mask) x.mask) x.mask = true :=
      fun hu => lower_right hu (canDivide_self _)
    generalize lower c (lower c (lower c maxMask ale.mask) agt.mask) x.mask = M at n1 hup hthis hother hxm ⊢
    obtain ⟨e1, e2, e3⟩ := splitB_end hthis hother hxm b3 a3 n1
    exact ⟨e1, e2, fun m hu h1 h2 => by rw [e3]; exact hup m hu h1 h2⟩

/-- The insertion in a debug build: an assertion fails where the release build throws. -/
theorem insertNodeD_of (hl : c.Lawful) {x : Ext T} (hx : IsExt c bits x) : ∀ (n : Node T) (hint : Option ℕ),
    n.WF c bits → n.Chain c → ∃ b n', insertNode c x hint n = some (b, n') ∧ n'.Chain c ∧
      (∀ m, c.useTreeDivMask = true → canDivide m n.mask = true → canDivide m x.mask = true →
        canDivide m n'.mask = true) ∧
      (b = true → insertNodeD c x hint n = .failed) ∧
      (b = false → ∃ f, insertNodeD c x hint n = .ok (f, n')) := by
  intro n
  induction n with
  | entries a =>
    intro hint h hc
    rw [insertNode, insertNodeD, assert_of (by simpa using h.cap), ok_bind]
    by_cases hfull : a.es.length = c.leafSize
    · rw [if_pos hfull, if_pos hfull]
      have hne : a.es ≠ [] := by
        intro h0
        have := hl.leafSize
        rw [h0] at hfull
        simp at hfull
        omega
      have hpos : 0 < a.es.length := List.length_pos_iff.mpr hne
      rcases split_ok hl Ext.t (l := a.es) (extra := some x) (by simp) hint with ⟨r, h1, h2⟩ | ⟨h1, h2⟩
      · rw [h1]
        simp only
        obtain ⟨n, g1, g2, g3, g4⟩ := splitInsert_chain hl h hfull hx h2
        rw [g1]
        have hvc : 0 < c.dm.varCount := by have := h2.var; omega
        rw [splitInsertD, assert_of (by simpa using hvc), ok_bind, assert_of (by simpa using hpos), ok_bind,
          splitD_of hne h1]
        simp only [caught]
        rw [ok_bind, g2, ok_bind]
        exact ⟨false, n, rfl, g3, g4, nofun, fun _ => ⟨true, rfl⟩⟩
      · rw [h1]
        refine ⟨true, _, rfl, trivial, fun m _ hm _ => hm, fun _ => ?_, nofun⟩
        unfold splitInsertD
        by_cases hvc : 0 < c.dm.varCount
        · rw [assert_of (by simpa using hvc), ok_bind, assert_of (by simpa using hpos), ok_bind, splitD_of hne h1]
          rfl
        · rw [show (decide (0 < c.dm.varCount)) = false by simpa using hvc]
          rfl
    · rw [if_neg hfull, if_neg hfull]
      have hlt : a.es.length < c.leafSize := by have := h.cap; omega
      obtain ⟨a', g1, _, _⟩ := insert_ok hl h hlt hx
      rw [g1, assert_of (by simp [hlt]), ok_bind, insertD_of hlt g1, ok_bind]
      refine ⟨false, _, rfl, trivial, ?_, nofun, fun _ => ⟨false, rfl⟩⟩
      intro m hu h0 h1
      exact insert_mask g1 h0 h1 (fun e he => DivMask.canDivide_trans h0 (h.low hu e he))
  | split mask var exp le gt ih1 ih2 =>
    intro hint h hc
    obtain ⟨h1, h2, hv, h3, h4, h5⟩ := h
    obtain ⟨c1, c2, c3⟩ := hc
    rw [insertNode, insertNodeD]
    cases hch : inChild c var exp x.t with
    | true =>
      rw [if_pos rfl, if_pos rfl]
      obtain ⟨b, n', g1, g2, g3, g4, g5⟩ := ih2 (some var) h2 c3
      rw [g1]
      refine ⟨b, _, rfl, ⟨fun hu => ⟨lower_left hu (c1 hu).1, ?_⟩, c2, g2⟩, fun m _ hm hx' => canDivide_lower hm hx',
        ?_, ?_⟩
      · exact g3 _ hu (lower_left hu (c1 hu).2) (lower_right hu (canDivide_self _))
      · intro hb; rw [g4 hb]; rfl
      · intro hb
        obtain ⟨f, hf⟩ := g5 hb
        exact ⟨!c.packed && f, by rw [hf]; rfl⟩
    | false =>
      rw [if_neg (by decide), if_neg (by decide)]
      obtain ⟨b, n', g1, g2, g3, g4, g5⟩ := ih1 (some var) h1 c2
      rw [g1]
      have hcv : c.useTreeDivMask = true → canDivide (lower c mask x.mask) n'.mask = true ∧
          canDivide (lower c mask x.mask) gt.mask = true := fun hu =>
        ⟨g3 _ hu (lower_left hu (c1 hu).1) (lower_right hu (canDivide_self _)), lower_left hu (c1 hu).2⟩
      refine ⟨b, _, rfl, ⟨hcv, g2, c3⟩, fun m _ hm hx' => canDivide_lower hm hx', ?_, ?_⟩
      · intro hb; rw [g4 hb]; rfl
      · intro hb
        obtain ⟨f, hf⟩ := g5 hb
        refine ⟨f, ?_⟩
        rw [hf, ok_bind, assert_of (by rw [childValid_of hcv]; simp), ok_bind]
        rfl

theorem tree_insertD {pos : Bool} (hpos : c.doAutomaticRebuilds = true → pos = true) (hl : c.Lawful) {t : Tree T}
    (h : t.Ok c bits) (hc : t.Chain c) (ht : t.tmp = []) {x : Ext T} (hx : IsExt c bits x) :
    ∃ b t', t.insert c x = some (b, t') ∧ t'.Chain c ∧ (b = true → t.insertD c pos x = .failed) ∧
      (b = false → t.insertD c pos x = .ok t') := by
  obtain ⟨b', t', k1, k2, k3, _, _⟩ := tree_insert_ok hl h hx
  have hv := validD_of hpos h hc ht
  have hw : whenD c.packed (t.validD c pos) = .ok () := by
    unfold whenD; split
    · exact hv
    · rfl
  rcases t with ⟨root, tmp⟩
  have hn : (root.getD (.entries Arr.empty)).WF c bits := by
    cases root with
    | none => exact arrOk_empty
    | some n => exact h.wf n rfl
  have hnc : (root.getD (.entries Arr.empty)).Chain c := by
    cases root with
    | none => exact trivial
    | some n => exact hc n rfl
  obtain ⟨b, n', g1, g2, g3, g4, g5⟩ := insertNodeD_of hl hx _ none hn hnc
  have hins : Tree.insert c (⟨root, tmp⟩ : Tree T) x = some (b, ⟨some n', tmp⟩) := by simp [Tree.insert, g1]
  rw [hins] at k1
  simp only [Option.some.injEq, Prod.mk.injEq] at k1
  obtain ⟨rfl, rfl⟩ := k1
  have hch : Tree.Chain c (⟨some n', tmp⟩ : Tree T) := by rintro _ ⟨⟩; exact g2
  refine ⟨_, _, hins, hch, ?_, ?_⟩
  · intro hb
    rw [Tree.insertD, hw, ok_bind]
    simp only
    rw [g4 hb]
    rfl
  · intro hb
    obtain ⟨f, hf⟩ := g5 hb
    rw [Tree.insertD, hw, ok_bind]
    simp only
    rw [hf, ok_bind]
    have hw2 : whenD (c.packed || !f) (Tree.validD c pos (⟨some n', tmp⟩ : Tree T)) = .ok () := by
      unfold whenD; split
      · exact validD_of hpos k2 hch ht
      · rfl
    simp only
    rw [hw2]
    rfl

end Verif.KDTree
