import Verif.DivListAlias
import Verif.DivListAliasSpec
import Verif.PropDivList

/-!
# Lemmas on `removeMultiples` with an entry of the list itself
-/

namespace Verif.DivList

open Verif.DivMask (Ext Mask canDivide)

variable {T : Type} {c : Conf T}

/-- As long as the position referred to is not written, the loop does what it does with a copy. It is not written but for
the last round. -/
theorem compactLoopRef_eq (mask : Mask) (i : ℕ) (a : Ext T) : ∀ (n : ℕ) (l : List (Ext T)) (it newEnd : ℕ) (out : List T),
    l[i]? = some a → newEnd ≤ it →
    newEnd + (((l.drop it).take (n - 1)).filter (fun e => !divides c ⟨mask, a.t⟩ e)).length ≤ i →
    compactLoopRef c mask i l it newEnd out n = compactLoop c ⟨mask, a.t⟩ l it newEnd out n := by
  intro n
  induction n with
  | zero => intro l it newEnd out _ _ _; rfl
  | succ n ih =>
    intro l it newEnd out ha hle hn
    rw [compactLoopRef, compactLoop]
    cases he : l[it]? with
    | none => rfl
    | some e =>
      simp only [dividesRef, ha]
      have hit : it < l.length := (List.getElem?_eq_some_iff.mp he).1
      have hd : l.drop it = e :: l.drop (it + 1) := by
        rw [List.drop_eq_getElem_cons hit, (List.getElem?_eq_some_iff.mp he).2]
      cases n with
      | zero => cases divides c ⟨mask, a.t⟩ e <;> rfl
      | succ n =>
        rw [hd, show n + 1 + 1 - 1 = n + 1 by omega, List.take_succ_cons, List.filter_cons] at hn
        cases hv : divides c ⟨mask, a.t⟩ e with
        | true =>
          rw [hv] at hn
          simp only [Bool.not_true, Bool.false_eq_true, if_false] at hn ⊢
          exact ih l (it + 1) newEnd _ ha (by omega) (by simpa using hn)
        | false =>
          rw [hv] at hn
          simp only [Bool.not_false, if_true, List.length_cons] at hn ⊢
          by_cases hne : newEnd < l.length
          · rw [if_pos hne, if_pos hne]
            refine ih _ (it + 1) (newEnd + 1) _ ?_ (by omega) ?_
            · rw [List.getElem?_set_ne (by omega)]; exact ha
            · rw [List.drop_set_of_lt (by omega)]
              simp only [Nat.add_one_sub_one]
              omega
          · rw [if_neg hne, if_neg hne]

/-- Once another entry has been written to the position referred to, and neither it nor the monomial divides what is
left, the rest is kept as with a copy. -/
theorem compactLoopRef_keep (mask : Mask) (i : ℕ) (q : Ext T) (m : Ext T) :
    ∀ (n : ℕ) (l : List (Ext T)) (it newEnd : ℕ) (out : List T),
    l[i]? = some q → i < newEnd → newEnd ≤ it →
    (∀ e ∈ l.drop it, divides c ⟨mask, q.t⟩ e = false ∧ divides c m e = false) →
    compactLoopRef c mask i l it newEnd out n = compactLoop c m l it newEnd out n := by
  intro n
  induction n with
  | zero => intro l it newEnd out _ _ _ _; rfl
  | succ n ih =>
    intro l it newEnd out hq hi hle hall
    rw [compactLoopRef, compactLoop]
    cases he : l[it]? with
    | none => rfl
    | some e =>
      have hit : it < l.length := (List.getElem?_eq_some_iff.mp he).1
      have hd : l.drop it = e :: l.drop (it + 1) := by
        rw [List.drop_eq_getElem_cons hit, (List.getElem?_eq_some_iff.mp he).2]
      rw [hd] at hall
      obtain ⟨h1, h2⟩ := hall e (by simp)
      simp only [dividesRef, hq, h1, h2, Bool.not_false, if_true]
      by_cases hne : newEnd < l.length
      · rw [if_pos hne, if_pos hne]
        refine ih _ (it + 1) (newEnd + 1) _ ?_ (by omega) (by omega) ?_
        · rw [List.getElem?_set_ne (by omega)]; exact hq
        · rw [List.drop_set_of_lt (by omega)]
          exact fun x hx => hall x (by simp [hx])
      · rw [if_neg hne, if_neg hne]

theorem removeMultiplesVectorRef_of (mask : Mask) (i : ℕ) (a : Ext T) (l : List (Ext T)) (ha : l[i]? = some a)
    (h : ∀ it e, l[it]? = some e → divides c ⟨mask, a.t⟩ e = true →
      (∀ j < it, ∀ e, l[j]? = some e → divides c ⟨mask, a.t⟩ e = false) →
      compactLoopRef c mask i l (it + 1) it [e.t] (l.length - (it + 1)) =
        compactLoop c ⟨mask, a.t⟩ l (it + 1) it [e.t] (l.length - (it + 1))) :
    removeMultiplesVectorRef c mask i l = removeMultiplesVector c ⟨mask, a.t⟩ l := by
  unfold removeMultiplesVectorRef removeMultiplesVector
  rw [ha]
  simp only
  cases hf : l.findIdx? (fun e => divides c ⟨mask, a.t⟩ e) with
  | none => rfl
  | some it =>
    simp only
    cases he : l[it]? with
    | none => rfl
    | some e =>
      simp only
      rw [List.findIdx?_eq_some_iff_getElem] at hf
      obtain ⟨hit, hdv, hno⟩ := hf
      have hv : divides c ⟨mask, a.t⟩ e = true := by
        rw [List.getElem?_eq_getElem hit] at he
        cases he
        exact hdv
      have hno' : ∀ j < it, ∀ e, l[j]? = some e → divides c ⟨mask, a.t⟩ e = false := by
        intro j hj e' he'
        have := hno j hj
        rw [List.getElem?_eq_getElem (by omega)] at he'
        cases he'
        simpa using this
      rw [h it e he hv hno']
      cases compactLoop c ⟨mask, a.t⟩ l (it + 1) it [e.t] (l.length - (it + 1)) <;> rfl

theorem removeMultiplesListRef_eq (mask : Mask) (i : ℕ) (m : T) : ∀ (l : List (Ext T)) (pos : ℕ),
    (pos + l.length ≤ i + 1) →
    removeMultiplesListRef c mask i (some m) pos l = some (removeMultiplesList c ⟨mask, m⟩ l) := by
  intro l
  induction l with
  | nil => intro pos _; rfl
  | cons e l ih =>
    intro pos hp
    rw [List.length_cons] at hp
    have hd : dividesNode c mask (some m) e = some (divides c ⟨mask, m⟩ e) := by
      unfold dividesNode divides DivMask.Ext.divides
      cases c.useDivMask <;> cases canDivide mask e.mask <;> rfl
    rw [removeMultiplesListRef, removeMultiplesList, hd]
    cases hv : divides c ⟨mask, m⟩ e with
    | true =>
      simp only [if_true]
      by_cases h : pos = i
      · have : l = [] := by
          cases l with
          | nil => rfl
          | cons _ _ => simp only [List.length_cons] at hp; omega
        subst this
        rfl
      · rw [if_neg h, ih (pos + 1) (by omega)]
    | false =>
      simp only [Bool.false_eq_true, if_false]
      rw [ih (pos + 1) (by omega)]

/-- The call with a copy, given that the removal from the storage does the same. -/
theorem removeMultiplesRef_of {s : State T} {i : ℕ} {a : Ext T} (ha : s.list[i]? = some a)
    (h1 : c.useLinkedList = true → removeMultiplesListRef c (ext c s a.t).mask i (some a.t) 0 s.list =
      some (removeMultiplesList c (ext c s a.t) s.list))
    (h2 : c.useLinkedList = false → removeMultiplesVectorRef c (ext c s a.t).mask i s.list =
      removeMultiplesVector c (ext c s a.t) s.list) :
    removeMultiplesRef c s i = removeMultiples c s a.t := by
  unfold removeMultiplesRef removeMultiples
  rw [ha]
  simp only
  cases hb : c.useLinkedList with
  | true =>
    simp only [if_true]
    rw [h1 hb]
    rfl
  | false =>
    simp only [Bool.false_eq_true, if_false]
    rw [h2 hb]
    rfl

/-- The call with a copy removes what it should. -/
theorem removes_copy (hl : c.Lawful) {s : State T} (h : Inv c s) (m : T) :
    ∃ out b s', removeMultiples c s m = some (out, b, s') ∧ Removes c.dm s.contents m out b s'.contents := by
  obtain ⟨s', h1, h2, _⟩ := removeMultiples_spec hl h m
  refine ⟨_, _, s', h1, ⟨rfl, ?_, h2⟩⟩
  rw [List.any_eq_true, Ne, List.filter_eq_nil_iff]
  push Not
  rfl

theorem count_kept (p : Ext T → Bool) (l : List (Ext T)) (it : ℕ) (hit : it < l.length)
    (hno : ∀ j < it, ∀ e, l[j]? = some e → p e = true) :
    it + (((l.drop (it + 1)).take (l.length - (it + 1) - 1)).filter p).length ≤ (l.dropLast.filter p).length := by
  have h1 : l.dropLast = l.take it ++ (l.drop it).take (l.length - 1 - it) := by
    rw [List.dropLast_eq_take, ← List.take_add]
    congr 1
    omega
  have h2 : (l.take it).filter p = l.take it := by
    rw [List.filter_eq_self]
    intro a ha
    obtain ⟨j, hj, rfl⟩ := List.getElem_of_mem ha
    rw [List.length_take] at hj
    rw [List.getElem_take]
    exact hno j (by omega) _ (List.getElem?_eq_getElem _)
  rw [h1, List.filter_append, h2, List.length_append, List.length_take, min_eq_left (by omega)]
  cases hk : l.length - 1 - it with
  | zero =>
    rw [show l.length - (it + 1) - 1 = 0 by omega]
    simp
  | succ k =>
    rw [show l.length - (it + 1) - 1 = k by omega, List.drop_eq_getElem_cons hit, List.take_succ_cons, List.filter_cons]
    split <;> simp

end Verif.DivList
