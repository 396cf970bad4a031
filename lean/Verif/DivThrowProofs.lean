import Verif.DivThrowSpec
import Verif.DivListProofs

/-! # Lemmas on exceptions in `DivList` -/

namespace Verif.DivList

open Verif.DivMask (Ext)

variable {T : Type} {c : Conf T} {f : Faults T} {m : Ext T}

/-- Where the removal stops: at the element `k` of `l`, which begins at position `i`, with `out` put out before. -/
def Stops (c : Conf T) (f : Faults T) (m : Ext T) (l : List (Ext T)) (i : ℕ) (out : List T) (k : ℕ) : Prop :=
  ∃ e, l[k]? = some e ∧ ((asks c m e = true ∧ f.onDivides (i + k) = true) ∨
    (divides c m e = true ∧ f.onOutput (out ++ ((l.take k).filter (fun e => divides c m e)).map Ext.t ++ [e.t]) = true))

/-- The elements kept of the first `k`. -/
def kept (c : Conf T) (m : Ext T) (l : List (Ext T)) (k : ℕ) : List (Ext T) := (l.take k).filter (fun e => !divides c m e)

/-- What is put out of the first `k`. -/
def gone (c : Conf T) (m : Ext T) (l : List (Ext T)) (k : ℕ) : List T := ((l.take k).filter (fun e => divides c m e)).map Ext.t

theorem kept_length_le (l : List (Ext T)) (k : ℕ) : (kept c m l k).length ≤ k := by
  unfold kept
  exact (List.length_filter_le _ _).trans (List.length_take_le _ _)

theorem take_succ_of {l : List (Ext T)} {k : ℕ} {e : Ext T} (h : l[k]? = some e) : l.take (k + 1) = l.take k ++ [e] := by
  rw [List.take_add_one, h]
  rfl

theorem kept_succ {l : List (Ext T)} {k : ℕ} {e : Ext T} (h : l[k]? = some e) :
    kept c m l (k + 1) = kept c m l k ++ if divides c m e then [] else [e] := by
  unfold kept
  rw [take_succ_of h, List.filter_append]
  cases hd : divides c m e <;> simp [hd]

theorem gone_succ {l : List (Ext T)} {k : ℕ} {e : Ext T} (h : l[k]? = some e) :
    gone c m l (k + 1) = gone c m l k ++ if divides c m e then [e.t] else [] := by
  unfold gone
  rw [take_succ_of h, List.filter_append]
  cases hd : divides c m e <;> simp [hd]

/-! ## Vectors -/

/-- The vector in the loop at position `k`. -/
def loopList (c : Conf T) (m : Ext T) (l : List (Ext T)) (k : ℕ) : List (Ext T) := kept c m l k ++ l.drop (kept c m l k).length

theorem loopList_length {l : List (Ext T)} {k : ℕ} (h : k ≤ l.length) : (loopList c m l k).length = l.length := by
  have := kept_length_le (c := c) (m := m) l k
  unfold loopList
  rw [List.length_append, List.length_drop]
  omega

theorem loopList_get {l : List (Ext T)} {k : ℕ} : (loopList c m l k)[k]? = l[k]? := by
  have := kept_length_le (c := c) (m := m) l k
  unfold loopList
  rw [List.getElem?_append_right this, List.getElem?_drop]
  congr 1
  omega

theorem loopList_set {l : List (Ext T)} {k : ℕ} {e : Ext T} (h : l[k]? = some e) (hd : divides c m e = false) :
    (loopList c m l k).set (kept c m l k).length e = loopList c m l (k + 1) := by
  have hk : k < l.length := (List.getElem?_eq_some_iff.1 h).1
  have := kept_length_le (c := c) (m := m) l k
  unfold loopList
  rw [kept_succ h, hd, if_neg (by decide), List.set_append_right _ _ (Nat.le_refl _), Nat.sub_self, List.append_assoc,
    List.length_append]
  congr 1
  rw [List.drop_eq_getElem_cons (show (kept c m l k).length < l.length by omega)]
  rfl

theorem loopList_same {l : List (Ext T)} {k : ℕ} {e : Ext T} (h : l[k]? = some e) (hd : divides c m e = true) :
    loopList c m l (k + 1) = loopList c m l k ∧ kept c m l (k + 1) = kept c m l k := by
  have : kept c m l (k + 1) = kept c m l k := by
    rw [kept_succ h, hd, if_pos rfl, List.append_nil]
  unfold loopList
  rw [this]
  exact ⟨rfl, rfl⟩

theorem compactX_spec (l : List (Ext T)) : ∀ (n it : ℕ), it + n = l.length →
    (compactX c f m (loopList c m l it) it (kept c m l it).length (gone c m l it) n =
        .done (kept c m l l.length) (gone c m l l.length) (l.length - (kept c m l l.length).length) ∧
      ∀ k, it ≤ k → ¬ Stops c f m l 0 [] k) ∨
    (∃ k, it ≤ k ∧ k < l.length ∧ Stops c f m l 0 [] k ∧ (∀ j, it ≤ j → j < k → ¬ Stops c f m l 0 [] j) ∧
      compactX c f m (loopList c m l it) it (kept c m l it).length (gone c m l it) n = .threw (loopList c m l k) (gone c m l k))
  | 0, it, h => by
    left
    have h : it = l.length := by omega
    subst h
    constructor
    · rw [compactX, loopList_length (Nat.le_refl _)]
      unfold loopList
      rw [List.take_left]
    · rintro k hk ⟨e, he, -⟩
      have := (List.getElem?_eq_some_iff.1 he).1
      omega
  | n + 1, it, h => by
    have hit : it < l.length := by omega
    have hk := kept_length_le (c := c) (m := m) l it
    have he : l[it]? = some l[it] := List.getElem?_eq_getElem hit
    generalize l[it] = e at he
    have hout : ([] : List T) ++ ((l.take it).filter (fun e => divides c m e)).map Ext.t = gone c m l it := rfl
    rw [compactX, loopList_get, he]
    simp only
    by_cases h1 : (asks c m e && f.onDivides it) = true
    · right
      rw [if_pos h1]
      rw [Bool.and_eq_true] at h1
      exact ⟨it, Nat.le_refl _, hit, ⟨e, he, .inl ⟨h1.1, by rw [Nat.zero_add]; exact h1.2⟩⟩, fun j a b => by omega, rfl⟩
    · rw [if_neg h1]
      have hno : divides c m e = false ∨ f.onOutput (gone c m l it ++ [e.t]) = false → ¬ Stops c f m l 0 [] it := by
        rintro ho ⟨e', he', hs⟩
        rw [he] at he'
        cases he'
        rw [hout, Nat.zero_add] at hs
        rcases hs with hs | hs
        · rw [hs.1, hs.2] at h1
          exact h1 rfl
        · rcases ho with ho | ho
          · rw [ho] at hs
            exact absurd hs.1 (by decide)
          · rw [ho] at hs
            exact absurd hs.2 (by decide)
      have fin : ∀ r, (r = Removal.done (kept c m l l.length) (gone c m l l.length) (l.length - (kept c m l l.length).length) ∧
            ∀ k, it + 1 ≤ k → ¬ Stops c f m l 0 [] k) ∨
          (∃ k, it + 1 ≤ k ∧ k < l.length ∧ Stops c f m l 0 [] k ∧ (∀ j, it + 1 ≤ j → j < k → ¬ Stops c f m l 0 [] j) ∧
            r = .threw (loopList c m l k) (gone c m l k)) → ¬ Stops c f m l 0 [] it →
          (r = Removal.done (kept c m l l.length) (gone c m l l.length) (l.length - (kept c m l l.length).length) ∧
            ∀ k, it ≤ k → ¬ Stops c f m l 0 [] k) ∨
          (∃ k, it ≤ k ∧ k < l.length ∧ Stops c f m l 0 [] k ∧ (∀ j, it ≤ j → j < k → ¬ Stops c f m l 0 [] j) ∧
            r = .threw (loopList c m l k) (gone c m l k)) := by
        rintro r (⟨a1, a2⟩ | ⟨k, a1, a2, a3, a4, a5⟩) hn
        · refine .inl ⟨a1, fun k hk => ?_⟩
          rcases Nat.eq_or_lt_of_le hk with rfl | hk
          · exact hn
          · exact a2 k hk
        · refine .inr ⟨k, by omega, a2, a3, fun j hj hjk => ?_, a5⟩
          rcases Nat.eq_or_lt_of_le hj with rfl | hj
          · exact hn
          · exact a4 j hj hjk
      cases hd : divides c m e with
      | false =>
        rw [if_pos (by decide), if_pos (by rw [loopList_length (by omega)]; omega), loopList_set he hd]
        have e1 : (kept c m l it).length + 1 = (kept c m l (it + 1)).length := by
          rw [kept_succ he, hd, if_neg (by decide), List.length_append]
          rfl
        have e2 : gone c m l it = gone c m l (it + 1) := by
          rw [gone_succ he, hd, if_neg (by decide), List.append_nil]
        rw [e1]
        conv in compactX c f m _ _ _ _ _ => rw [e2]
        conv in compactX c f m _ _ _ (gone c m l it) _ => rw [e2]
        exact fin _ (compactX_spec l n (it + 1) (by omega)) (hno (.inl hd))
      | true =>
        rw [if_neg (by decide)]
        by_cases h2 : f.onOutput (gone c m l it ++ [e.t]) = true
        · right
          rw [if_pos h2]
          exact ⟨it, Nat.le_refl _, hit, ⟨e, he, .inr ⟨hd, by rw [hout]; exact h2⟩⟩, fun j a b => by omega, rfl⟩
        · rw [if_neg h2]
          obtain ⟨e3, e4⟩ := loopList_same he hd
          have e2 : gone c m l it ++ [e.t] = gone c m l (it + 1) := by
            rw [gone_succ he, hd, if_pos rfl]
          rw [e2, ← e3, ← e4]
          exact fin _ (compactX_spec l n (it + 1) (by omega)) (hno (.inr (by simpa using h2)))

theorem set_self {α : Type} {l : List α} {i : ℕ} {e : α} (h : l[i]? = some e) : l.set i e = l := by
  obtain ⟨hi, rfl⟩ := List.getElem?_eq_some_iff.1 h
  exact List.set_getElem_self hi

/-- Before the first multiple the second loop does what the first does. -/
theorem firstX_compactX (l : List (Ext T)) : ∀ (n it : ℕ), it + n = l.length →
    compactX c f m l it it [] n = match firstX c f m (l.drop it) it with
      | .threw => .threw l []
      | .nowhere => .done l [] 0
      | .at it =>
        match l[it]? with
        | none => .ub
        | some e =>
          if f.onOutput [e.t] then .threw l []
          else compactX c f m l (it + 1) it [e.t] (l.length - (it + 1))
  | 0, it, h => by
    have h : it = l.length := by omega
    subst h
    rw [List.drop_length, firstX, compactX, List.take_length, Nat.sub_self]
  | n + 1, it, h => by
    have hit : it < l.length := by omega
    have he : l[it]? = some l[it] := List.getElem?_eq_getElem hit
    rw [List.drop_eq_getElem_cons hit]
    generalize l[it] = e at he
    rw [compactX, firstX, he]
    simp only
    by_cases h1 : (asks c m e && f.onDivides it) = true
    · rw [if_pos h1, if_pos h1]
    · rw [if_neg h1, if_neg h1]
      cases hd : divides c m e with
      | false =>
        rw [if_pos (by decide), if_pos hit, set_self he, if_neg (by decide)]
        exact firstX_compactX l n (it + 1) (by omega)
      | true =>
        rw [if_neg (by decide), if_pos rfl]
        simp only [he, List.nil_append]
        rw [show l.length - (it + 1) = n by omega]

theorem removeVectorX_spec (l : List (Ext T)) :
    (removeVectorX c f m l = .done (kept c m l l.length) (gone c m l l.length) (l.length - (kept c m l l.length).length) ∧
      ∀ k, ¬ Stops c f m l 0 [] k) ∨
    (∃ k, k < l.length ∧ Stops c f m l 0 [] k ∧ (∀ j, j < k → ¬ Stops c f m l 0 [] j) ∧
      removeVectorX c f m l = .threw (loopList c m l k) (gone c m l k)) := by
  have h := firstX_compactX (c := c) (f := f) (m := m) l l.length 0 (by omega)
  rw [List.drop_zero] at h
  have h1 := compactX_spec (c := c) (f := f) (m := m) l l.length 0 (by omega)
  have e1 : loopList c m l 0 = l := rfl
  have e2 : (kept c m l 0).length = 0 := rfl
  have e3 : gone c m l 0 = [] := rfl
  rw [e1, e2, e3, h] at h1
  rcases h1 with ⟨a1, a2⟩ | ⟨k, a1, a2, a3, a4, a5⟩
  · exact .inl ⟨a1, fun k => a2 k (Nat.zero_le _)⟩
  · exact .inr ⟨k, a2, a3, fun j hj => a4 j (Nat.zero_le _) hj, a5⟩

/-! ## Linked lists -/

theorem stops_zero {e : Ext T} {l : List (Ext T)} {i : ℕ} {out : List T} : Stops c f m (e :: l) i out 0 ↔
    (asks c m e = true ∧ f.onDivides i = true) ∨ (divides c m e = true ∧ f.onOutput (out ++ [e.t]) = true) := by
  unfold Stops
  simp

theorem stops_succ {e : Ext T} {l : List (Ext T)} {i k : ℕ} {out : List T} : Stops c f m (e :: l) i out (k + 1) ↔
    Stops c f m l (i + 1) (out ++ if divides c m e then [e.t] else []) k := by
  unfold Stops
  have h1 : i + (k + 1) = i + 1 + k := by omega
  rw [h1]
  cases hd : divides c m e <;> simp [hd]

theorem removeListX_spec : ∀ (l : List (Ext T)) (i : ℕ) (out : List T),
    (removeListX c f m l i out = .done (kept c m l l.length) (out ++ gone c m l l.length) (gone c m l l.length).length ∧
      ∀ k, ¬ Stops c f m l i out k) ∨
    (∃ k, k < l.length ∧ Stops c f m l i out k ∧ (∀ j, j < k → ¬ Stops c f m l i out j) ∧
      removeListX c f m l i out = .threw (kept c m l k ++ l.drop k) (out ++ gone c m l k))
  | [], i, out => by
    left
    refine ⟨by simp [removeListX, kept, gone], ?_⟩
    rintro k ⟨e, he, -⟩
    simp at he
  | e :: l, i, out => by
    have hk : ∀ k, kept c m (e :: l) (k + 1) = (if divides c m e then [] else [e]) ++ kept c m l k := by
      intro k
      unfold kept
      rw [List.take_succ_cons, List.filter_cons]
      cases hd : divides c m e <;> simp
    have hg : ∀ k, gone c m (e :: l) (k + 1) = (if divides c m e then [e.t] else []) ++ gone c m l k := by
      intro k
      unfold gone
      rw [List.take_succ_cons, List.filter_cons]
      cases hd : divides c m e <;> simp
    rw [removeListX]
    by_cases h1 : (asks c m e && f.onDivides i) = true
    · right
      rw [if_pos h1]
      rw [Bool.and_eq_true] at h1
      exact ⟨0, by simp, stops_zero.2 (.inl h1), fun j hj => absurd hj (Nat.not_lt_zero j), by simp [kept, gone]⟩
    · rw [if_neg h1]
      cases hd : divides c m e with
      | true =>
        rw [if_pos rfl]
        by_cases h2 : f.onOutput (out ++ [e.t]) = true
        · right
          rw [if_pos h2]
          exact ⟨0, by simp, stops_zero.2 (.inr ⟨hd, h2⟩), fun j hj => absurd hj (Nat.not_lt_zero j), by simp [kept, gone]⟩
        · rw [if_neg h2]
          have h0 : ¬ Stops c f m (e :: l) i out 0 := by
            rw [stops_zero, hd]
            rintro (⟨a, b⟩ | ⟨-, b⟩)
            · rw [a, b] at h1; exact h1 rfl
            · exact h2 b
          have hs : ∀ k, Stops c f m (e :: l) i out (k + 1) ↔ Stops c f m l (i + 1) (out ++ [e.t]) k := by
            intro k
            rw [stops_succ, hd, if_pos rfl]
          rcases removeListX_spec l (i + 1) (out ++ [e.t]) with ⟨a1, a2⟩ | ⟨k, a1, a2, a3, a4⟩
          · left
            rw [a1]
            refine ⟨?_, ?_⟩
            · rw [List.length_cons, hk, hg, hd]
              simp
            · rintro (_ | k)
              · exact h0
              · rw [hs]; exact a2 k
          · right
            rw [a4]
            refine ⟨k + 1, by simpa using a1, (hs k).2 a2, ?_, ?_⟩
            · rintro (_ | j) hj
              · exact h0
              · rw [hs]; exact a3 j (by omega)
            · rw [hk, hg, hd]
              simp
      | false =>
        rw [if_neg (by decide)]
        have h0 : ¬ Stops c f m (e :: l) i out 0 := by
          rw [stops_zero, hd]
          rintro (⟨a, b⟩ | ⟨b, -⟩)
          · rw [a, b] at h1; exact h1 rfl
          · exact absurd b (by decide)
        have hs : ∀ k, Stops c f m (e :: l) i out (k + 1) ↔ Stops c f m l (i + 1) out k := by
          intro k
          rw [stops_succ, hd, if_neg (by decide), List.append_nil]
        rcases removeListX_spec l (i + 1) out with ⟨a1, a2⟩ | ⟨k, a1, a2, a3, a4⟩
        · left
          rw [a1]
          refine ⟨?_, ?_⟩
          · rw [List.length_cons, hk, hg, hd]
            simp
          · rintro (_ | k)
            · exact h0
            · rw [hs]; exact a2 k
        · right
          rw [a4]
          refine ⟨k + 1, by simpa using a1, (hs k).2 a2, ?_, ?_⟩
          · rintro (_ | j) hj
            · exact h0
            · rw [hs]; exact a3 j (by omega)
          · rw [hk, hg, hd]
            simp

theorem kept_gone_length (l : List (Ext T)) : l.length - (kept c m l l.length).length = (gone c m l l.length).length := by
  have : ∀ l : List (Ext T), (l.filter (fun e => !divides c m e)).length + (l.filter (fun e => divides c m e)).length = l.length := by
    intro l
    induction l with
    | nil => rfl
    | cons e l ih =>
      rw [List.filter_cons, List.filter_cons]
      cases divides c m e <;> simp <;> omega
  have := this l
  unfold kept gone
  rw [List.take_length, List.length_map]
  omega

/-- A removal without exception is what `DivList.lean` has. -/
theorem removeX_done {s : State T} {t : T} (h : ∀ k, ¬ Stops c f (ext c s t) s.list 0 [] k) :
    removeX c s t f = (removeMultiples c s t).map (fun r => (.ret (.removed r.1 r.2.1), r.2.2)) := by
  have hboth : (if c.useLinkedList then some (removeMultiplesList c (ext c s t) s.list)
      else removeMultiplesVector c (ext c s t) s.list) =
      some (kept c (ext c s t) s.list s.list.length, gone c (ext c s t) s.list s.list.length,
        (gone c (ext c s t) s.list s.list.length).length) := by
    unfold kept gone
    rw [List.take_length]
    split
    · rw [removeMultiplesList_spec, List.length_map]
    · rw [removeMultiplesVector_spec, List.length_map]
  have hX : (if c.useLinkedList then removeListX c f (ext c s t) s.list 0 [] else removeVectorX c f (ext c s t) s.list) =
      .done (kept c (ext c s t) s.list s.list.length) (gone c (ext c s t) s.list s.list.length)
        (gone c (ext c s t) s.list s.list.length).length := by
    split
    · rcases removeListX_spec (c := c) (f := f) (m := ext c s t) s.list 0 [] with ⟨a1, _⟩ | ⟨k, _, a2, _, _⟩
      · rw [a1, List.nil_append]
      · exact absurd a2 (h k)
    · rcases removeVectorX_spec (c := c) (f := f) (m := ext c s t) s.list with ⟨a1, _⟩ | ⟨k, _, a2, _, _⟩
      · rw [a1, kept_gone_length]
      · exact absurd a2 (h k)
  unfold removeX removeMultiples
  rw [hX]
  simp only
  rw [hboth]
  simp only
  cases reportChanges c { s with list := kept c (ext c s t) s.list s.list.length } (gone c (ext c s t) s.list s.list.length).length <;> rfl

theorem stops_none {l : List (Ext T)} {i : ℕ} {out : List T} (k : ℕ) : ¬ Stops c .none m l i out k := by
  rintro ⟨e, -, ⟨-, h⟩ | ⟨-, h⟩⟩ <;> exact absurd h (by simp [Faults.none])

/-! ## On entries -/

theorem map_ext_filter {s : State T} {p : Ext T → Bool} {q : T → Bool} (hpq : ∀ t, p (ext c s t) = q t) (l : List T) :
    ((l.map (ext c s)).filter p).map Ext.t = l.filter q := by
  rw [List.filter_map, List.map_map]
  have e : p ∘ ext c s = q := funext hpq
  rw [e]
  exact List.map_id _

theorem kept_contents (hl : c.Lawful) {s : State T} (h : MaskInv c s) (t : T) (k : ℕ) :
    (kept c (ext c s t) s.list k).map Ext.t = (s.contents.take k).filter (fun x => !c.dm.divides t x) := by
  unfold kept
  conv_lhs => rw [h.masks]
  rw [← List.map_take]
  exact map_ext_filter (fun x => by rw [h.divides hl]) _

theorem gone_contents (hl : c.Lawful) {s : State T} (h : MaskInv c s) (t : T) (k : ℕ) :
    gone c (ext c s t) s.list k = (s.contents.take k).filter (fun x => c.dm.divides t x) := by
  unfold gone
  conv_lhs => rw [h.masks]
  rw [← List.map_take]
  exact map_ext_filter (fun x => by rw [h.divides hl]) _

theorem kept_sublist (l : List (Ext T)) (k : ℕ) : (kept c m l k ++ l.drop k).Sublist l := by
  conv_rhs => rw [← List.take_append_drop k l]
  unfold kept
  exact List.filter_sublist.append (List.Sublist.refl _)

/-- One call of `removeMultiples` on a linked list. -/
theorem removeX_linked (hl : c.Lawful) (hlink : c.useLinkedList = true) {s : State T} (h : Inv c s) (t : T) (f : Faults T) :
    ∃ r s', removeX c s t f = some (r, s') ∧ StepX c s.contents (.remove t f) r s'.contents ∧ Inv c s' := by
  rcases removeListX_spec (c := c) (f := f) (m := ext c s t) s.list 0 [] with ⟨_, a2⟩ | ⟨k, a1, _, _, a4⟩
  · rw [removeX_done a2]
    obtain ⟨s', b1, b2, b3⟩ := removeMultiples_spec hl h t
    rw [b1]
    refine ⟨_, s', rfl, ?_, b3⟩
    rw [b2]
    exact .removed .removeMultiples
  · unfold removeX
    rw [if_pos hlink, a4]
    refine ⟨_, _, rfl, ?_, ?_⟩
    · have hk : k < s.contents.length := by
        unfold State.contents
        rwa [List.length_map]
      have e1 : s.contents = s.contents.take k ++ s.contents[k] :: s.contents.drop (k + 1) := by
        rw [← List.drop_eq_getElem_cons hk, List.take_append_drop]
      have e2 : ({ s with list := kept c (ext c s t) s.list k ++ s.list.drop k } : State T).contents =
          (s.contents.take k).filter (fun x => !c.dm.divides t x) ++ s.contents[k] :: s.contents.drop (k + 1) := by
        rw [← List.drop_eq_getElem_cons hk, ← kept_contents hl h.toMaskInv]
        unfold State.contents
        rw [List.map_append, List.map_drop]
      rw [e2, List.nil_append, gone_contents hl h.toMaskInv]
      conv in s.contents => rw [e1]
      exact .threw
    · have hsub := kept_sublist (c := c) (m := ext c s t) s.list k
      refine ⟨maskInv_sublist h.toMaskInv hsub, fun hso => ?_⟩
      exact (h.sorted hso).sublist (hsub.map Ext.t)

theorem runX_linked (hl : c.Lawful) (hlink : c.useLinkedList = true) : ∀ (ops : List (OpX T)) {s : State T}, Inv c s →
    (∀ op ∈ ops, AllowedX c op) → ((∀ op ∈ ops, op.NoMove) → ∃ rs s', runX c s ops = some (rs, s')) ∧
    ∀ rs s', runX c s ops = some (rs, s') → Inv c s' ∧ TraceX c s.contents ops rs s'.contents
  | [], s, h, _ => by
    refine ⟨fun _ => ⟨[], s, rfl⟩, ?_⟩
    intro rs s' hr
    cases hr
    exact ⟨h, .nil⟩
  | op :: ops, s, h, ha => by
    have hstep : (op.NoMove → ∃ r s', stepX c s op = some (r, s')) ∧
        ∀ r s', stepX c s op = some (r, s') → Inv c s' ∧ StepX c s.contents op r s'.contents := by
      cases op with
      | remove t f =>
        obtain ⟨r, s', a1, a2, a3⟩ := removeX_linked hl hlink h t f
        refine ⟨fun _ => ⟨r, s', a1⟩, ?_⟩
        intro r' s'' h'
        rw [stepX, a1] at h'
        cases h'
        exact ⟨a3, a2⟩
      | op o =>
        have := step_spec hl h o (ha _ List.mem_cons_self)
        rcases this with ⟨b0, b1, b2⟩ | ⟨b0, r, s1, b1, b2, b3, b4⟩
        · refine ⟨fun hn => ?_, ?_⟩
          · exfalso
            cases o <;> simp_all [Op.Pre, OpX.NoMove]
          · intro r s' hr
            rw [stepX, b1] at hr
            cases hr
        · refine ⟨fun _ => ⟨_, _, by rw [stepX, b1]; rfl⟩, ?_⟩
          intro r' s' hr
          rw [stepX, b1] at hr
          cases hr
          exact ⟨b3, .op b4⟩
    have ha' : ∀ op ∈ ops, AllowedX c op := fun o ho => ha o (List.mem_cons_of_mem _ ho)
    constructor
    · intro hn
      obtain ⟨r, s1, a1⟩ := hstep.1 (hn op List.mem_cons_self)
      obtain ⟨a2, -⟩ := hstep.2 _ _ a1
      obtain ⟨rs, s2, a4⟩ := (runX_linked hl hlink ops a2 ha').1 (fun o ho => hn o (List.mem_cons_of_mem _ ho))
      exact ⟨r :: rs, s2, by rw [runX, a1]; simp only; rw [a4]⟩
    · intro rs s' hr
      rw [runX] at hr
      split at hr
      · cases hr
      · rename_i r s1 a1
        obtain ⟨a2, a3⟩ := hstep.2 _ _ a1
        split at hr
        · cases hr
        · rename_i rs' s2 a4
          cases hr
          obtain ⟨a5, a6⟩ := (runX_linked hl hlink ops a2 ha').2 _ _ a4
          exact ⟨a5, .cons a3 a6⟩

end Verif.DivList
