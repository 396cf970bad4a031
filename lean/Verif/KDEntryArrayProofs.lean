import Verif.KDTreeSpec
import Verif.DivListProofs
import Mathlib.Data.List.Perm.Lattice

/-!
# Lemmas on `KDEntryArray`
-/

namespace Verif.KDTree

open Verif.DivMask (Ext Bits Mask combineAnd canDivide canDivide_iff maxMask)
open Verif.DivList (Sorted)

variable {T : Type} {c : Conf T} {bits : Bits}

/-- The calculator was built from something. -/
def Calc (c : Conf T) (bits : Bits) : Prop := c.useDivMask = true → DivMask.Built c.dm bits

/-- The mask of an extended entry is that of the calculator. -/
def IsExt (c : Conf T) (bits : Bits) (x : Ext T) : Prop := x = Ext.make c.dm bits x.t

theorem isExt_make (t : T) : IsExt c bits (Ext.make c.dm bits t) := rfl

theorem divides_eq (hl : c.Lawful) (hc : Calc c bits) {a b : Ext T} (ha : IsExt c bits a) (hb : IsExt c bits b) :
    divides c a b = c.dm.divides a.t b.t := by
  unfold divides
  cases hu : c.useDivMask with
  | false => rfl
  | true =>
    rw [ha, hb]
    exact DivMask.ext_divides hl.masks (hc hu) true a.t b.t

/-! ## Masks -/

theorem canDivide_and_left {a b m : Mask} (h : canDivide a m = true) : canDivide (combineAnd a b) m = true := by
  rw [canDivide_iff] at *
  intro k hk hab
  unfold combineAnd at hab
  rw [BitVec.getLsbD_and, Bool.and_eq_true] at hab
  exact h k hk hab.1

theorem canDivide_and_right {a b m : Mask} (h : canDivide b m = true) : canDivide (combineAnd a b) m = true := by
  rw [canDivide_iff] at *
  intro k hk hab
  unfold combineAnd at hab
  rw [BitVec.getLsbD_and, Bool.and_eq_true] at hab
  exact h k hk hab.2

theorem canDivide_self (m : Mask) : canDivide m m = true := by
  rw [canDivide_iff]; exact fun _ _ h => h

theorem lower_left (hu : c.useTreeDivMask = true) {a b m : Mask} (h : canDivide a m = true) :
    canDivide (lower c a b) m = true := by
  rw [lower, hu, if_pos rfl]; exact canDivide_and_left h

theorem lower_right (hu : c.useTreeDivMask = true) {a b m : Mask} (h : canDivide b m = true) :
    canDivide (lower c a b) m = true := by
  rw [lower, hu, if_pos rfl]; exact canDivide_and_right h

/-- A mask that can divide all masks of `l` rejects no monomial that an entry of `l` divides. -/
theorem mask_keeps (hl : c.Lawful) (hc : Calc c bits) (hu : c.useTreeDivMask = true) {mask : Mask} {m : Ext T}
    (hm : IsExt c bits m) {e : Ext T} (he : IsExt c bits e) (hlow : canDivide mask e.mask = true)
    (hd : c.dm.divides e.t m.t = true) : canDivide mask m.mask = true := by
  refine DivMask.canDivide_trans hlow ?_
  rw [he, hm]
  exact DivMask.mask_sound hl.masks (hc (hl.treeMask hu)) _ _ hd

/-! ## The invariant of an array -/

/-- What holds of an array at all times. -/
structure ArrOk (c : Conf T) (bits : Bits) (a : Arr T) : Prop where
  cap : a.es.length ≤ c.leafSize
  exts : ∀ e ∈ a.es, IsExt c bits e
  low : c.useTreeDivMask = true → ∀ e ∈ a.es, canDivide a.mask e.mask = true
  sorted : c.sortOnInsert = true → Sorted (comparer c) a.es

theorem strictWeak_comparer (h : StrictWeak c.isLessThan) : StrictWeak (comparer c) where
  irrefl a := h.irrefl a.t
  trans a b d := h.trans a.t b.t d.t
  negTrans a b d := h.negTrans a.t b.t d.t

theorem arrOk_empty : ArrOk c bits (Arr.empty : Arr T) where
  cap := by simp [Arr.empty]
  exts := by simp [Arr.empty]
  low := by simp [Arr.empty]
  sorted := by simp [Arr.empty, Sorted]

theorem pushBack_eq {a : Arr T} (h : a.es.length < c.leafSize) (e : Ext T) :
    a.pushBack c e = some ⟨a.es ++ [e], lower c a.mask e.mask⟩ := by
  rw [Arr.pushBack, if_pos h]

theorem pushAll_eq : ∀ (l : List (Ext T)) (a : Arr T), a.es.length + l.length ≤ c.leafSize →
    (c.useTreeDivMask = true → ∀ e ∈ a.es, canDivide a.mask e.mask = true) →
    ∃ mask, a.pushAll c l = some ⟨a.es ++ l, mask⟩ ∧
      (c.useTreeDivMask = true → ∀ e ∈ a.es ++ l, canDivide mask e.mask = true) := by
  intro l
  induction l with
  | nil => intro a _ h; exact ⟨a.mask, by simp [Arr.pushAll], by simpa using h⟩
  | cons e l ih =>
    intro a h1 h2
    rw [List.length_cons] at h1
    rw [Arr.pushAll, pushBack_eq (by omega)]
    obtain ⟨mask, g1, g2⟩ := ih ⟨a.es ++ [e], lower c a.mask e.mask⟩ (by simp; omega) (by
      intro hu x hx
      rcases List.mem_append.mp hx with hx | hx
      · exact lower_left hu (h2 hu x hx)
      · rw [List.mem_singleton.mp hx]
        exact lower_right hu (canDivide_self _))
    exact ⟨mask, by simpa using g1, by simpa using g2⟩

theorem sortEntries_perm (hl : c.Lawful) (l : List (Ext T)) : (sortEntries c l).Perm l := by
  unfold sortEntries
  split
  · rename_i h
    exact (hl.sort h).perm _ _ (strictWeak_comparer (hl.order h))
  · exact .refl _

theorem sortEntries_sorted (hl : c.Lawful) (l : List (Ext T)) (h : c.sortOnInsert = true) :
    Sorted (comparer c) (sortEntries c l) := by
  unfold sortEntries
  rw [if_pos h]
  exact (hl.sort h).sorted _ _ (strictWeak_comparer (hl.order h))

theorem ofRange_ok (hl : c.Lawful) {l : List (Ext T)} (hlen : l.length ≤ c.leafSize)
    (hext : ∀ e ∈ l, IsExt c bits e) : ∃ a, Arr.ofRange c l = some a ∧ a.es.Perm l ∧ ArrOk c bits a := by
  obtain ⟨mask, g1, g2⟩ := pushAll_eq (c := c) l (Arr.empty : Arr T) (by simpa [Arr.empty] using hlen)
    (by simp [Arr.empty])
  have hp := sortEntries_perm hl l
  rw [Arr.ofRange, g1]
  simp only [Arr.empty, List.nil_append] at g2 ⊢
  refine ⟨_, rfl, hp, ?_, ?_, ?_, ?_⟩
  · simpa [hp.length_eq] using hlen
  · intro e he; exact hext e (hp.subset he)
  · intro hu e he; exact g2 hu e (hp.subset he)
  · exact sortEntries_sorted hl l

theorem recalculate_ok (hl : c.Lawful) {l : List (Ext T)} (m : Mask) (hlen : l.length ≤ c.leafSize)
    (hext : ∀ e ∈ l, IsExt c bits e) :
    (Arr.recalculate c ⟨sortEntries c l, m⟩).es.Perm l ∧
    ArrOk c bits (Arr.recalculate c ⟨sortEntries c l, m⟩) := by
  have hp := sortEntries_perm hl l
  have hes : (Arr.recalculate c ⟨sortEntries c l, m⟩).es = sortEntries c l := by
    unfold Arr.recalculate; split <;> rfl
  refine ⟨by rw [hes]; exact hp, ?_, ?_, ?_, ?_⟩
  · rw [hes, hp.length_eq]; exact hlen
  · rw [hes]; intro e he; exact hext e (hp.subset he)
  · intro hu e he
    rw [hes] at he
    rw [Arr.recalculate, hu]
    simp only [Bool.not_true, Bool.false_eq_true, if_false]
    exact DivMask.lowerBound_canDivide (List.mem_map_of_mem he) (canDivide_self _)
  · rw [hes]; exact sortEntries_sorted hl l

theorem shiftUp_spec {α : Type} : ∀ (n : ℕ) (l : List α) (it : ℕ), it + n < l.length →
    ∃ l', shiftUp l (it + n) n = some l' ∧ l'.length = l.length ∧
      ∀ e, l'.set it e = l.take it ++ e :: ((l.drop it).take n ++ l.drop (it + n + 1)) := by
  intro n
  induction n with
  | zero =>
    intro l it h
    refine ⟨l, rfl, rfl, ?_⟩
    intro e
    simp only [List.take_zero, List.nil_append, Nat.add_zero]
    exact List.set_eq_take_append_cons_drop.trans (by rw [if_pos (by omega)])
  | succ n ih =>
    intro l it h
    have e1 : it + (n + 1) - 1 = it + n := by omega
    rw [shiftUp, e1, List.getElem?_eq_getElem (by omega)]
    simp only
    rw [if_pos h]
    obtain ⟨l', g1, g2, g3⟩ := ih (l.set (it + (n + 1)) l[it + n]) it (by simp; omega)
    refine ⟨l', g1, by simpa using g2, ?_⟩
    intro e
    rw [g3]
    rw [List.take_set_of_le (by omega)]
    congr 2
    rw [List.drop_set, if_neg (by omega), List.take_set_of_le (by omega)]
    have d1 : (l.drop it).take (n + 1) = (l.drop it).take n ++ [l[it + n]] := by
      rw [List.take_add_one, List.getElem?_drop, List.getElem?_eq_getElem (by omega)]
      rfl
    rw [d1, List.append_assoc]
    congr 1
    rw [List.drop_set, if_neg (by omega)]
    have d2 : it + (n + 1) - (it + n + 1) = 0 := by omega
    rw [d2]
    have d3 : l.drop (it + n + 1) = l[it + n + 1] :: l.drop (it + n + 1 + 1) :=
      List.drop_eq_getElem_cons (by omega)
    rw [d3]
    simp [Nat.add_assoc]

theorem insertAt_eq {a : Arr T} (h : a.es.length < c.leafSize) {it : ℕ} (hit : it ≤ a.es.length) (e : Ext T)
    (hlow : c.useTreeDivMask = true → ∀ x ∈ a.es, canDivide a.mask x.mask = true) :
    ∃ mask, a.insertAt c it e = some ⟨a.es.take it ++ e :: a.es.drop it, mask⟩ ∧
      (c.useTreeDivMask = true → ∀ x ∈ e :: a.es, canDivide mask x.mask = true) := by
  unfold Arr.insertAt
  split
  · rename_i hend
    rw [pushBack_eq h]
    refine ⟨_, by rw [hend]; simp; rfl, ?_⟩
    intro hu x hx
    rcases List.mem_cons.mp hx with rfl | hx
    · exact lower_right hu (canDivide_self _)
    · exact lower_left hu (hlow hu x hx)
  · rename_i hne
    have hpos : a.es ≠ [] := by intro h0; rw [h0] at hit hne; simp at hit; exact hne (by simp [hit])
    rw [List.getLast?_eq_some_getLast hpos]
    simp only
    rw [pushBack_eq h]
    simp only [List.length_append, List.length_singleton, Nat.add_sub_cancel]
    obtain ⟨l', g1, g2, g3⟩ := shiftUp_spec (a.es.length - it) (a.es ++ [a.es.getLast hpos]) it (by simp; omega)
    rw [show it + (a.es.length - it) = a.es.length by omega] at g1 g3
    rw [g1]
    simp only
    rw [if_pos (by rw [g2]; simp; omega), g3]
    refine ⟨lower c (lower c a.mask (a.es.getLast hpos).mask) e.mask, ?_, ?_⟩
    · have d1 : List.take (a.es.length - it) (a.es.drop it ++ [a.es.getLast hpos]) = a.es.drop it := by
        rw [List.take_append_of_le_length (by simp), List.take_of_length_le (by simp)]
      have d2 : List.drop (a.es.length + 1) (a.es ++ [a.es.getLast hpos]) = [] :=
        List.drop_eq_nil_of_le (by simp)
      rw [List.take_append_of_le_length hit, List.drop_append_of_le_length hit, d1, d2, List.append_nil]
    · intro hu x hx
      rcases List.mem_cons.mp hx with rfl | hx
      · exact lower_right hu (canDivide_self _)
      · exact lower_left hu (lower_left hu (hlow hu x hx))

theorem upperBound_comparer (hl : c.Lawful) (hso : c.sortOnInsert = true) {l : List (Ext T)}
    (hs : Sorted (comparer c) l) (x : Ext T) : ∃ k ≤ l.length, DivList.upperBound (comparer c) l x = some k ∧
      (∀ y ∈ l.take k, comparer c x y = false) ∧ (∀ y ∈ l.drop k, comparer c x y = true) := by
  obtain ⟨l₁, l₂, h1, h2, h3, h4⟩ := DivList.sorted_split (strictWeak_comparer (hl.order hso)) x l hs
  have := DivList.upperBound_spec (f := id) (lt := comparer c) (x := x) (l := l) (l₁ := l₁) (l₂ := l₂)
    (by simpa using h1) h3 h4
  simp only [id, List.map_id_fun] at this
  refine ⟨l₁.length, by rw [h1]; simp, this.1, ?_, ?_⟩
  · rw [this.2.1]; exact h3
  · rw [this.2.2]; exact h4

theorem insert_ok (hl : c.Lawful) {a : Arr T} (h : ArrOk c bits a) (hlen : a.es.length < c.leafSize) {e : Ext T}
    (he : IsExt c bits e) : ∃ a', a.insert c e = some a' ∧ a'.es.Perm (e :: a.es) ∧ ArrOk c bits a' := by
  have hexts : ∀ x ∈ e :: a.es, IsExt c bits x := by
    intro x hx
    rcases List.mem_cons.mp hx with rfl | hx
    · exact he
    · exact h.exts x hx
  unfold Arr.insert
  cases hso : c.sortOnInsert with
  | false =>
    simp only [Bool.not_false, if_true]
    rw [pushBack_eq hlen]
    have hp : (a.es ++ [e]).Perm (e :: a.es) := List.perm_append_comm
    refine ⟨_, rfl, hp, by simp; omega, fun x hx => hexts x (hp.subset hx), ?_,
      by rw [hso]; nofun⟩
    intro hu x hx
    rcases List.mem_append.mp hx with hx | hx
    · exact lower_left hu (h.low hu x hx)
    · rw [List.mem_singleton.mp hx]
      exact lower_right hu (canDivide_self _)
  | true =>
    simp only [Bool.not_true, Bool.false_eq_true, if_false]
    obtain ⟨k, k1, k2, k3, k4⟩ := upperBound_comparer hl hso (h.sorted hso) e
    rw [k2]
    simp only
    obtain ⟨mask, g1, g2⟩ := insertAt_eq hlen k1 e h.low
    have hp : (a.es.take k ++ e :: a.es.drop k).Perm (e :: a.es) := by
      refine List.perm_middle.trans ?_
      rw [List.take_append_drop]
    refine ⟨_, g1, hp, ?_, fun x hx => hexts x (hp.subset hx), fun hu x hx => g2 hu x (hp.subset hx), ?_⟩
    · rw [hp.length_eq, List.length_cons]; omega
    · intro _
      exact DivList.sorted_insert (strictWeak_comparer (hl.order hso))
        (by rw [List.take_append_drop]; exact h.sorted hso) k3 k4

/-! ## Removal -/

theorem ArrOk.sublist {a : Arr T} (h : ArrOk c bits a) {l : List (Ext T)} (hs : l.Sublist a.es) :
    ArrOk c bits ⟨l, a.mask⟩ where
  cap := hs.length_le.trans h.cap
  exts e he := h.exts e (hs.subset he)
  low hu e he := h.low hu e (hs.subset he)
  sorted hso := (h.sorted hso).sublist hs

theorem compact_spec (p : Ext T → Bool) : ∀ (n : ℕ) (l : List (Ext T)) (it newEnd : ℕ) (out : List T),
    newEnd ≤ it → it + n = l.length →
    ∃ l', compact p l it newEnd out n =
        some (l', newEnd + ((l.drop it).filter (fun e => !p e)).length,
          out ++ ((l.drop it).filter p).map Ext.t) ∧ l'.length = l.length ∧
      l'.take (newEnd + ((l.drop it).filter (fun e => !p e)).length) =
        l.take newEnd ++ (l.drop it).filter (fun e => !p e) := by
  intro n
  induction n with
  | zero =>
    intro l it newEnd out _ h2
    have : l.drop it = [] := by rw [List.drop_eq_nil_iff]; omega
    exact ⟨l, by simp [compact, this], rfl, by simp [this]⟩
  | succ n ih =>
    intro l it newEnd out h1 h2
    have hit : it < l.length := by omega
    have hd : l.drop it = l[it] :: l.drop (it + 1) := List.drop_eq_getElem_cons hit
    rw [compact, List.getElem?_eq_getElem hit, hd]
    simp only [List.filter_cons]
    cases hdv : p l[it] with
    | false =>
      simp only [Bool.not_false, if_true, Bool.false_eq_true, if_false]
      rw [if_pos (by omega)]
      obtain ⟨l', g1, g0, g2⟩ := ih (l.set newEnd l[it]) (it + 1) (newEnd + 1) out (by omega) (by simp; omega)
      have hds : (l.set newEnd l[it]).drop (it + 1) = l.drop (it + 1) := by
        rw [List.drop_set_of_lt (by omega)]
      rw [hds] at g1 g2
      refine ⟨l', ?_, by simpa using g0, ?_⟩
      · rw [g1]
        simp only [List.length_cons]
        congr 2
        rw [Nat.add_assoc, Nat.add_comm 1]
      · rw [List.length_cons, show newEnd + (((l.drop (it + 1)).filter (fun e => !p e)).length + 1) =
          newEnd + 1 + ((l.drop (it + 1)).filter (fun e => !p e)).length by omega, g2]
        have : (l.set newEnd l[it]).take (newEnd + 1) = l.take newEnd ++ [l[it]] := by
          rw [List.take_add_one]
          simp only [List.getElem?_set_self (show newEnd < l.length by omega), Option.toList_some]
          rw [List.take_set_of_le (le_refl _)]
        rw [this]
        simp
    | true =>
      simp only [Bool.not_true, Bool.false_eq_true, if_false, if_true]
      obtain ⟨l', g1, g0, g2⟩ := ih l (it + 1) newEnd (out ++ [l[it].t]) (by omega) (by omega)
      refine ⟨l', ?_, g0, g2⟩
      rw [g1]
      simp

theorem popLoop_eq : ∀ (n : ℕ) (a : Arr T) (k : ℕ), a.es.length = k + n + 1 →
    a.popLoop k = some { a with es := a.es.take k } := by
  intro n
  induction n with
  | zero =>
    intro a k h
    have hne : a.es ≠ [] := by intro h0; rw [h0] at h; simp at h
    have h1 : a.popBack = some { a with es := a.es.dropLast } := by rw [Arr.popBack, if_neg hne]
    have h2 : a.es.dropLast = a.es.take k := by rw [List.dropLast_eq_take, h]; rfl
    rw [Arr.popLoop]
    split
    · rename_i h3; rw [h1] at h3; cases h3
    · rename_i h3; rw [h1] at h3; cases h3
      rw [if_neg (by simp; omega), h2]
  | succ n ih =>
    intro a k h
    have hne : a.es ≠ [] := by intro h0; rw [h0] at h; simp at h
    have h1 : a.popBack = some { a with es := a.es.dropLast } := by rw [Arr.popBack, if_neg hne]
    rw [Arr.popLoop]
    split
    · rename_i h3; rw [h1] at h3; cases h3
    · rename_i h3; rw [h1] at h3; cases h3
      rw [if_pos (by simp; omega), ih _ _ (by simp; omega)]
      simp only [Option.some.injEq, Arr.mk.injEq, and_true]
      rw [List.dropLast_eq_take, List.take_take, min_eq_left (by omega)]

theorem count_split {α : Type} (p : α → Bool) (l : List α) :
    (l.filter (fun e => !p e)).length + (l.filter p).length = l.length := by
  induction l with
  | nil => rfl
  | cons a l ih =>
    simp only [List.filter_cons]
    cases p a <;> simp <;> omega

theorem removeMultiples_eq (m : Ext T) (a : Arr T) (hcap : a.es.length ≤ c.leafSize) :
    a.removeMultiples c m = some (⟨a.es.filter (fun e => !divides c m e), a.mask⟩,
      (a.es.filter (fun e => divides c m e)).map Ext.t, (a.es.filter (fun e => divides c m e)).length) := by
  unfold Arr.removeMultiples
  split
  · rename_i h1
    rw [h1] at hcap
    rcases a with ⟨es, mask⟩
    match es, hcap with
    | [], _ => rfl
    | [e], _ =>
      simp only
      cases hd : divides c m e with
      | false => simp [hd]
      | true => simp [hd, Arr.popBack]
    | _ :: _ :: _, h => simp at h
  · cases hf : a.es.findIdx? (fun e => divides c m e) with
    | none =>
      rw [List.findIdx?_eq_none_iff] at hf
      have h1 : a.es.filter (fun e => divides c m e) = [] := by
        rw [List.filter_eq_nil_iff]; intro a ha; simp [hf a ha]
      have h2 : a.es.filter (fun e => !divides c m e) = a.es := by
        rw [List.filter_eq_self]; intro a ha; simp [hf a ha]
      simp [h1, h2]
    | some it =>
      rw [List.findIdx?_eq_some_iff_getElem] at hf
      obtain ⟨hit, hdv, hno⟩ := hf
      simp only [List.getElem?_eq_getElem hit]
      obtain ⟨l', g1, g0, g2⟩ := compact_spec (fun e => divides c m e) (a.es.length - (it + 1)) a.es (it + 1) it
        [a.es[it].t] (by omega) (by omega)
      rw [g1]
      simp only
      have hcd := count_split (fun e => divides c m e) (a.es.drop (it + 1))
      rw [List.length_drop] at hcd
      rw [popLoop_eq (a.es.length - 1 - (it + ((a.es.drop (it + 1)).filter (fun e => !divides c m e)).length))
        ⟨l', a.mask⟩ _ (by simp only [g0]; omega)]
      simp only
      rw [g2, g0]
      have hsplit : a.es = a.es.take it ++ a.es[it] :: a.es.drop (it + 1) := by
        conv_lhs => rw [← List.take_append_drop it a.es, List.drop_eq_getElem_cons hit]
      have hpre1 : (a.es.take it).filter (fun e => divides c m e) = [] := by
        rw [List.filter_eq_nil_iff]
        intro x hx
        obtain ⟨j, hj, rfl⟩ := List.mem_iff_getElem.mp hx
        simp only [List.length_take] at hj
        rw [List.getElem_take]
        exact hno j (by omega)
      have hpre2 : (a.es.take it).filter (fun e => !divides c m e) = a.es.take it := by
        rw [List.filter_eq_self]
        intro x hx
        obtain ⟨j, hj, rfl⟩ := List.mem_iff_getElem.mp hx
        simp only [List.length_take] at hj
        rw [List.getElem_take]
        have := hno j (by omega)
        simpa using this
      have f1 : a.es.filter (fun e => !divides c m e) =
          a.es.take it ++ (a.es.drop (it + 1)).filter (fun e => !divides c m e) := by
        conv_lhs => rw [hsplit]
        rw [List.filter_append, hpre2, List.filter_cons]
        simp [hdv]
      have f2 : a.es.filter (fun e => divides c m e) =
          a.es[it] :: (a.es.drop (it + 1)).filter (fun e => divides c m e) := by
        conv_lhs => rw [hsplit]
        rw [List.filter_append, hpre1, List.filter_cons]
        simp [hdv]
      rw [f1, f2]
      simp only [List.length_cons, List.map_cons, List.singleton_append, Option.some.injEq, Prod.mk.injEq, true_and]
      omega

theorem shiftDown_spec {α : Type} : ∀ (n : ℕ) (l : List α) (it : ℕ), it + n + 1 = l.length →
    ∃ l', shiftDown l it n = some l' ∧ l'.length = l.length ∧ l'.dropLast = l.eraseIdx it := by
  intro n
  induction n with
  | zero =>
    intro l it h
    refine ⟨l, rfl, rfl, ?_⟩
    rw [List.dropLast_eq_take, List.eraseIdx_eq_take_drop_succ, List.drop_eq_nil_of_le (by omega), List.append_nil]
    congr 1; omega
  | succ n ih =>
    intro l it h
    rw [shiftDown, List.getElem?_eq_getElem (by omega)]
    simp only
    rw [if_pos (by omega)]
    obtain ⟨l', g1, g2, g3⟩ := ih (l.set it l[it + 1]) (it + 1) (by simp; omega)
    refine ⟨l', g1, by simpa using g2, ?_⟩
    rw [g3, List.eraseIdx_eq_take_drop_succ, List.eraseIdx_eq_take_drop_succ]
    rw [List.drop_set_of_lt (by omega), List.take_add_one, List.take_set_of_le (le_refl _),
      List.getElem?_set_self (by omega), Option.toList_some, List.append_assoc]
    congr 1
    rw [List.drop_eq_getElem_cons (show it + 1 < l.length by omega)]
    rfl

theorem sameExponents_iff (m e : T) : sameExponents c m e = true ↔ Same c m e := by
  unfold sameExponents Same DivList.Same
  simp [List.all_eq_true]

/-- `removeElement` on an array: nothing, or one entry with the exponents given. -/
theorem arr_removeElement_ok {a : Arr T} (h : ArrOk c bits a) (m : T) :
    ∃ b a', a.removeElement c m = some (b, a') ∧ ArrOk c bits a' ∧
      (b = false → a' = a ∧ ∀ e ∈ a.es, ¬ Same c m e.t) ∧
      (b = true → ∃ e, Same c m e.t ∧ a.es.Perm (e :: a'.es)) := by
  unfold Arr.removeElement
  cases hf : a.es.findIdx? (fun e => sameExponents c m e.t) with
  | none =>
    rw [List.findIdx?_eq_none_iff] at hf
    refine ⟨false, a, rfl, h, fun _ => ⟨rfl, ?_⟩, nofun⟩
    intro e he hs
    rw [← sameExponents_iff] at hs
    rw [hf e he] at hs
    cases hs
  | some it =>
    rw [List.findIdx?_eq_some_iff_getElem] at hf
    obtain ⟨hit, hdv, _⟩ := hf
    simp only
    obtain ⟨l', g1, g2, g3⟩ := shiftDown_spec (a.es.length - 1 - it) a.es it (by omega)
    rw [g1]
    simp only
    have hne : l' ≠ [] := by intro h0; rw [h0] at g2; simp at g2; omega
    rw [Arr.popBack, if_neg hne]
    refine ⟨true, _, rfl, ?_, nofun, fun _ => ⟨a.es[it], (sameExponents_iff _ _).mp hdv, ?_⟩⟩
    · have := h.sublist (List.eraseIdx_sublist a.es it)
      rw [← g3] at this
      exact this
    · simp only [g3]
      exact (List.getElem_cons_eraseIdx_perm hit).symm

/-! ## Queries -/

theorem maskRejects_sound (hl : c.Lawful) (hc : Calc c bits) {a : Arr T} (h : ArrOk c bits a) {m : Ext T}
    (hm : IsExt c bits m) (hr : a.maskRejects c m = true) : ∀ e ∈ a.es, c.dm.divides e.t m.t = false := by
  unfold Arr.maskRejects at hr
  simp only [Bool.and_eq_true, Bool.not_eq_true', decide_eq_true_eq] at hr
  obtain ⟨⟨hu, _⟩, hr⟩ := hr
  intro e he
  cases hd : c.dm.divides e.t m.t with
  | false => rfl
  | true => rw [mask_keeps hl hc hu hm (h.exts e he) (h.low hu e he) hd] at hr; cases hr

/-- Entries after the upper bound divide nothing. -/
theorem after_bound (hl : c.Lawful) (hso : c.sortOnInsert = true) {a : Arr T} {m : Ext T} {k : ℕ}
    (hk : ∀ y ∈ a.es.drop k, comparer c m y = true) : ∀ y ∈ a.es.drop k, c.dm.divides y.t m.t = false := by
  intro y hy
  cases hd : c.dm.divides y.t m.t with
  | false => rfl
  | true =>
    have := hl.refines hso _ _ hd
    have h2 := hk y hy
    unfold comparer at h2
    rw [this] at h2; cases h2

theorem arr_findDivisor_ok (hl : c.Lawful) (hc : Calc c bits) {a : Arr T} (h : ArrOk c bits a)
    (hne : c.allowRemovals = false → a.es ≠ []) {m : Ext T} (hm : IsExt c bits m) :
    ∃ r, a.findDivisor c m = some r ∧
      (∀ i, r = some i → ∃ e, a.es[i]? = some e ∧ c.dm.divides e.t m.t = true) ∧
      (r = none → ∀ e ∈ a.es, c.dm.divides e.t m.t = false) := by
  have hd : ∀ e ∈ a.es, divides c e m = c.dm.divides e.t m.t := fun e he => divides_eq hl hc (h.exts e he) hm
  unfold Arr.findDivisor
  split
  · rename_i hr
    exact ⟨none, rfl, nofun, fun _ => maskRejects_sound hl hc h hm hr⟩
  · split
    · rename_i h1
      have hcap := h.cap
      rw [h1] at hcap
      rcases a with ⟨es, mask⟩
      match es, hcap with
      | [], _ =>
        cases ha : c.allowRemovals with
        | false => exact absurd rfl (hne ha)
        | true => exact ⟨none, rfl, nofun, fun _ => nofun⟩
      | [e], _ =>
        have := hd e (by simp)
        cases hdv : c.dm.divides e.t m.t with
        | false =>
          refine ⟨none, by simp [this, hdv], nofun, fun _ x hx => ?_⟩
          rw [List.mem_singleton.mp hx]; exact hdv
        | true =>
          refine ⟨some 0, by simp [this, hdv], ?_, nofun⟩
          intro i hi
          cases hi
          exact ⟨e, rfl, hdv⟩
      | _ :: _ :: _, h => simp at h
    · cases hso : c.sortOnInsert with
      | false =>
        simp only [Bool.not_false, if_true]
        refine ⟨_, rfl, ?_, ?_⟩
        · intro i hi
          rw [List.findIdx?_eq_some_iff_getElem] at hi
          obtain ⟨hi, hdv, _⟩ := hi
          exact ⟨a.es[i], List.getElem?_eq_getElem hi, by rw [← hd _ (List.getElem_mem hi)]; exact hdv⟩
        · intro hn e he
          rw [List.findIdx?_eq_none_iff] at hn
          rw [← hd e he]; exact hn e he
      | true =>
        simp only [Bool.not_true, Bool.false_eq_true, if_false]
        obtain ⟨k, k1, k2, k3, k4⟩ := upperBound_comparer hl hso (h.sorted hso) m
        rw [k2]
        simp only
        refine ⟨_, rfl, ?_, ?_⟩
        · intro i hi
          rw [List.findIdx?_eq_some_iff_getElem] at hi
          obtain ⟨hi, hdv, _⟩ := hi
          have hi' : i < a.es.length := by simp only [List.length_take] at hi; omega
          rw [List.getElem_take] at hdv
          exact ⟨a.es[i], List.getElem?_eq_getElem hi', by rw [← hd _ (List.getElem_mem hi')]; exact hdv⟩
        · intro hn e he
          rw [List.findIdx?_eq_none_iff] at hn
          rw [← List.take_append_drop k a.es] at he
          rcases List.mem_append.mp he with he | he
          · rw [← hd e (List.mem_of_mem_take he)]; exact hn e he
          · exact after_bound hl hso k4 e he

/-- What an output object receives from a list, with the last answer. -/
def deliver (proceed : List T → Flow) (got : List T) : List T → List T × Flow
  | [] => (got, .go)
  | e :: l =>
    match proceed (got ++ [e]) with
    | .go => deliver proceed (got ++ [e]) l
    | .stop => (got ++ [e], .stop)
    | .threw => (got ++ [e], .threw)

theorem deliver_append (proceed : List T → Flow) : ∀ (l₁ l₂ got : List T),
    deliver proceed got (l₁ ++ l₂) = (match deliver proceed got l₁ with
      | (g, .go) => deliver proceed g l₂
      | r => r) := by
  intro l₁
  induction l₁ with
  | nil => intro l₂ got; rfl
  | cons e l ih =>
    intro l₂ got
    rw [List.cons_append, deliver, deliver]
    cases hp : proceed (got ++ [e]) with
    | go => simp only; rw [ih]
    | stop => rfl
    | threw => rfl

theorem visit_eq (p : Ext T → Bool) (proceed : List T → Flow) : ∀ (l : List (Ext T)) (got : List T),
    visit p proceed got l = deliver proceed got ((l.filter p).map Ext.t) := by
  intro l
  induction l with
  | nil => intro got; rfl
  | cons e l ih =>
    intro got
    rw [visit, List.filter_cons]
    split
    · rw [List.map_cons, deliver]
      cases hp : proceed (got ++ [e.t]) with
      | go => simp only; exact ih _
      | stop => rfl
      | threw => rfl
    · exact ih _

theorem filter_t {l : List (Ext T)} {p : Ext T → Bool} {q : T → Bool} (h : ∀ e ∈ l, p e = q e.t) :
    (l.filter p).map Ext.t = (l.map Ext.t).filter q := by
  rw [List.filter_map]
  congr 1
  exact List.filter_congr h

theorem visitOne_eq (h1 : c.leafSize = 1) {a : Arr T} (hcap : a.es.length ≤ c.leafSize)
    (hne : c.allowRemovals = false → a.es ≠ []) (p : Ext T → Bool) (proceed : List T → Flow) (got : List T) :
    a.visitOne c p proceed got = some (deliver proceed got ((a.es.filter p).map Ext.t)) := by
  rw [h1] at hcap
  rcases a with ⟨es, mask⟩
  match es, hcap with
  | [], _ =>
    cases ha : c.allowRemovals with
    | false => exact absurd rfl (hne ha)
    | true => simp [Arr.visitOne, ha, deliver]
  | [e], _ =>
    unfold Arr.visitOne
    cases hp : p e with
    | false => simp [hp, deliver]
    | true =>
      simp only [List.isEmpty_cons, Bool.and_false, Bool.false_eq_true, if_false, hp, Bool.not_true, List.filter_cons,
        if_true, List.filter_nil, List.map_cons, List.map_nil, deliver]
      cases proceed (got ++ [e.t]) <;> rfl
  | _ :: _ :: _, h => simp at h

theorem arr_findAllDivisors_eq (hl : c.Lawful) (hc : Calc c bits) {a : Arr T} (h : ArrOk c bits a)
    (hne : c.allowRemovals = false → a.es ≠ []) {m : Ext T} (hm : IsExt c bits m) (proceed : List T → Flow)
    (got : List T) : a.findAllDivisors c m proceed got =
      some (deliver proceed got ((a.es.map Ext.t).filter (fun e => c.dm.divides e m.t))) := by
  have hd : ∀ e ∈ a.es, divides c e m = c.dm.divides e.t m.t := fun e he => divides_eq hl hc (h.exts e he) hm
  have hf := filter_t (q := fun e => c.dm.divides e m.t) hd
  unfold Arr.findAllDivisors
  split
  · rename_i hr
    have : (a.es.map Ext.t).filter (fun e => c.dm.divides e m.t) = [] := by
      rw [List.filter_eq_nil_iff]
      intro x hx
      obtain ⟨e, he, rfl⟩ := List.mem_map.mp hx
      rw [maskRejects_sound hl hc h hm hr e he]
      decide
    rw [this]
    rfl
  · split
    · rename_i h1
      rw [visitOne_eq h1 h.cap hne, hf]
    · cases hso : c.sortOnInsert with
      | false =>
        simp only [Bool.not_false, if_true]
        rw [visit_eq, hf]
      | true =>
        simp only [Bool.not_true, Bool.false_eq_true, if_false]
        obtain ⟨k, k1, k2, k3, k4⟩ := upperBound_comparer hl hso (h.sorted hso) m
        rw [k2]
        simp only
        rw [visit_eq, filter_t (q := fun e => c.dm.divides e m.t) (fun e he => hd e (List.mem_of_mem_take he))]
        congr 2
        conv_rhs => rw [← List.take_append_drop k a.es]
        rw [List.map_append, List.filter_append]
        have : ((a.es.drop k).map Ext.t).filter (fun e => c.dm.divides e m.t) = [] := by
          rw [List.filter_eq_nil_iff]
          intro x hx
          obtain ⟨e, he, rfl⟩ := List.mem_map.mp hx
          rw [after_bound hl hso k4 e he]
          decide
        rw [this, List.append_nil]

theorem arr_findAllMultiples_eq (hl : c.Lawful) (hc : Calc c bits) {a : Arr T} (h : ArrOk c bits a)
    (hne : c.allowRemovals = false → a.es ≠ []) {m : Ext T} (hm : IsExt c bits m) (proceed : List T → Flow)
    (got : List T) : a.findAllMultiples c m proceed got =
      some (deliver proceed got ((a.es.map Ext.t).filter (fun e => c.dm.divides m.t e))) := by
  have hd : ∀ e ∈ a.es, divides c m e = c.dm.divides m.t e.t := fun e he => divides_eq hl hc hm (h.exts e he)
  have hf := filter_t (q := fun e => c.dm.divides m.t e) hd
  unfold Arr.findAllMultiples
  split
  · rename_i h1
    rw [visitOne_eq h1 h.cap hne, hf]
  · rw [visit_eq, hf]

theorem arr_forAll_eq {a : Arr T} (h : ArrOk c bits a)
    (hne : c.allowRemovals = false → a.es ≠ []) (proceed : List T → Flow) (got : List T) :
    a.forAll c proceed got = some (deliver proceed got (a.es.map Ext.t)) := by
  unfold Arr.forAll
  split
  · rename_i h1
    rw [visitOne_eq h1 h.cap hne]
    simp
  · rw [visit_eq]
    simp

theorem deliver_delivered (proceed : List T → Flow) : ∀ (l got : List T),
    ∃ k ≤ l.length, (deliver proceed got l).1 = got ++ l.take k ∧
      (∀ j, 0 < j → j < k → proceed (got ++ l.take j) = .go) ∧
      (k = l.length ∨ (0 < k ∧ proceed (got ++ l.take k) ≠ .go)) ∧
      ((deliver proceed got l).2 = .threw ↔ 0 < k ∧ proceed (got ++ l.take k) = .threw) := by
  intro l
  induction l with
  | nil => intro got; exact ⟨0, le_refl _, by simp [deliver], by omega, .inl rfl, by simp [deliver]⟩
  | cons e l ih =>
    intro got
    rw [deliver]
    cases hp : proceed (got ++ [e]) with
    | stop =>
      refine ⟨1, by simp, by simp, by omega, .inr ⟨by omega, by simp [hp]⟩, by simp [hp]⟩
    | threw =>
      refine ⟨1, by simp, by simp, by omega, .inr ⟨by omega, by simp [hp]⟩, by simp [hp]⟩
    | go =>
      obtain ⟨k, h1, h2, h3, h4, h5⟩ := ih (got ++ [e])
      simp only
      refine ⟨k + 1, by simpa using h1, by rw [h2]; simp, ?_, ?_, ?_⟩
      · intro j hj0 hjk
        cases j with
        | zero => omega
        | succ j =>
          cases j with
          | zero => simpa using hp
          | succ j =>
            have := h3 (j + 1) (by omega) (by omega)
            simpa using this
      · rcases h4 with h4 | ⟨h4, h5⟩
        · exact .inl (by simp [h4])
        · exact .inr ⟨by omega, by simpa using h5⟩
      · rw [h5]
        cases k with
        | zero => simp [hp]
        | succ k => simp

theorem delivered_deliver {l l' : List T} (hp : l'.Perm l) (proceed : List T → Flow) :
    Delivered l proceed (deliver proceed [] l').1 (decide ((deliver proceed [] l').2 = .threw)) := by
  obtain ⟨k, h1, h2, h3, h4, h5⟩ := deliver_delivered proceed l' []
  simp only [List.nil_append] at h2 h3 h4 h5
  refine ⟨l', hp, k, h1, h2, h3, ?_, ?_⟩
  · rw [h2]; exact h4
  · rw [h2, decide_eq_true_iff]; exact h5

/-! ## The split -/

theorem minMax_spec {α : Type} (f : α → T) (var : ℕ) : ∀ (l : List α) (m : ℤ × ℤ),
    let r := l.foldl (fun m x => (min m.1 (c.dm.getExponent (f x) var), max m.2 (c.dm.getExponent (f x) var))) m
    r.1 ≤ m.1 ∧ m.2 ≤ r.2 ∧ (∀ x ∈ l, r.1 ≤ c.dm.getExponent (f x) var ∧ c.dm.getExponent (f x) var ≤ r.2) ∧
    (r.1 = m.1 ∨ ∃ x ∈ l, r.1 = c.dm.getExponent (f x) var) ∧
    (r.2 = m.2 ∨ ∃ x ∈ l, r.2 = c.dm.getExponent (f x) var) := by
  intro l
  induction l with
  | nil => intro m; simp
  | cons y l ih =>
    intro m
    obtain ⟨h1, h2, h3, h4, h5⟩ := ih (min m.1 (c.dm.getExponent (f y) var), max m.2 (c.dm.getExponent (f y) var))
    simp only [List.foldl_cons] at *
    refine ⟨h1.trans (min_le_left _ _), (le_max_left _ _).trans h2, ?_, ?_, ?_⟩
    · intro x hx
      rcases List.mem_cons.mp hx with rfl | hx
      · exact ⟨h1.trans (min_le_right _ _), (le_max_right _ _).trans h2⟩
      · exact h3 x hx
    · rcases h4 with h4 | ⟨x, hx, h4⟩
      · rcases min_choice m.1 (c.dm.getExponent (f y) var) with hm | hm
        · exact .inl (by rw [h4, hm])
        · exact .inr ⟨y, by simp, by rw [h4, hm]⟩
      · exact .inr ⟨x, List.mem_cons_of_mem _ hx, h4⟩
    · rcases h5 with h5 | ⟨x, hx, h5⟩
      · rcases max_choice m.2 (c.dm.getExponent (f y) var) with hm | hm
        · exact .inl (by rw [h5, hm])
        · exact .inr ⟨y, by simp, by rw [h5, hm]⟩
      · exact .inr ⟨x, List.mem_cons_of_mem _ hx, h5⟩

/-- What a split promises: the parts, and entries on both sides if the one to be inserted is counted. -/
structure SplitOk {α : Type} (c : Conf T) (f : α → T) (l : List α) (extra : Option α) (r : Split α) : Prop where
  var : r.var < c.dm.varCount
  perm : (r.le ++ r.gt).Perm l
  le : ∀ x ∈ r.le, c.dm.getExponent (f x) r.var ≤ r.exp
  gt : ∀ x ∈ r.gt, r.exp < c.dm.getExponent (f x) r.var
  someLe : ∃ x ∈ extra.toList ++ l, c.dm.getExponent (f x) r.var ≤ r.exp
  someGt : ∃ x ∈ extra.toList ++ l, r.exp < c.dm.getExponent (f x) r.var

/-- The midpoint is computed without overflow and separates. -/
theorem midpoint_ok {ty : DivMask.ExpTy} {a b : ℤ} (ha : ExpRange ty a) (hb : ExpRange ty b) (hab : a < b) :
    ∃ d e, ty.fit (b - a) = some d ∧ ty.fit (a + d / 2) = some e ∧ a ≤ e ∧ e < b := by
  cases ty with
  | signed w =>
    simp only [ExpRange] at ha hb
    have hp : (0 : ℤ) < 2 ^ (w - 1) := by positivity
    refine ⟨b - a, a + (b - a) / 2, ?_, ?_, by omega, by omega⟩
    · rw [DivMask.ExpTy.fit, if_pos ⟨by omega, by omega⟩]
    · rw [DivMask.ExpTy.fit, if_pos ⟨by omega, by omega⟩]
  | unsigned w =>
    simp only [ExpRange] at ha hb
    refine ⟨b - a, a + (b - a) / 2, ?_, ?_, by omega, by omega⟩
    · rw [DivMask.ExpTy.fit, Int.emod_eq_of_lt (by omega) (by omega)]
    · rw [DivMask.ExpTy.fit, Int.emod_eq_of_lt (by omega) (by omega)]

theorem splitLoop_ok {α : Type} (hl : c.Lawful) (f : α → T) {l : List α} {extra : Option α}
    (hne : extra.toList ++ l ≠ []) : ∀ (n var : ℕ), var < c.dm.varCount →
    (∃ r, splitLoop c f l extra var n = some (some r) ∧ SplitOk c f l extra r) ∨
    (splitLoop c f l extra var n = some none ∧
      ∀ i < n, ∀ x ∈ extra.toList ++ l, ∀ y ∈ extra.toList ++ l,
        c.dm.getExponent (f x) ((var + i) % c.dm.varCount) = c.dm.getExponent (f y) ((var + i) % c.dm.varCount)) := by
  intro n
  induction n with
  | zero => intro var _; exact .inr ⟨rfl, by omega⟩
  | succ n ih =>
    intro var hvar
    rw [splitLoop]
    obtain ⟨first, hfirst, hmem, hall⟩ : ∃ first, firstOf l extra = some first ∧
        first ∈ extra.toList ++ l ∧ ∀ x ∈ extra.toList ++ l, x = first ∨ x ∈ l := by
      cases extra with
      | some x => exact ⟨x, rfl, by simp, by simp⟩
      | none =>
        cases l with
        | nil => simp at hne
        | cons y l => exact ⟨y, rfl, by simp, fun x hx => .inr (by simpa using hx)⟩
    rw [hfirst]
    simp only
    obtain ⟨h1, h2, h3, h4, h5⟩ := minMax_spec (c := c) f var l
      (c.dm.getExponent (f first) var, c.dm.getExponent (f first) var)
    have hmm : (l.foldl (fun m x => (min m.1 (c.dm.getExponent (f x) var), max m.2 (c.dm.getExponent (f x) var)))
      (c.dm.getExponent (f first) var, c.dm.getExponent (f first) var)) = minMax c f var first l := rfl
    rw [hmm] at h1 h2 h3 h4 h5
    simp only at h1 h2 h4 h5
    have hmin : ∃ x ∈ extra.toList ++ l, (minMax c f var first l).1 = c.dm.getExponent (f x) var := by
      rcases h4 with h4 | ⟨x, hx, h4⟩
      · exact ⟨first, hmem, h4⟩
      · exact ⟨x, List.mem_append_right _ hx, h4⟩
    have hmax : ∃ x ∈ extra.toList ++ l, (minMax c f var first l).2 = c.dm.getExponent (f x) var := by
      rcases h5 with h5 | ⟨x, hx, h5⟩
      · exact ⟨first, hmem, h5⟩
      · exact ⟨x, List.mem_append_right _ hx, h5⟩
    have hb : ∀ x ∈ extra.toList ++ l, (minMax c f var first l).1 ≤ c.dm.getExponent (f x) var ∧
        c.dm.getExponent (f x) var ≤ (minMax c f var first l).2 := by
      intro x hx
      rcases hall x hx with rfl | hx
      · exact ⟨h1, h2⟩
      · exact h3 x hx
    split
    · rename_i heq
      rcases ih ((var + 1) % c.dm.varCount) (Nat.mod_lt _ (by omega)) with h | ⟨ha, hb'⟩
      · exact .inl h
      · refine .inr ⟨ha, ?_⟩
        intro i hi x hx y hy
        cases i with
        | zero =>
          rw [Nat.add_zero, Nat.mod_eq_of_lt hvar]
          have := hb x hx
          have := hb y hy
          omega
        | succ i =>
          have := hb' i (by omega) x hx y hy
          rw [Nat.mod_add_mod] at this
          rw [show var + (i + 1) = var + 1 + i by omega]
          exact this
    · rename_i hneq
      obtain ⟨x, hx, hxe⟩ := hmin
      obtain ⟨y, hy, hye⟩ := hmax
      have hlt : (minMax c f var first l).1 < (minMax c f var first l).2 := by
        have := hb x hx
        omega
      obtain ⟨d, e, e1, e2, e3, e4⟩ := midpoint_ok (ty := c.dm.ty) (a := (minMax c f var first l).1)
        (b := (minMax c f var first l).2) (by rw [hxe]; exact hl.range _ _ hvar)
        (by rw [hye]; exact hl.range _ _ hvar) hlt
      rw [e1]
      simp only
      rw [e2]
      simp only
      obtain ⟨p1, p2, p3⟩ := hl.partition (equalOrLess c f var e) l
      refine .inl ⟨_, rfl, hvar, p1, ?_, ?_, ⟨x, hx, by simp only; omega⟩, ⟨y, hy, by simp only; omega⟩⟩
      · intro z hz
        have := p2 z hz
        simp only [equalOrLess, Bool.not_eq_true', decide_eq_false_iff_not, not_lt] at this
        exact this
      · intro z hz
        have := p3 z hz
        simp only [equalOrLess, Bool.not_eq_false', decide_eq_true_eq] at this
        exact this

/-- `split` separates, or throws and all entries have the same exponents. -/
theorem split_ok {α : Type} (hl : c.Lawful) (f : α → T) {l : List α} {extra : Option α}
    (hne : extra.toList ++ l ≠ []) (hint : Option ℕ) :
    (∃ r, split c f l extra hint = some (some r) ∧ SplitOk c f l extra r) ∨
    (split c f l extra hint = some none ∧ ∀ x ∈ extra.toList ++ l, ∀ y ∈ extra.toList ++ l, Same c (f x) (f y)) := by
  unfold split
  by_cases h0 : c.dm.varCount = 0
  · right
    rw [h0]
    refine ⟨rfl, ?_⟩
    intro x _ y _ v hv
    omega
  · generalize nextVar hint = v0
    rcases splitLoop_ok hl f hne c.dm.varCount (v0 % c.dm.varCount) (Nat.mod_lt _ (by omega)) with h | ⟨h1, h2⟩
    · exact .inl h
    · refine .inr ⟨h1, ?_⟩
      intro x hx y hy v hv
      have hlt : v0 % c.dm.varCount < c.dm.varCount := Nat.mod_lt _ (by omega)
      have := h2 ((v + c.dm.varCount - v0 % c.dm.varCount) % c.dm.varCount) (Nat.mod_lt _ (by omega)) x hx y hy
      rw [Nat.add_mod_mod, show v0 % c.dm.varCount + (v + c.dm.varCount - v0 % c.dm.varCount) = v + c.dm.varCount by omega,
        Nat.add_mod_right, Nat.mod_eq_of_lt hv] at this
      exact this

end Verif.KDTree
