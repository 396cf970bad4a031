import Verif.KDMem
import Verif.KDTreeProofs

/-!
# Lemmas on arrays of entries in memory
-/

namespace Verif.KDMem

open Verif.DivMask (Ext Bits Mask combineAnd canDivide maxMask)
open Verif.KDTree (Conf Flow Arr Split lower comparer sortEntries divides sameExponents)

variable {T : Type} {c : Conf T}

/-- Memory with the entries `l` followed by `k` places of raw memory. -/
def raw (l : List (Ext T)) (k : ℕ) : Slots T := l.map some ++ List.replicate k none

theorem raw_get_lt {l : List (Ext T)} {k i : ℕ} (h : i < l.length) : (raw l k)[i]? = some (some l[i]) := by
  rw [raw, List.getElem?_append_left (by simpa using h)]
  simp [h]

theorem raw_get_ge {l : List (Ext T)} {k i : ℕ} (h : l.length ≤ i) (h' : i < l.length + k) : (raw l k)[i]? = some none := by
  rw [raw, List.getElem?_append_right (by simpa using h)]
  rw [List.getElem?_replicate]
  simp; omega

theorem raw_set {l : List (Ext T)} {k i : ℕ} (h : i < l.length) (e : Ext T) :
    (raw l k).set i (some e) = raw (l.set i e) k := by
  rw [raw, List.set_append_left _ _ (by simpa using h), raw, List.map_set]

theorem read_raw {l : List (Ext T)} {k i : ℕ} (h : i < l.length) : read (raw l k) i = some l[i] := by
  rw [read, raw_get_lt h]

theorem assign_raw {l : List (Ext T)} {k i : ℕ} (h : i < l.length) (e : Ext T) :
    assign (raw l k) i e = some (raw (l.set i e) k) := by
  rw [assign, raw_get_lt h]
  simp only
  rw [raw_set h]

theorem construct_raw (l : List (Ext T)) (k : ℕ) (e : Ext T) :
    construct (raw l (k + 1)) l.length e = some (raw (l ++ [e]) k) := by
  rw [construct, raw_get_ge (le_refl _) (by omega)]
  simp only [Option.some.injEq]
  rw [raw, List.set_append_right _ _ (by simp)]
  simp [raw, List.replicate_succ]

theorem destruct_raw (l : List (Ext T)) (k : ℕ) (e : Ext T) :
    destruct (raw (l ++ [e]) k) l.length = some (raw l (k + 1)) := by
  rw [destruct, raw_get_lt (by simp)]
  simp only [Option.some.injEq]
  rw [raw, List.set_append_left _ _ (by simp), List.map_append, List.set_append_right _ _ (by simp)]
  simp [raw, List.replicate_succ]

theorem readRange_raw (l : List (Ext T)) (k : ℕ) : ∀ n i, i + n = l.length →
    readRange (raw l k) i n = some (l.drop i) := by
  intro n
  induction n with
  | zero => intro i h; rw [readRange, List.drop_eq_nil_of_le (by omega)]
  | succ n ih =>
    intro i h
    rw [readRange, read_raw (by omega), ih (i + 1) (by omega), List.drop_eq_getElem_cons (show i < l.length by omega)]
    rfl

theorem assignRange_raw (k : ℕ) : ∀ (l' l : List (Ext T)) i, i + l'.length = l.length →
    assignRange (raw l k) i l' = some (raw (l.take i ++ l') k) := by
  intro l'
  induction l' with
  | nil => intro l i h; rw [assignRange, List.take_of_length_le (by simp at h; omega), List.append_nil]
  | cons e l' ih =>
    intro l i h
    rw [List.length_cons] at h
    rw [assignRange, assign_raw (by omega)]
    simp only [Option.bind_eq_bind, Option.bind_some]
    rw [ih _ _ (by simp; omega)]
    congr 2
    rw [List.take_add_one, List.take_set_of_le (le_refl _), List.getElem?_set_self (by omega)]
    simp

/-- An array in memory. -/
def ofArr (c : Conf T) (a : Arr T) : RArr T := ⟨raw a.es (c.leafSize - a.es.length), a.es.length, a.mask⟩

/-- It fits, and without tree masks there is no mask. -/
structure Fits (c : Conf T) (a : Arr T) : Prop where
  cap : a.es.length ≤ c.leafSize
  mask : c.useTreeDivMask = false → a.mask = maxMask

theorem ofArr_new : RArr.new c = ofArr c (Arr.empty : Arr T) := by
  simp [RArr.new, ofArr, Arr.empty, raw]

theorem fits_empty : Fits c (Arr.empty : Arr T) := ⟨by simp [Arr.empty], fun _ => rfl⟩

theorem view_ofArr (a : Arr T) : (ofArr c a).view = some a.es := by
  rw [RArr.view, ofArr]
  simp only
  rw [readRange_raw _ _ _ _ (by omega)]
  rfl

theorem arr_ofArr (a : Arr T) : (ofArr c a).arr = some a := by
  rw [RArr.arr, view_ofArr]; rfl

theorem permute_ofArr {a : Arr T} {l : List (Ext T)} (h : l.length = a.es.length) :
    (ofArr c a).permute l = some (ofArr c { a with es := l }) := by
  rw [RArr.permute, ofArr]
  simp only
  rw [if_pos h, assignRange_raw _ _ _ _ (by omega)]
  simp [ofArr, h]

theorem pushBack_ofArr {a a' : Arr T} {e : Ext T} (hf : Fits c a) (h : a.pushBack c e = some a') :
    (ofArr c a).pushBack c e = some (ofArr c a') ∧ Fits c a' := by
  rw [Arr.pushBack] at h
  split at h
  · rename_i hlt
    cases h
    refine ⟨?_, by simp; omega, fun hu => ?_⟩
    · rw [RArr.pushBack, ofArr]
      simp only
      obtain ⟨k, hk⟩ : ∃ k, c.leafSize - a.es.length = k + 1 := ⟨c.leafSize - a.es.length - 1, by omega⟩
      rw [hk, construct_raw, ofArr]
      simp only [Option.map_some, List.length_append, List.length_singleton, Option.some.injEq]
      rw [show c.leafSize - (a.es.length + 1) = k by omega]
    · simp [lower, hu, hf.mask hu]
  · cases h

theorem popBack_ofArr {a a' : Arr T} (hf : Fits c a) (h : a.popBack = some a') :
    (ofArr c a).popBack = some (ofArr c a') ∧ Fits c a' := by
  rw [Arr.popBack] at h
  split at h
  · cases h
  · rename_i hne
    cases h
    refine ⟨?_, by have := hf.cap; simp; omega, hf.mask⟩
    have hpos : 0 < a.es.length := List.length_pos_iff.mpr hne
    have hcap := hf.cap
    rw [RArr.popBack, ofArr]
    simp only
    rw [if_neg (by omega)]
    have hl : a.es = a.es.dropLast ++ [a.es.getLast hne] := (List.dropLast_append_getLast hne).symm
    have h1 : destruct (raw a.es (c.leafSize - a.es.length)) (a.es.length - 1) =
        some (raw a.es.dropLast (c.leafSize - a.es.length + 1)) := by
      have := destruct_raw a.es.dropLast (c.leafSize - a.es.length) (a.es.getLast hne)
      rw [← hl] at this
      rw [← this, List.length_dropLast]
    rw [h1, ofArr]
    simp only [Option.map_some, List.length_dropLast]
    rw [show c.leafSize - (a.es.length - 1) = c.leafSize - a.es.length + 1 by omega]

theorem popBack_some {a : Arr T} (h : a.es ≠ []) : a.popBack = some { a with es := a.es.dropLast } := by
  rw [Arr.popBack, if_neg h]

theorem popWhile_ofArr : ∀ (d : ℕ) {a : Arr T} {n : ℕ}, Fits c a → a.es.length = n + d →
    (ofArr c a).popWhile n = some (ofArr c { a with es := a.es.take n }) := by
  intro d
  induction d with
  | zero =>
    intro a n hf h
    rw [RArr.popWhile, if_pos (by simpa [ofArr] using h), List.take_of_length_le (by omega)]
  | succ d ih =>
    intro a n hf h
    have hne : a.es ≠ [] := by intro h0; rw [h0] at h; simp at h
    obtain ⟨g1, g2⟩ := popBack_ofArr hf (popBack_some hne)
    rw [RArr.popWhile, if_neg (by simp [ofArr]; omega), g1]
    simp only [Option.bind_eq_bind, Option.bind_some]
    rw [ih g2 (by simp; omega)]
    congr 2
    simp only [Arr.mk.injEq, and_true]
    rw [List.dropLast_eq_take, List.take_take, min_eq_left (by omega)]

theorem pushAll_ofArr : ∀ (l : List (Ext T)) {a a' : Arr T}, Fits c a → a.pushAll c l = some a' →
    (ofArr c a).pushAll c l = some (ofArr c a') ∧ Fits c a' := by
  intro l
  induction l with
  | nil => intro a a' hf h; cases h; exact ⟨rfl, hf⟩
  | cons e l ih =>
    intro a a' hf h
    rw [Arr.pushAll] at h
    split at h
    · cases h
    · rename_i a1 h1
      obtain ⟨g1, g2⟩ := pushBack_ofArr hf h1
      rw [RArr.pushAll, g1]
      exact ih g2 h

theorem sort_ofArr (hs : ∀ l : List (Ext T), (sortEntries c l).length = l.length) {a : Arr T} :
    (ofArr c a).sort c = some (ofArr c { a with es := sortEntries c a.es }) := by
  rw [RArr.sort]
  split
  · rename_i h
    rw [view_ofArr]
    simp only [Option.bind_eq_bind, Option.bind_some]
    have : c.sort (comparer c) a.es = sortEntries c a.es := by rw [sortEntries, if_pos h]
    rw [this, permute_ofArr (hs _)]
  · rename_i h
    rw [sortEntries, if_neg h]

theorem ofRange_ofArr (hs : ∀ l : List (Ext T), (sortEntries c l).length = l.length) {l : List (Ext T)} {a : Arr T}
    (h : Arr.ofRange c l = some a) : RArr.ofRange c l = some (ofArr c a) ∧ Fits c a := by
  rw [Arr.ofRange] at h
  split at h
  · cases h
  · rename_i a1 h1
    cases h
    obtain ⟨g1, g2⟩ := pushAll_ofArr l fits_empty h1
    rw [RArr.ofRange, ofArr_new, g1]
    exact ⟨sort_ofArr hs, by rw [hs]; exact g2.cap, g2.mask⟩

theorem shiftUp_raw (k : ℕ) : ∀ (n : ℕ) (l l' : List (Ext T)) (m : ℕ), KDTree.shiftUp l m n = some l' →
    shiftUp (raw l k) m n = some (raw l' k) ∧ l'.length = l.length := by
  intro n
  induction n with
  | zero => intro l l' m h; cases h; exact ⟨rfl, rfl⟩
  | succ n ih =>
    intro l l' m h
    rw [KDTree.shiftUp] at h
    split at h
    · cases h
    · rename_i x hx
      split at h
      · rename_i hm
        obtain ⟨hx1, hx2⟩ := List.getElem?_eq_some_iff.mp hx
        obtain ⟨g1, g2⟩ := ih _ _ _ h
        rw [shiftUp, read_raw hx1]
        simp only [Option.bind_eq_bind, Option.bind_some]
        rw [assign_raw hm, hx2]
        exact ⟨g1, by simpa using g2⟩
      · cases h

theorem insertAt_ofArr {a a' : Arr T} {it : ℕ} {e : Ext T} (hf : Fits c a) (h : a.insertAt c it e = some a') :
    (ofArr c a).insertAt c it e = some (ofArr c a') ∧ Fits c a' := by
  rw [Arr.insertAt] at h
  rw [RArr.insertAt]
  have hlen : (ofArr c a).len = a.es.length := rfl
  split at h
  · rename_i hit
    rw [if_pos (by rw [hlen]; exact hit)]
    exact pushBack_ofArr hf h
  · rename_i hit
    rw [if_neg (by rw [hlen]; exact hit)]
    split at h
    · cases h
    · rename_i b hb
      split at h
      · cases h
      · rename_i a1 h1
        split at h
        · cases h
        · rename_i es hes
          split at h
          · rename_i hit2
            cases h
            have hpos : a.es ≠ [] := by intro h0; rw [h0] at hb; cases hb
            have hpos' : 0 < a.es.length := List.length_pos_iff.mpr hpos
            have hr : read (ofArr c a).slots ((ofArr c a).len - 1) = some b := by
              have h2 : a.es.length - 1 < a.es.length := by omega
              show read (raw a.es _) (a.es.length - 1) = _
              rw [read_raw h2]
              rw [List.getLast?_eq_getElem?, List.getElem?_eq_getElem h2] at hb
              exact hb
            obtain ⟨g1, g2⟩ := pushBack_ofArr hf h1
            rw [hr]
            simp only [Option.bind_eq_bind, Option.bind_some, g1]
            obtain ⟨k1, k2⟩ := shiftUp_raw (c.leafSize - a1.es.length) _ _ _ _ hes
            have k1' : shiftUp (ofArr c a1).slots ((ofArr c a1).len - 1) ((ofArr c a1).len - 1 - it) =
                some (raw es (c.leafSize - a1.es.length)) := k1
            rw [k1']
            simp only [Option.bind_some]
            rw [assign_raw hit2]
            simp only [Option.bind_some]
            refine ⟨?_, by rw [List.length_set, k2]; exact g2.cap, ?_⟩
            · simp only [ofArr, List.length_set, k2]
            · intro hu
              simp [lower, hu, g2.mask hu]
          · cases h

theorem insert_ofArr {a a' : Arr T} {e : Ext T} (hf : Fits c a) (h : a.insert c e = some a') :
    (ofArr c a).insert c e = some (ofArr c a') ∧ Fits c a' := by
  rw [Arr.insert] at h
  rw [RArr.insert]
  split at h
  · rename_i hs
    rw [if_pos hs]
    exact pushBack_ofArr hf h
  · rename_i hs
    rw [if_neg hs]
    split at h
    · cases h
    · rename_i it hit
      rw [view_ofArr]
      simp only [Option.bind_eq_bind, Option.bind_some, hit]
      exact insertAt_ofArr hf h

theorem compact_raw (p : Ext T → Bool) (k : ℕ) : ∀ (n : ℕ) (l l' : List (Ext T)) (it e e' : ℕ) (out out' : List T),
    KDTree.compact p l it e out n = some (l', e', out') →
    compact p (raw l k) it e out n = some (raw l' k, e', out') ∧ l'.length = l.length := by
  intro n
  induction n with
  | zero => intro l l' it e e' out out' h; cases h; exact ⟨rfl, rfl⟩
  | succ n ih =>
    intro l l' it e e' out out' h
    rw [KDTree.compact] at h
    split at h
    · cases h
    · rename_i x hx
      obtain ⟨hx1, hx2⟩ := List.getElem?_eq_some_iff.mp hx
      rw [compact, read_raw hx1]
      simp only [Option.bind_eq_bind, Option.bind_some, hx2]
      split at h
      · rename_i hp
        rw [if_pos hp]
        split at h
        · rename_i he
          rw [assign_raw he]
          simp only [Option.bind_some]
          obtain ⟨g1, g2⟩ := ih _ _ _ _ _ _ _ h
          exact ⟨g1, by simpa using g2⟩
        · cases h
      · rename_i hp
        rw [if_neg hp]
        exact ih _ _ _ _ _ _ _ h

theorem popLoop_ofArr : ∀ (n : ℕ) {a a' : Arr T} {k : ℕ}, Fits c a → a.es.length = n → a.popLoop k = some a' →
    (ofArr c a).popLoop k = some (ofArr c a') ∧ Fits c a' := by
  intro n
  induction n with
  | zero =>
    intro a a' k hf h h'
    have h0 := List.length_eq_zero_iff.mp h
    have : a.popBack = none := by rw [Arr.popBack, if_pos h0]
    rw [Arr.popLoop] at h'
    split at h'
    · cases h'
    · rename_i a1 h1; rw [this] at h1; cases h1
  | succ n ih =>
    intro a a' k hf h h'
    have hne : a.es ≠ [] := by intro h0; rw [h0] at h; simp at h
    obtain ⟨g1, g2⟩ := popBack_ofArr hf (popBack_some hne)
    rw [Arr.popLoop] at h'
    split at h'
    · rename_i h1; rw [popBack_some hne] at h1; cases h1
    · rename_i a1 h1
      rw [popBack_some hne] at h1
      cases h1
      rw [RArr.popLoop, g1]
      simp only [Option.bind_eq_bind, Option.bind_some]
      split at h'
      · rename_i hk
        rw [if_pos (by simpa [ofArr] using hk)]
        exact ih g2 (by simp; omega) h'
      · rename_i hk
        rw [if_neg (by simpa [ofArr] using hk)]
        cases h'
        exact ⟨rfl, g2⟩

theorem removeMultiples_ofArr {a a' : Arr T} {m : Ext T} {out : List T} {n : ℕ} (hf : Fits c a)
    (h : a.removeMultiples c m = some (a', out, n)) :
    (ofArr c a).removeMultiples c m = some (ofArr c a', out, n) ∧ Fits c a' := by
  rw [Arr.removeMultiples] at h
  rw [RArr.removeMultiples]
  split at h
  · rename_i h1
    rw [if_pos h1]
    split at h
    · rename_i he
      cases h
      rw [if_pos (by simp [ofArr, he])]
      exact ⟨rfl, hf⟩
    · rename_i e l he
      rw [if_neg (by simp [ofArr, he])]
      have hr : read (ofArr c a).slots 0 = some e := by
        show read (raw a.es _) 0 = _
        rw [read_raw (by rw [he]; simp)]
        simp [he]
      rw [hr]
      simp only [Option.bind_eq_bind, Option.bind_some]
      split at h
      · rename_i hd
        rw [if_pos hd]
        cases h
        exact ⟨rfl, hf⟩
      · rename_i hd
        rw [if_neg hd]
        split at h
        · cases h
        · rename_i a1 ha1
          cases h
          obtain ⟨g1, g2⟩ := popBack_ofArr hf ha1
          rw [g1]
          exact ⟨rfl, g2⟩
  · rename_i h1
    rw [if_neg h1]
    rw [view_ofArr]
    simp only [Option.bind_eq_bind, Option.bind_some]
    split at h
    · rename_i hi
      cases h
      rw [hi]
      exact ⟨rfl, hf⟩
    · rename_i it hi
      rw [hi]
      simp only
      split at h
      · cases h
      · rename_i e he
        obtain ⟨hx1, hx2⟩ := List.getElem?_eq_some_iff.mp he
        have hr : read (ofArr c a).slots it = some e := by
          show read (raw a.es _) it = _
          rw [read_raw hx1, hx2]
        rw [hr]
        simp only [Option.bind_some]
        split at h
        · cases h
        · rename_i l newEnd out' hc
          obtain ⟨g1, g2⟩ := compact_raw _ (c.leafSize - a.es.length) _ _ _ _ _ _ _ _ hc
          have g1' : compact (fun e => divides c m e) (ofArr c a).slots (it + 1) it [e.t] ((ofArr c a).len - (it + 1)) =
              some (raw l (c.leafSize - a.es.length), newEnd, out') := g1
          rw [g1']
          simp only [Option.bind_some]
          split at h
          · cases h
          · rename_i a1 ha1
            cases h
            have hf' : Fits c { a with es := l } := ⟨by rw [g2]; exact hf.cap, hf.mask⟩
            obtain ⟨k1, k2⟩ := popLoop_ofArr _ hf' rfl ha1
            have e1 : ({ ofArr c a with slots := raw l (c.leafSize - a.es.length) } : RArr T) = ofArr c { a with es := l } := by
              simp [ofArr, g2]
            rw [e1, k1]
            refine ⟨?_, k2⟩
            simp only [Option.bind_some, ofArr, g2]

theorem shiftDown_raw (k : ℕ) : ∀ (n : ℕ) (l l' : List (Ext T)) (it : ℕ), KDTree.shiftDown l it n = some l' →
    shiftDown (raw l k) it 1 n = some (raw l' k) ∧ l'.length = l.length := by
  intro n
  induction n with
  | zero => intro l l' it h; cases h; exact ⟨rfl, rfl⟩
  | succ n ih =>
    intro l l' it h
    rw [KDTree.shiftDown] at h
    split at h
    · cases h
    · rename_i x hx
      split at h
      · rename_i hit
        obtain ⟨hx1, hx2⟩ := List.getElem?_eq_some_iff.mp hx
        rw [shiftDown, read_raw hx1]
        simp only [Option.bind_eq_bind, Option.bind_some]
        rw [assign_raw hit, hx2]
        obtain ⟨g1, g2⟩ := ih _ _ _ h
        exact ⟨g1, by simpa using g2⟩
      · cases h

theorem removeElement_ofArr {a a' : Arr T} {m : T} {b : Bool} (hf : Fits c a)
    (h : a.removeElement c m = some (b, a')) :
    (ofArr c a).removeElement c m = some (b, ofArr c a') ∧ Fits c a' := by
  rw [Arr.removeElement] at h
  rw [RArr.removeElement, view_ofArr]
  simp only [Option.bind_eq_bind, Option.bind_some]
  split at h
  · rename_i hi
    cases h
    rw [hi]
    exact ⟨rfl, hf⟩
  · rename_i it hi
    rw [hi]
    simp only
    split at h
    · cases h
    · rename_i l hl
      obtain ⟨g1, g2⟩ := shiftDown_raw (c.leafSize - a.es.length) _ _ _ _ hl
      have g1' : shiftDown (ofArr c a).slots it 1 ((ofArr c a).len - 1 - it) = some (raw l (c.leafSize - a.es.length)) := g1
      rw [g1']
      simp only [Option.bind_some]
      split at h
      · cases h
      · rename_i a1 ha1
        cases h
        have hf' : Fits c { a with es := l } := ⟨by rw [g2]; exact hf.cap, hf.mask⟩
        obtain ⟨k1, k2⟩ := popBack_ofArr hf' ha1
        have e1 : ({ ofArr c a with slots := raw l (c.leafSize - a.es.length) } : RArr T) = ofArr c { a with es := l } := by
          simp [ofArr, g2]
        rw [e1, k1]
        exact ⟨rfl, k2⟩

theorem recalculate_ofArr {a : Arr T} : (ofArr c a).recalculate c = some (ofArr c (a.recalculate c)) := by
  rw [RArr.recalculate, Arr.recalculate]
  split
  · rfl
  · rw [view_ofArr]; rfl

/-- `std::copy` of the second part of a range to its start. -/
theorem copyDown_raw (k : ℕ) (l₁ : List (Ext T)) : ∀ (l₂ done rest : List (Ext T)), done.length + l₁.length = done.length + rest.length →
    ∃ tail, shiftDown (raw (done ++ rest ++ l₂) k) done.length l₁.length l₂.length = some (raw (done ++ l₂ ++ tail) k) ∧
      tail.length = l₁.length := by
  intro l₂
  induction l₂ with
  | nil =>
    intro done rest h
    exact ⟨rest, by simp [shiftDown], by omega⟩
  | cons e l₂ ih =>
    intro done rest h
    rw [List.length_cons, shiftDown, read_raw (by simp; omega)]
    simp only [Option.bind_eq_bind, Option.bind_some]
    rw [assign_raw (by simp)]
    simp only [Option.bind_some]
    have hx : (done ++ rest ++ e :: l₂)[done.length + l₁.length]'(by simp; omega) = e := by
      rw [List.getElem_append_right (by simp; omega)]
      simp only [List.length_append]
      have : done.length + l₁.length - (done.length + rest.length) = 0 := by omega
      simp [this]
    rw [hx]
    have hset : (done ++ rest ++ e :: l₂).set done.length e = (done ++ [e]) ++ (rest ++ [e]).tail ++ l₂ := by
      cases rest with
      | nil => simp
      | cons r rest => simp
    rw [hset]
    obtain ⟨tail, g1, g2⟩ := ih (done ++ [e]) (rest ++ [e]).tail (by simp; omega)
    refine ⟨tail, ?_, g2⟩
    rw [List.length_append, List.length_singleton] at g1
    rw [g1]
    simp

end Verif.KDMem
