import Verif.QueueAssert
import Verif.ComTreeProofs
import Verif.HeapProofs
import Verif.TourTreeProofs

/-!
# Helper lemmas for the debug builds of `ComTree`, `Heap` and `TourTree`
-/

namespace Verif

open Dbg

/-! ## `ComTree` -/

namespace ComTree

variable {E : Type}

theorem size_pow_two {c : NodeConf} (hc : c.Ok) : (!c.fi || c.S &&& (c.S - 1) == 0) = true := by
  cases hf : c.fi with
  | false => rfl
  | true =>
    obtain ⟨k, hk, hS⟩ := hc hf
    simp only [Bool.not_true, Bool.false_or, beq_iff_eq]
    have hs : c.S = BitVec.twoPow 64 k := by
      apply BitVec.eq_of_toNat_eq
      rw [hS, BitVec.toNat_twoPow, Nat.mod_eq_of_lt]
      exact Nat.pow_lt_pow_right (by omega) (by omega)
    apply BitVec.eq_of_toNat_eq
    have h1 : (c.S - 1).toNat = 2 ^ k - 1 := by
      rw [BitVec.toNat_sub_of_le]
      · rw [hS]; rfl
      · rw [BitVec.le_def, hS]
        exact Nat.one_le_two_pow
    rw [BitVec.toNat_and, h1, hS, Nat.and_two_pow_sub_one_eq_mod]
    simp

theorem isValid_of {c : NodeConf} (hc : c.Ok) {t : Tree E} (h1 : t.last ≤ t.capEnd)
    (h2 : t.arr.length = t.capEnd) : isValid c t = ok () := by
  unfold isValid
  rw [size_pow_two hc]
  by_cases h0 : t.capEnd = 0
  · have ha : t.arr = [] := List.length_eq_zero_iff.mp (by omega)
    have hl : t.last = 0 := by omega
    simp [h0, ha, hl]
  · have ha : t.arr.isEmpty = false := by
      rw [List.isEmpty_eq_false_iff]
      intro h; rw [h] at h2; simp at h2; omega
    have h3 : t.capEnd > 0 := by omega
    simp [h0, ha, h3, h1]

theorem isValid_holds {c : NodeConf} (hc : c.Ok) {t : Tree E} {l : List E} (h : Holds t l) :
    isValid c t = ok () := isValid_of hc h.cap h.alloc

theorem increaseCapacityD_holds {c : NodeConf} (hc : c.Ok) {t : Tree E} {l : List E} (h : Holds t l) :
    ∃ t', increaseCapacity t = some t' ∧ increaseCapacityD c t = ok t' ∧ Holds t' l ∧
      t'.last < t'.capEnd := by
  obtain ⟨t', h1, h2, h3, h4⟩ := holds_increaseCapacity h
  refine ⟨t', h1, ?_, h2, h3⟩
  have hcap := h.cap
  have hlast := h.last
  obtain ⟨n, e1, e2, e3⟩ := copyLoop_holds h l.length 0
    (mk (if t.capEnd = 0 then 16 else t.capEnd * 2)) (by omega) (by simpa using holds_mk _)
    (by show l.length < if t.capEnd = 0 then 16 else t.capEnd * 2; split <;> omega)
  rw [zero_add, ← hlast] at e1
  have ht : t' = { t with arr := n.arr, capEnd := n.capEnd } := by
    rw [increaseCapacity, e1] at h1
    cases h1
    rfl
  unfold increaseCapacityD mkD destroyD
  rw [isValid_holds hc h, isValid_holds hc (holds_mk _)]
  simp only [ok_bind]
  rw [e1, lift_some, ok_bind, isValid_holds hc e2, ok_bind, ← ht, isValid_holds hc h2, ok_bind,
    isValid_of (t := { n with arr := t.arr, capEnd := t.capEnd }) hc (by show n.last ≤ t.capEnd; rw [e2.last]; omega) h.alloc]
  rfl

theorem stepD_holds {c : NodeConf} (hc : c.Ok) {t t' : Tree E} {l : List E} (h : Holds t l) (op : Op E)
    (hw : ∀ i a, op = .write i a → i ≤ l.length) (hs : step t op = some t') :
    stepD c t op = ok t' ∧ ∃ l', Holds t' l' := by
  cases op with
  | pushBack a =>
    obtain ⟨t₁, e1, e2⟩ := holds_pushBack h a
    have : some t₁ = some t' := e1.symm.trans hs
    cases this
    refine ⟨?_, _, e2⟩
    show pushBackD c t a = ok t'
    unfold pushBackD
    unfold pushBack at e1
    by_cases hcap : t.last = t.capEnd
    · rw [if_pos hcap] at e1 ⊢
      obtain ⟨t₂, f1, f2, f3, f4⟩ := increaseCapacityD_holds hc h
      rw [f1] at e1
      rw [f2, ok_bind, show pushBackWithCapacity t₂ a = some t' from e1]
      rfl
    · rw [if_neg hcap] at e1 ⊢
      rw [e1]
      rfl
  | popBack =>
    have hs : popBack t = some t' := hs
    by_cases hl : l = []
    · rw [(holds_popBack h).1 hl] at hs
      cases hs
    · obtain ⟨t₁, e1, e2⟩ := (holds_popBack h).2 hl
      rw [e1] at hs
      cases hs
      refine ⟨?_, _, e2⟩
      show popBackD t = ok t'
      have : t.last ≥ 1 := by
        have := h.last
        have := List.length_pos_iff.mpr hl
        omega
      unfold popBackD
      rw [e1, assert_of (by simpa using this)]
      rfl
  | write i a =>
    have hs : t.put i a = some t' := hs
    refine ⟨by show lift (t.put i a) = ok t'; rw [hs]; rfl, ?_⟩
    have h1 : 1 ≤ i := by
      unfold Tree.put at hs
      split at hs
      · rename_i h; exact h.1
      · cases hs
    obtain ⟨t₁, e1, e2⟩ := holds_put h h1 (hw i a rfl) a
    rw [e1] at hs
    cases hs
    exact ⟨_, e2⟩
  | increaseCapacity =>
    obtain ⟨t₁, e1, e2, e3, _⟩ := increaseCapacityD_holds hc h
    have : some t₁ = some t' := e1.symm.trans hs
    cases this
    exact ⟨e2, _, e3⟩
  | clear =>
    cases hs
    exact ⟨rfl, _, holds_clear h⟩

end ComTree

/-! ## `Heap` -/

namespace Heap

variable {E : Type} {c : PQConf E}

theorem isValidLoop_ok {t : List E} (h : IsHeap c t) (n : ℕ) : ∀ i, 2 ≤ i → i + n ≤ t.length + 1 →
    isValidLoop c t i n = ok () := by
  induction n with
  | zero => intro i _ _; rfl
  | succ n ih =>
    intro i hi hn
    obtain ⟨a, ha⟩ := rd_exists (t := t) (i := i / 2) (by omega) (by omega)
    obtain ⟨b, hb⟩ := rd_exists (t := t) (i := i) (by omega) (by omega)
    unfold isValidLoop
    rw [ha, hb]
    simp only [h i a b hi ha hb, Bool.not_false, assert_true, ok_bind]
    exact ih (i + 1) (by omega) (by omega)

theorem isValid_ok {t : List E} (h : IsHeap c t) : isValid c t = ok () := by
  unfold isValid
  cases t with
  | nil => rfl
  | cons a t => exact isValidLoop_ok h _ 2 (by omega) (by simp; omega)

theorem isValidLoop_heap {t : List E} (n : ℕ) : ∀ i, isValidLoop c t i n = ok () →
    ∀ j, i ≤ j → j < i + n → ∀ a b, rd t (j / 2) = some a → rd t j = some b → c.lt a b = false := by
  induction n with
  | zero => intro i _ j h1 h2; omega
  | succ n ih =>
    intro i h j h1 h2 a b ha hb
    unfold isValidLoop at h
    split at h
    · rename_i x y hx hy
      obtain ⟨u, hu, h⟩ := bind_ok.mp h
      rw [assert_ok] at hu
      rcases Nat.eq_or_lt_of_le h1 with rfl | h1
      · rw [ha] at hx
        rw [hb] at hy
        cases hx
        cases hy
        simpa using hu
      · exact ih (i + 1) h j h1 (by omega) a b ha hb
    · cases h

/-- The assertions say that the list is a heap. -/
theorem isValid_iff {t : List E} : isValid c t = ok () ↔ IsHeap c t := by
  refine ⟨?_, isValid_ok⟩
  intro h i a b hi ha hb
  have := rd_bounds hb
  exact isValidLoop_heap _ 2 h i hi (by omega) a b ha hb

theorem thenValid_ok {t : List E} (h : IsHeap c t) : thenValid c (ok t) = ok t := by
  unfold thenValid
  simp only [isValid_ok h]

theorem moveValueUpD_ok {t t' : List E} {p : ℕ} {v : E} (h : moveValueUp c t p v = some t')
    (ht : IsHeap c t') : moveValueUpD c t p v = ok t' := by
  unfold moveValueUpD
  rw [h]
  simp only [isValid_ok ht]

theorem pushD_ok {t t' : List E} {e : E} (h : push c t e = some t') (ht : IsHeap c t') :
    pushD c t e = ok t' := by
  unfold pushD
  rw [moveValueUpD_ok h ht, thenValid_ok ht]

end Heap

/-! ## `TourTree` -/

namespace TourTree

variable {E : Type} {c : PQConf E}

theorem pointersValid_ok (n : ℕ) (l : List ℕ) (h : ∀ p ∈ l, p < n) : pointersValid n l = ok () := by
  induction l with
  | nil => rfl
  | cons p l ih =>
    unfold pointersValid
    rw [assert_of (by simpa using h p List.mem_cons_self), ok_bind]
    exact ih (fun q hq => h q (List.mem_cons_of_mem _ hq))

/-- A player has won one child of a node at most. -/
theorem children_ne {s : State E} (h : Shape s) {i l r : ℕ} (hl : rd s.tree (2 * i) = some l)
    (hr : rd s.tree (2 * i + 1) = some r) : l ≠ r := by
  rintro rfl
  have hlt := cell_lt h hl
  have hq := List.getElem?_eq_getElem hlt
  obtain ⟨k, e1, _⟩ := occ h hl hq
  obtain ⟨m, f1, _⟩ := occ h hr hq
  have b1 := rd_bounds hl
  generalize (s.players[l]).2 = x at e1 f1
  -- the larger power gives an ancestor of the other node
  rcases Nat.lt_trichotomy k m with hkm | rfl | hkm
  · obtain ⟨d, rfl⟩ : ∃ d, m = k + (d + 1) := ⟨m - k - 1, by omega⟩
    rw [pow_add, ← Nat.div_div_eq_div_mul, e1, pow_succ'] at f1
    have : 2 * i / (2 * 2 ^ d) ≤ i := by
      rw [Nat.mul_div_mul_left _ _ (by omega)]
      exact Nat.div_le_self _ _
    omega
  · omega
  · obtain ⟨d, rfl⟩ : ∃ d, k = m + (d + 1) := ⟨k - m - 1, by omega⟩
    rw [pow_add, ← Nat.div_div_eq_div_mul, f1, pow_succ', ← Nat.div_div_eq_div_mul] at e1
    have h2 : (2 * i + 1) / 2 = i := by omega
    rw [h2] at e1
    have : i / 2 ^ d ≤ i := Nat.div_le_self _ _
    omega

theorem nodeValid_ok {s : State E} (h : Inv c s) {i : ℕ} (h1 : 1 ≤ i) (h2 : i ≤ s.tree.length) :
    nodeValid c s i = ok () := by
  have hlen := h.len
  have hsh : Shape s := h.toShape
  obtain ⟨p, hp⟩ := rd_exists h1 h2
  have hpl := cell_lt hsh hp
  have hpq := List.getElem?_eq_getElem hpl
  unfold nodeValid
  rw [hp, lift_some, ok_bind]
  by_cases hleaf : 2 * i ≥ s.tree.length
  · rw [if_pos hleaf, assert_of (by simp; omega), ok_bind, hpq, Option.map_some, lift_some, ok_bind]
    apply assert_of
    obtain ⟨p', q, e1, e2⟩ := leaf_exists hsh (i := i) (by omega) (by omega)
    have := h.leafTree p' q e1
    rw [e2, hp] at this
    cases this
    rw [hpq] at e1
    cases e1
    simpa using e2
  · rw [if_neg hleaf, assert_of (by simp; omega), ok_bind]
    obtain ⟨l, hl⟩ := rd_exists (t := s.tree) (i := 2 * i) (by omega) (by omega)
    obtain ⟨r, hr⟩ := rd_exists (t := s.tree) (i := 2 * i + 1) (by omega) (by omega)
    have hlq := List.getElem?_eq_getElem (cell_lt hsh hl)
    have hrq := List.getElem?_eq_getElem (cell_lt hsh hr)
    have hne := children_ne hsh hl hr
    have hch : (p == l || p == r) = true := by
      rcases h.choice i h1 (by omega) with hc | hc
      · rw [hp, hl] at hc; cases hc; simp
      · rw [hp, hr] at hc; cases hc; simp
    have ho := h.ord i h1 (by omega)
    have o1 := ho (2 * i) (Or.inl rfl) _ _ (entAt_of hp hpq) (entAt_of hl hlq)
    have o2 := ho (2 * i + 1) (Or.inr rfl) _ _ (entAt_of hp hpq) (entAt_of hr hrq)
    rw [hl, hr, lift_some, ok_bind, lift_some, ok_bind, assert_of (by simpa using hne), ok_bind,
      assert_of hch, ok_bind, hpq, hlq, hrq]
    simp only [Option.map_some, lift_some, ok_bind, o1, o2, Bool.not_false, assert_true]

theorem nodesValid_ok {s : State E} (h : Inv c s) (n : ℕ) : ∀ i, 1 ≤ i → i + n ≤ s.tree.length + 1 →
    nodesValid c s i n = ok () := by
  induction n with
  | zero => intro i _ _; rfl
  | succ n ih =>
    intro i hi hn
    unfold nodesValid
    rw [nodeValid_ok h hi (by omega), ok_bind]
    exact ih (i + 1) (by omega) (by omega)

theorem isValid_ok {s : State E} (h : Inv c s) : isValid c s = ok () := by
  have hlen := h.len
  have hp := h.pcap
  unfold isValid
  rw [assert_of (by simp; omega), ok_bind, assert_of (by
    rcases Nat.eq_zero_or_pos s.players.length with h0 | h0
    · have h1 := List.length_eq_zero_iff.mp h0
      have h2 : s.tree = [] := List.length_eq_zero_iff.mp (by omega)
      simp [h1, h2]
    · simp; omega), ok_bind, pointersValid_ok, ok_bind]
  · exact nodesValid_ok h _ 1 (by omega) (by omega)
  · intro p hp
    obtain ⟨i, hi⟩ := mem_rd hp
    exact cell_lt h.toShape hi

theorem isValid_new : isValid c (⟨[], [], 0, 0⟩ : State E) = ok () := rfl

theorem inv_init : Inv c (init : State E) := by
  refine ⟨shape_init, ?_⟩
  intro i h1 h2
  simp [init, reallocate] at h2

theorem initD_ok : initD c = ok (init : State E) := by
  unfold initD reallocateD
  rw [isValid_new, ok_bind, show reallocate ⟨[], [], 0, 0⟩ = (init : State E) from rfl,
    isValid_ok inv_init]
  rfl

theorem inv_reallocate {s : State E} (h : Inv c s) : Inv c (reallocate s) :=
  ⟨(shape_reallocate h.toShape).1, h.ord⟩

theorem reallocateD_ok {s : State E} (h : Inv c s) : reallocateD c s = ok (reallocate s) := by
  unfold reallocateD
  rw [isValid_ok h, ok_bind, isValid_ok (inv_reallocate h)]
  rfl

theorem treePushD_ok {s s' : State E} {p : ℕ} (h : treePush s p = some s') : treePushD s p = ok s' := by
  have hlt : s.tree.length < s.cap := by
    unfold treePush at h
    split at h
    · assumption
    · cases h
  unfold treePushD
  rw [assert_of (by simp; omega), h]
  rfl

theorem pushLoopD_ok (players : List (E × ℕ)) (tree : List ℕ) (pos posParent : ℕ) {t : List ℕ}
    (h : pushLoop c players tree pos posParent = some t) (h1 : posParent = pos / 2) :
    pushLoopD c players tree pos posParent = ok t := by
  induction posParent using Nat.strong_induction_on generalizing tree pos with
  | _ posParent ih =>
    unfold pushLoop at h
    split at h
    · cases h
    · rename_i q hq
      have hb := rd_bounds hq
      have hne : pos ≠ 1 := by rintro rfl; omega
      unfold pushLoopD
      rw [if_neg hne, if_neg (by simpa using h1)]
      split
      · rename_i hq'; rw [hq] at hq'; cases hq'
      · rename_i q' hq'
        rw [hq] at hq'
        cases hq'
        split at h
        · cases h
        · rename_i p hp
          rw [hp]
          simp only
          split at h
          · rename_i qe pe hqe hpe
            rw [hqe, hpe]
            simp only
            split at h
            · rename_i hlt
              cases h
              rw [if_pos hlt]
            · rename_i hlt
              rw [if_neg hlt]
              split at h
              · cases h
              · rename_i t' ht'
                rw [ht']
                simp only
                split at h
                · rename_i h1
                  cases h
                  rw [if_pos h1]
                · rename_i h1
                  rw [if_neg h1]
                  exact ih _ (by omega) _ _ h rfl
          · cases h

theorem pushD_ok {s s' : State E} {e : E} (hi : Inv c s) (hs : push c s e = some s')
    (hi' : Inv c s') : pushD c s e = ok s' := by
  unfold push at hs
  unfold pushD
  rw [isValid_ok hi, ok_bind]
  have h1 : roomD c s = ok (if s.cap - s.tree.length ≥ 2 then s else reallocate s) := by
    unfold roomD
    split
    · rfl
    · exact reallocateD_ok hi
  rw [h1, ok_bind]
  have hs1 : Inv c (if s.cap - s.tree.length ≥ 2 then s else reallocate s) := by
    split
    · exact hi
    · exact inv_reallocate hi
  generalize (if s.cap - s.tree.length ≥ 2 then s else reallocate s) = s1 at hs hs1 ⊢
  have hlen := hs1.len
  by_cases he : s1.tree = []
  · rw [if_pos he] at hs ⊢
    obtain ⟨s2, e1, hs⟩ := Option.bind_eq_some_iff.mp hs
    rw [e1, lift_some, ok_bind, treePushD_ok hs, ok_bind, isValid_ok hi']
    rfl
  · rw [if_neg he] at hs ⊢
    have hl0 : s1.tree.length ≠ 0 := fun h => he (List.length_eq_zero_iff.mp h)
    obtain ⟨md, e1, hs⟩ := Option.bind_eq_some_iff.mp hs
    obtain ⟨s2, e2, hs⟩ := Option.bind_eq_some_iff.mp hs
    obtain ⟨ps, e3, hs⟩ := Option.bind_eq_some_iff.mp hs
    obtain ⟨s3, e4, hs⟩ := Option.bind_eq_some_iff.mp hs
    obtain ⟨s4, e5, hs⟩ := Option.bind_eq_some_iff.mp hs
    obtain ⟨t, e6, hs⟩ := Option.bind_eq_some_iff.mp hs
    have l2 : s2.tree.length = s1.tree.length + 1 := by
      unfold treePush at e2
      split at e2
      · cases e2; simp
      · cases e2
    have l3 : s3.tree.length = s1.tree.length + 1 := by
      unfold playersPush at e4
      split at e4
      · cases e4; exact l2
      · cases e4
    have l4 : s4.tree.length = s1.tree.length + 2 := by
      unfold treePush at e5
      split at e5
      · cases e5; simp [l3]
      · cases e5
    cases hs
    rw [e1, lift_some, ok_bind, treePushD_ok e2, ok_bind, e3, lift_some, ok_bind,
      assert_of (by simp; omega), ok_bind, e4, lift_some, ok_bind, treePushD_ok e5, ok_bind,
      assert_of (by simp; omega), ok_bind, pushLoopD_ok _ _ _ _ e6 (by omega), ok_bind, isValid_ok hi']
    rfl

theorem pushRangeD_ok (hc : StrictWeak c.lt) (l : List E) : ∀ {s s' : State E}, Inv c s →
    pushRange c s l = some s' → pushRangeD c s l = ok s' ∧ Inv c s' := by
  induction l with
  | nil =>
    intro s s' h hs
    cases hs
    exact ⟨rfl, h⟩
  | cons e l ih =>
    intro s s' h hs
    obtain ⟨s1, e1, _, _, e4⟩ := push_spec c h.toShape e
    have hi1 := e4 hc h
    unfold pushRange at hs
    rw [e1] at hs
    obtain ⟨f1, f2⟩ := ih hi1 hs
    refine ⟨?_, f2⟩
    unfold pushRangeD
    rw [pushD_ok h e1 hi1, ok_bind, f1]

theorem decreaseTopD_ok {s s' : State E} {e : E} (hs : decreaseTop c s e = some s')
    (hi' : Inv c s') : decreaseTopD c s e = ok s' := by
  have hne : s.tree.isEmpty = false := by
    cases ht : s.tree with
    | nil =>
      unfold decreaseTop at hs
      rw [ht] at hs
      cases hs
    | cons a l => rfl
  unfold decreaseTopD
  rw [hne, hs]
  simp [isValid_ok hi']

theorem popD_ok {s s' : State E} {x : E} (hi : Inv c s) (hs : pop c s = some (x, s'))
    (hi' : Inv c s') : popD c s = ok (x, s') := by
  have hlen := hi.len
  unfold pop at hs
  unfold popD
  obtain ⟨w, e1, hs⟩ := Option.bind_eq_some_iff.mp hs
  obtain ⟨q, e2, hs⟩ := Option.bind_eq_some_iff.mp hs
  have hb := rd_bounds e1
  have hne : (!s.tree.isEmpty) = true := by
    cases ht : s.tree with
    | nil => rw [ht] at hb; simp at hb
    | cons a l => rfl
  rw [assert_of hne, ok_bind, e1, lift_some, ok_bind, e2, lift_some, ok_bind]
  by_cases h1 : s.tree.length = 1
  · rw [if_pos h1] at hs ⊢
    cases hs
    rw [isValid_ok hi']
    rfl
  · rw [if_neg h1] at hs ⊢
    obtain ⟨left, f1, hs⟩ := Option.bind_eq_some_iff.mp hs
    obtain ⟨right, f2, hs⟩ := Option.bind_eq_some_iff.mp hs
    obtain ⟨par, f3, hs⟩ := Option.bind_eq_some_iff.mp hs
    obtain ⟨⟨ps, t⟩, f4, hs⟩ := Option.bind_eq_some_iff.mp hs
    obtain ⟨player, f5, hs⟩ := Option.bind_eq_some_iff.mp hs
    obtain ⟨r, f6, hs⟩ := Option.bind_eq_some_iff.mp hs
    obtain ⟨ps2, f7, hs⟩ := Option.bind_eq_some_iff.mp hs
    obtain ⟨ps3, f8, hs⟩ := Option.bind_eq_some_iff.mp hs
    obtain ⟨q2, f9, hs⟩ := Option.bind_eq_some_iff.mp hs
    obtain ⟨t2, f10, hs⟩ := Option.bind_eq_some_iff.mp hs
    cases hs
    have hn : 2 ≤ s.players.length := by omega
    obtain ⟨ps', t', g1, g2, g3, _⟩ := phase1 c hi.toShape hn f1 f2 f3
    rw [f4] at g1
    cases g1
    have hright : right = s.players.length - 1 := by
      obtain ⟨ql, k1, k2⟩ := last_leaf hi.toShape (by omega)
      have := hi.leafTree _ _ k1
      rw [k2, ← hlen, f2] at this
      cases this
      rfl
    have hps2 : ps2.length = s.players.length := by
      unfold setEntry at f7
      obtain ⟨y, _, rfl⟩ := Option.map_eq_some_iff.mp f7
      simpa using g2
    have htl : t.length = s.tree.length := by
      have h1 : t.length = 2 * ps.length - 1 := g3.len
      omega
    have hprep : popPrepareD s = ok (ps2, t, player, left) := by
      unfold popPrepareD
      rw [f1, lift_some, ok_bind, f2, lift_some, ok_bind, f3, lift_some, ok_bind, f4, lift_some,
        ok_bind, f5, lift_some, ok_bind, f6, lift_some, ok_bind, f7, lift_some, ok_bind,
        assert_of (by simp; omega)]
      rfl
    rw [hprep, ok_bind, f8, lift_some, ok_bind, assert_of (by simp; omega), ok_bind,
      assert_of (by simp; omega), ok_bind, f9, lift_some, ok_bind, f10, lift_some, ok_bind,
      isValid_ok hi']
    rfl

end TourTree

end Verif
