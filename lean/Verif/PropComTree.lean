import Verif.ComTreeProofs

/-!
# Properties of `mathic::ComTree`: C03, C04, C05
-/

namespace Verif.ComTree

/-! ## C03: node arithmetic -/

theorem node_root (c : NodeConf) : Reps c 1 c.root := by
  unfold Reps NodeConf.root
  split <;> simp

section
variable (c : NodeConf) (hc : c.Ok) (i : ℕ) (x : Node) (h : Reps c i x)
include hc h

theorem node_parent : Reps c (i / 2) (c.parent x) := by
  rw [reps_iff] at *
  obtain ⟨k, hk, hS⟩ := hc.unit
  have hp : (2:ℕ) ^ k ≤ 2 ^ 62 := Nat.pow_le_pow_right (by omega) hk
  have hpos : 0 < (2:ℕ) ^ k := Nat.two_pow_pos k
  have hx := x.isLt
  rw [parent_eq, BitVec.toNat_mul, BitVec.toNat_udiv, BitVec.toNat_mul, h, hS]
  have h2 : (2 : BitVec 64).toNat = 2 := rfl
  rw [h2, Nat.mod_eq_of_lt (a := 2 * 2 ^ k) (by omega)]
  rw [Nat.mul_div_mul_right _ _ hpos]
  apply Nat.mod_eq_of_lt
  rw [h, hS] at hx
  calc i / 2 * 2 ^ k ≤ i * 2 ^ k := Nat.mul_le_mul_right _ (Nat.div_le_self _ _)
    _ < 2 ^ 64 := hx

omit hc in
theorem node_left (hov : 2 * i * c.unit.toNat < 2 ^ 64) : Reps c (2 * i) (c.left x) := by
  rw [reps_iff] at *
  have h2 : (2 : BitVec 64).toNat = 2 := rfl
  rw [NodeConf.left, BitVec.toNat_mul, h2, h, ← mul_assoc]
  exact Nat.mod_eq_of_lt hov

omit hc in
theorem node_right (hov : (2 * i + 1) * c.unit.toNat < 2 ^ 64) :
    Reps c (2 * i + 1) (c.right x) := by
  rw [reps_iff] at *
  have h2 : (2 : BitVec 64).toNat = 2 := rfl
  rw [right_eq, BitVec.toNat_add, BitVec.toNat_mul, h2, h, ← mul_assoc]
  rw [Nat.add_mul, one_mul] at *
  rw [Nat.mod_eq_of_lt (a := 2 * i * _) (by omega)]
  exact Nat.mod_eq_of_lt hov

omit hc in
theorem node_next (hov : (i + 1) * c.unit.toNat < 2 ^ 64) : Reps c (i + 1) (c.next x) := by
  rw [reps_iff] at *
  rw [next_eq, BitVec.toNat_add, h, Nat.add_mul, one_mul] at *
  exact Nat.mod_eq_of_lt hov

omit hc in
theorem node_nextBy (n : BitVec 64) (hov : (i + n.toNat) * c.unit.toNat < 2 ^ 64) :
    Reps c (i + n.toNat) (c.nextBy x n) := by
  rw [reps_iff] at *
  rw [nextBy_eq, BitVec.toNat_add, BitVec.toNat_mul, h, Nat.add_mul, mul_comm c.unit.toNat] at *
  rw [Nat.mod_eq_of_lt (a := n.toNat * _) (by omega)]
  exact Nat.mod_eq_of_lt hov

theorem node_prev (hi : 1 ≤ i) : Reps c (i - 1) (c.prev x) := by
  rw [reps_iff] at *
  obtain ⟨k, hk, hS⟩ := hc.unit
  have hle : c.unit.toNat ≤ x.toNat := by
    rw [h]; exact Nat.le_mul_of_pos_left _ hi
  rw [prev_eq, BitVec.toNat_sub_of_le (by rw [BitVec.le_def]; exact hle), h, Nat.sub_mul, one_mul]

/-- The sibling of an even node is the next one, that of an odd node is the previous one. -/
theorem node_sibling : Reps c (if i % 2 = 0 then i + 1 else i - 1) (c.sibling x) := by
  rw [reps_iff] at *
  obtain ⟨k, hk, hS⟩ := hc.unit
  rw [sibling_eq, BitVec.toNat_xor, h, hS]
  have : i * 2 ^ k ^^^ 2 ^ k = (i ^^^ 1) * 2 ^ k := by
    rw [← Nat.shiftLeft_eq, ← Nat.shiftLeft_eq, Nat.shiftLeft_xor_distrib, Nat.one_shiftLeft]
  rw [this]
  congr 1
  rcases Nat.mod_two_eq_zero_or_one i with h0 | h0
  · rw [if_pos h0]; exact xor_one_even i h0
  · rw [if_neg (by omega)]; exact xor_one_odd i h0

theorem and_unit_eq : (x &&& c.unit).toNat = i % 2 * c.unit.toNat := by
  rw [reps_iff] at *
  obtain ⟨k, hk, hS⟩ := hc.unit
  rw [BitVec.toNat_and, h, hS, ← Nat.shiftLeft_eq, ← Nat.shiftLeft_eq]
  conv_lhs => rw [← Nat.one_shiftLeft k, ← Nat.shiftLeft_and_distrib]
  rw [Nat.and_one_is_mod]

theorem node_leftSibling : Reps c (i - i % 2) (c.leftSibling x) := by
  have ha := and_unit_eq c hc i x h
  rw [reps_iff] at *
  rw [leftSibling_eq]
  have hsum : (x &&& c.unit) + (x &&& ~~~c.unit) = x := by
    rw [BitVec.add_eq_or_of_and_eq_zero]
    · ext j hj; simp; cases x[j] <;> cases c.unit[j] <;> rfl
    · ext j hj; simp; cases x[j] <;> cases c.unit[j] <;> simp
  have h0 : (x &&& c.unit) &&& (x &&& ~~~c.unit) = 0#64 := by
    ext j hj; simp; cases x[j] <;> cases c.unit[j] <;> simp
  have hs : (x &&& c.unit).toNat + (x &&& ~~~c.unit).toNat = x.toNat := by
    have := BitVec.toNat_add_of_and_eq_zero h0
    rw [hsum] at this
    exact this.symm
  rw [ha, h] at hs
  rw [Nat.sub_mul]
  omega

theorem node_isLeft : c.isLeft x = decide (i % 2 = 0) := by
  have ha := and_unit_eq c hc i x h
  obtain ⟨k, hk, hS⟩ := hc.unit
  have hpos : 0 < (2:ℕ) ^ k := Nat.two_pow_pos k
  rw [isLeft_eq, Bool.eq_iff_iff, beq_iff_eq, decide_eq_true_eq, ← BitVec.toNat_inj, ha, hS]
  simp

theorem node_isRight : c.isRight x = decide (i % 2 = 1) := by
  have ha := and_unit_eq c hc i x h
  obtain ⟨k, hk, hS⟩ := hc.unit
  have hpos : 0 < (2:ℕ) ^ k := Nat.two_pow_pos k
  rw [isRight_eq, Bool.eq_iff_iff, bne_iff_ne, ne_eq, decide_eq_true_eq, ← BitVec.toNat_inj, ha, hS]
  simp

theorem node_isRoot : c.isRoot x = decide (i = 1) := by
  obtain ⟨k, hk, hS⟩ := hc.unit
  have hr := node_root c
  rw [reps_iff] at *
  have hpos : 0 < (2:ℕ) ^ k := Nat.two_pow_pos k
  rw [NodeConf.isRoot, Bool.eq_iff_iff, beq_iff_eq, decide_eq_true_eq, ← BitVec.toNat_inj, h, hr, hS]
  exact ⟨fun e => Nat.eq_of_mul_eq_mul_right hpos e, fun e => by rw [e]⟩

theorem node_index : (c.getNormalIndex x).toNat = i := by
  obtain ⟨k, hk, hS⟩ := hc.unit
  rw [reps_iff] at *
  rw [normal_eq, BitVec.toNat_udiv, h, hS]
  exact Nat.mul_div_cancel _ (Nat.two_pow_pos k)

/-- Order and equality of representations are those of the node numbers. -/
theorem node_lt (j : ℕ) (y : Node) (h' : Reps c j y) : (x < y ↔ i < j) ∧ (x = y ↔ i = j) := by
  obtain ⟨k, hk, hS⟩ := hc.unit
  rw [reps_iff] at *
  have hpos : 0 < (2:ℕ) ^ k := Nat.two_pow_pos k
  rw [BitVec.lt_def, ← BitVec.toNat_inj, h, h', hS]
  exact ⟨Nat.mul_lt_mul_right hpos, fun e => Nat.eq_of_mul_eq_mul_right hpos e, fun e => by rw [e]⟩

end

/-- C03: the tree laws of the node numbers that the above operations realise. -/
theorem node_tree_laws (i : ℕ) (hi : 1 ≤ i) :
    (2 * i) / 2 = i ∧ (2 * i + 1) / 2 = i ∧
    (i ≠ 1 → (i = 2 * (i / 2) ∧ i % 2 = 0 ∨ i = 2 * (i / 2) + 1 ∧ i % 2 = 1) ∧ 1 ≤ i / 2 ∧ i / 2 < i) ∧
    (let sib := fun j : ℕ => if j % 2 = 0 then j + 1 else j - 1
     i ≠ 1 → sib (sib i) = i ∧ sib i / 2 = i / 2 ∧ sib i ≠ i) := by
  refine ⟨by omega, by omega, fun _ => by omega, ?_⟩
  intro sib _
  simp only [sib]
  split <;> split <;> omega

/-- C03: parent undoes left and right on representations. -/
theorem node_parent_left_right (c : NodeConf) (hc : c.Ok) (i : ℕ) (x : Node) (h : Reps c i x)
    (hov : (2 * i + 1) * c.unit.toNat < 2 ^ 64) :
    c.parent (c.left x) = x ∧ c.parent (c.right x) = x := by
  have hov' : 2 * i * c.unit.toNat < 2 ^ 64 := by rw [Nat.add_mul] at hov; omega
  have h1 := node_parent c hc _ _ (node_left c i x h hov')
  have h2 := node_parent c hc _ _ (node_right c i x h hov)
  rw [show 2 * i / 2 = i by omega] at h1
  rw [show (2 * i + 1) / 2 = i by omega] at h2
  exact ⟨(node_lt c hc _ _ h1 _ _ h).2.mpr rfl, (node_lt c hc _ _ h2 _ _ h).2.mpr rfl⟩

/-- The hypotheses are met: entries of 16 bytes, node 5 with children 10 and 11. -/
example : NodeConf.Ok ⟨true, 16⟩ ∧ Reps ⟨true, 16⟩ 5 80 ∧ (NodeConf.mk true 16).left 80 = 160 ∧
    (NodeConf.mk true 16).right 80 = 176 ∧ (NodeConf.mk true 16).parent 176 = 80 := by
  refine ⟨fun _ => ⟨4, by omega, rfl⟩, ?_, ?_, ?_, ?_⟩ <;> simp [Reps] <;> decide

/-- Without the power of two the byte-scaled test is wrong: node 6 is a left child. This is why
the hypothesis is there. -/
example : (NodeConf.mk true 12).isLeft (12 * 6) = false := by decide

/-! ## C04: the array behaves like a list -/

variable {E : Type*}

/-- What a call does to the list of entries; `none`: not allowed. -/
def specStep (l : List E) : Op E → Option (List E)
  | .pushBack a => some (l ++ [a])
  | .popBack => if l = [] then none else some l.dropLast
  | .write i a => wr l i a
  | .increaseCapacity => some l
  | .clear => some []

open Classical in
/-- A history of the list. -/
noncomputable def specRun (l : List E) : List (Op E) → Option (List E)
  | [] => some l
  | op :: ops => (specStep l op).bind (fun l' => specRun l' ops)

/-- C04: on every history that the list allows, the tree does what the list does, whatever the
initial capacity, and with no access out of the array. -/
theorem comTree_refines (n : ℕ) (ops : List (Op E)) (l : List E)
    (h : specRun ([] : List E) ops = some l) :
    ∃ t, run (mk n) ops = some t ∧ Holds t l ∧ size t = l.length ∧ (empty t = true ↔ l = []) := by
  have key : ∀ (ops : List (Op E)) (t : Tree E) (l l' : List E), Holds t l →
      specRun l ops = some l' → ∃ t', run t ops = some t' ∧ Holds t' l' := by
    intro ops
    induction ops with
    | nil =>
      intro t l l' h hs
      cases hs
      exact ⟨t, rfl, h⟩
    | cons op ops ih =>
      intro t l l' h hs
      rw [specRun] at hs
      cases hsp : specStep l op with
      | none => rw [hsp] at hs; cases hs
      | some l₁ =>
        rw [hsp] at hs
        have : ∃ t₁, step t op = some t₁ ∧ Holds t₁ l₁ := by
          cases op with
          | pushBack a => cases hsp; exact holds_pushBack h a
          | popBack =>
            simp only [specStep] at hsp
            split at hsp
            · cases hsp
            · rename_i hne
              cases hsp
              exact (holds_popBack h).2 hne
          | write i a =>
            have hb := wr_bounds hsp
            rw [specStep, wr_some a hb.1 hb.2] at hsp
            cases hsp
            exact holds_put h hb.1 hb.2 a
          | increaseCapacity =>
            cases hsp
            obtain ⟨t', e1, e2, _⟩ := holds_increaseCapacity h
            exact ⟨t', e1, e2⟩
          | clear => cases hsp; exact ⟨_, rfl, holds_clear h⟩
        obtain ⟨t₁, e1, e2⟩ := this
        obtain ⟨t', f1, f2⟩ := ih t₁ l₁ l' e2 hs
        exact ⟨t', by rw [run, e1]; exact f1, f2⟩
  obtain ⟨t, h1, h2⟩ := key ops (mk n) [] l (holds_mk n) h
  refine ⟨t, h1, h2, h2.last, ?_⟩
  rw [empty, beq_iff_eq, h2.last]
  exact List.length_eq_zero_iff

/-- The hypothesis is met by a history that grows the array, with a pop and a write. -/
example : specRun ([] : List ℕ) [.pushBack 3, .increaseCapacity, .pushBack 4, .popBack, .write 1 9]
    = some [9] := by simp [specRun, specStep, wr]

/-- C04: a copy holds the same entries, with at least the capacity asked for. -/
theorem holds_copy {t : Tree E} {l : List E} (h : Holds t l) (m : ℕ) :
    ∃ t', copy t m = some t' ∧ Holds t' l ∧ m ≤ t'.capEnd := by
  have hl := h.last
  by_cases hcap : (if t.last > m then t.last else m) = 0
  · have : t.last = 0 ∧ m = 0 := by split at hcap <;> omega
    refine ⟨{ arr := [], last := t.last, capEnd := 0 }, ?_, ⟨hl, by simp; omega, rfl, ?_⟩, by simp; omega⟩
    · simp only [copy, hcap]; simp
    · intro i hi; omega
  · obtain ⟨d', e1, e2, e3, e4, e5⟩ := assignLoop_holds h l.length 0
      { arr := List.replicate (if t.last > m then t.last else m) none, last := t.last,
        capEnd := if t.last > m then t.last else m } (by omega) (by simp; split <;> omega)
      (by intro j _; omega)
    refine ⟨d', ?_, ⟨by rw [e2]; exact hl, ?_, ?_, e5⟩, ?_⟩
    · simp only [copy]
      rw [if_pos hcap, hl]
      rw [hl] at e1
      exact e1
    · rw [e2, e3]; simp only; split <;> omega
    · rw [e4, e3]; simp
    · rw [e3]; simp only; split <;> omega

/-! ## C05: the move constructor -/

/-- C05 in full, which the code does not meet: the new tree holds what the source held and the
source is a tree that holds something. -/
def MoveOk (t : Tree E) (l : List E) : Prop :=
  Holds t l → Holds (move t).1 l ∧ ∃ l', Holds (move t).2 l'

/-- C05 is violated for every non-empty tree: the new tree is empty, and the source still
claims its size while any access to its entries is undefined. -/
theorem move_loses_contents (t : Tree E) (l : List E) (h : Holds t l) (hne : l ≠ []) :
    empty (move t).1 = true ∧ ¬ Holds (move t).1 l ∧
    size (move t).2 = l.length ∧ (∀ i, (move t).2.get i = none) ∧ ∀ l', ¬ Holds (move t).2 l' := by
  have hlen : l.length ≠ 0 := fun h0 => hne (List.length_eq_zero_iff.mp h0)
  have hl := h.last
  have hc := h.cap
  refine ⟨rfl, ?_, hl, ?_, ?_⟩
  · intro h'
    have : (0 : ℕ) = l.length := h'.last
    omega
  · intro i
    simp [Tree.get, move]
  · intro l' h'
    have h1 : t.last ≤ t.capEnd := h'.cap
    have h2 : ([] : List (Option E)).length = t.capEnd := h'.alloc
    simp at h2
    omega

/-- C05 fails: a concrete tree with one entry. -/
theorem move_not_ok : ∃ (t : Tree ℕ) (l : List ℕ), ¬ MoveOk t l := by
  obtain ⟨t, ht, hh⟩ := holds_pushBack (holds_mk 0) 7
  refine ⟨t, [7], ?_⟩
  intro hm
  exact (move_loses_contents t [7] hh (by simp)).2.1 (hm hh).1

/-- The part of C05 that holds: moving a tree that never allocated.
Missing: every tree with a non-empty allocation. -/
theorem move_partial (t : Tree E) (h : Holds t []) (hcap : t.capEnd = 0) :
    Holds (move t).1 [] ∧ Holds (move t).2 [] := by
  have ha := h.alloc
  refine ⟨⟨rfl, Nat.le_refl _, ?_, nofun⟩, ⟨h.last, h.cap, ?_, nofun⟩⟩
  · show t.arr.length = 0
    omega
  · show 0 = t.capEnd
    omega

end Verif.ComTree
