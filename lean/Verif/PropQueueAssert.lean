import Verif.QueueAssertProofs
import Verif.PropComTree
import Verif.PropHeap
import Verif.PropTourTree

/-!
# C84: the assertions of `ComTree`, `Heap` and `TourTree` hold

A debug build does what the release build does: no assertion fails unless the call is not allowed.
-/

namespace Verif

open Dbg

theorem run_none {E : Type} {I : PQImpl E} {s : I.State} {op : PQOp E} {ops : List (PQOp E)}
    (h : I.step s op = none) : I.run s (op :: ops) = none := by
  simp only [PQImpl.run, h]

theorem run_some {E : Type} {I : PQImpl E} {s s' : I.State} {op : PQOp E} {ops : List (PQOp E)}
    {o : Option E} (h : I.step s op = some (o, s')) :
    I.run s (op :: ops) = (I.run s' ops).map (fun r => (o :: r.1, r.2)) := by
  simp only [PQImpl.run, h]
  cases I.run s' ops <;> rfl

/-! ## `ComTree` -/

namespace ComTree

variable {E : Type}

/-- C84: on every history that the list allows, from any initial capacity and in both representations of
nodes, no assertion of `ComTree` fails: the debug build ends with the same tree, which can then be
copied, swapped and destroyed. -/
theorem comTree_assertions (c : NodeConf) (hc : c.Ok) (n : ℕ) (ops : List (Op E)) (l : List E)
    (h : specRun ([] : List E) ops = some l) :
    ∃ t, run (mk n) ops = some t ∧ (do let t ← mkD c n; runD c t ops) = ok t ∧ Holds t l ∧
      destroyD c t = ok () ∧ (∀ m, ∃ t', copyD c t m = ok t' ∧ Holds t' l ∧ destroyD c t' = ok ()) := by
  have key : ∀ (ops : List (Op E)) (t : Tree E) (l l' : List E), Holds t l → specRun l ops = some l' →
      ∃ t', run t ops = some t' ∧ runD c t ops = ok t' ∧ Holds t' l' := by
    intro ops
    induction ops with
    | nil =>
      intro t l l' h hs
      cases hs
      exact ⟨t, rfl, rfl, h⟩
    | cons op ops ih =>
      intro t l l' h hs
      rw [specRun] at hs
      cases hsp : specStep l op with
      | none => rw [hsp] at hs; cases hs
      | some l₁ =>
        rw [hsp] at hs
        have : ∃ t₁, step t op = some t₁ ∧ Holds t₁ l₁ := by
          cases op with
          | pushBack a => cases hsp; exact holds_pushBack h a
          | popBack =>
            simp only [specStep] at hsp
            split at hsp
            · cases hsp
            · rename_i hne
              cases hsp
              exact (holds_popBack h).2 hne
          | write i a =>
            have hb := wr_bounds hsp
            rw [specStep, wr_some a hb.1 hb.2] at hsp
            cases hsp
            exact holds_put h hb.1 hb.2 a
          | increaseCapacity =>
            cases hsp
            obtain ⟨t', e1, e2, _⟩ := holds_increaseCapacity h
            exact ⟨t', e1, e2⟩
          | clear => cases hsp; exact ⟨_, rfl, holds_clear h⟩
        obtain ⟨t₁, e1, e2⟩ := this
        have hw : ∀ i a, op = .write i a → i ≤ l.length := by
          rintro i a rfl
          exact (wr_bounds hsp).2
        have e3 := (stepD_holds hc h op hw e1).1
        obtain ⟨t', f1, f2, f3⟩ := ih t₁ l₁ l' e2 hs
        exact ⟨t', by rw [run, e1]; exact f1, by rw [runD, e3]; exact f2, f3⟩
  obtain ⟨t, h1, h2, h3⟩ := key ops (mk n) [] l (holds_mk n) h
  refine ⟨t, h1, ?_, h3, isValid_holds hc h3, ?_⟩
  · unfold mkD
    rw [isValid_holds hc (holds_mk n)]
    exact h2
  · intro m
    obtain ⟨t', e1, e2, _⟩ := holds_copy h3 m
    refine ⟨t', ?_, e2, isValid_holds hc e2⟩
    unfold copyD
    rw [e1, lift_some, ok_bind, isValid_holds hc e2]
    rfl

/-- C84: swapping two trees breaks no assertion. -/
theorem comTree_swap_assertions (c : NodeConf) (hc : c.Ok) (t u : Tree E) (l m : List E) (ht : Holds t l)
    (hu : Holds u m) : swapD c t u = ok (u, t) := by
  unfold swapD
  rw [isValid_holds hc ht, isValid_holds hc hu]
  rfl

/-- C84: every node that represents a number is aligned, as `operator[]` asserts. -/
theorem comTree_element_assertion (c : NodeConf) (hc : c.Ok) (i : ℕ) (x : Node) (h : Reps c i x) :
    elementValid c x = true := by
  unfold elementValid
  cases hf : c.fi with
  | false => rfl
  | true =>
    obtain ⟨k, hk, hS⟩ := hc.unit
    have hu : c.unit = c.S := by unfold NodeConf.unit; rw [if_pos hf]
    rw [reps_iff, hu] at h
    rw [hu] at hS
    have hx := x.isLt
    have hpos : 0 < (2 : ℕ) ^ k := Nat.two_pow_pos k
    simp only [Bool.not_true, Bool.false_or, beq_iff_eq]
    apply BitVec.eq_of_toNat_eq
    rw [BitVec.toNat_mul, BitVec.toNat_udiv, h, hS, Nat.mul_div_cancel _ hpos, Nat.mod_eq_of_lt]
    rw [h, hS] at hx
    exact hx

/-- `popBack` of an empty tree is caught in debug builds. -/
theorem comTree_popBack_asserts (t : Tree E) (h : Holds t []) : popBackD t = failed := by
  have : t.last = 0 := h.last
  unfold popBackD
  rw [this]
  rfl

/-- C05 again: after a move of a tree that has ever allocated, both trees fail the assertion of the
destructor. So a debug build that moves such a tree and lives on to the end of either is stopped. -/
theorem comTree_move_asserts (c : NodeConf) (hc : c.Ok) (t : Tree E) (l : List E) (h : Holds t l)
    (hcap : t.capEnd ≠ 0) : destroyD c (move t).1 = failed ∧ destroyD c (move t).2 = failed := by
  have ha := h.alloc
  have hne : t.arr.isEmpty = false := by
    rw [List.isEmpty_eq_false_iff]
    intro h0; rw [h0] at ha; simp at ha; omega
  constructor
  · unfold destroyD isValid
    rw [size_pow_two hc]
    simp [move, hne]
  · unfold destroyD isValid
    rw [size_pow_two hc]
    simp [move, hcap]

/-- The hypotheses are met: entries of 8 bytes with fast indices, a history that allocates. -/
example : NodeConf.Ok ⟨true, 8⟩ ∧
    specRun ([] : List ℕ) [.pushBack 3, .pushBack 4, .popBack, .write 1 9] = some [9] :=
  ⟨fun _ => ⟨3, by omega, rfl⟩, by simp [specRun, specStep, wr]⟩

-- entries of 12 bytes and fast indices: the assertion about powers of two fails in the constructor
#guard (mkD ⟨true, 12⟩ 4 : Dbg (Tree ℕ)) matches .failed

end ComTree

/-! ## `Heap` -/

namespace Heap

variable {E : Type} {c : PQConf E}

theorem stepD_ok (hc : c.Lawful) {t : List E} (ht : IsHeap c t) (op : PQOp E) {o : Option E}
    {t' : List E} (h : step c t op = some (o, t')) : stepD c t op = ok (o, t') ∧ IsHeap c t' := by
  have hinv := heap_inv c hc (fun _ => (0 : ℕ)) (fun _ _ _ _ => rfl)
  have hnt : op.needsTop → t ≠ [] := by
    intro hn he
    have := hinv.undef t op ht hn he
    exact nomatch this.symm.trans h
  obtain ⟨o', s', g1, g2, _⟩ := hinv.step t op ht trivial hnt
  have g1 : step c t op = some (o', s') := g1
  rw [h] at g1
  cases g1
  have g2 : IsHeap c t' := g2
  refine ⟨?_, g2⟩
  cases op with
  | push e =>
    obtain ⟨t₁, e1, e2⟩ := Option.map_eq_some_iff.mp h
    cases e2
    show (do let t ← pushD c t e; ok (none, t)) = _
    rw [pushD_ok e1 g2]
    rfl
  | pushRange l =>
    obtain ⟨t₁, e1, e2⟩ := Option.map_eq_some_iff.mp h
    cases e2
    have key : ∀ (l : List E) (t t' : List E), IsHeap c t → pushRange c t l = some t' →
        pushRangeD c t l = ok t' := by
      intro l
      induction l with
      | nil => intro t t' _ h; cases h; rfl
      | cons e l ih =>
        intro t t' ht h
        unfold pushRange at h
        obtain ⟨t₁, f1, f2, _⟩ := push_gen hc (w := fun _ => (0 : ℕ)) (fun _ _ _ _ => rfl) ht e
        rw [f1] at h
        unfold pushRangeD
        rw [pushD_ok f1 f2, ok_bind]
        exact ih t₁ t' f2 h
    show (do let t ← pushRangeD c t l; ok (none, t)) = _
    rw [key l t t' ht e1]
    rfl
  | top =>
    obtain ⟨x, e1, e2⟩ := Option.map_eq_some_iff.mp h
    cases e2
    show (do let x ← lift (top t); ok (some x, t)) = _
    rw [e1]
    rfl
  | pop =>
    obtain ⟨⟨x, t₁⟩, e1, e2⟩ := Option.map_eq_some_iff.mp h
    cases e2
    have : popD c t = ok (x, t₁) := by
      unfold pop at e1
      unfold popD
      split at e1
      · rename_i top moved h1 h2
        simp only at e1
        split at e1
        · rename_i he
          cases e1
          rw [h1, h2]
          simp only [he, if_true]
        · rename_i he
          split at e1
          · cases e1
          · rename_i t₂ hole h3
            split at e1
            · cases e1
            · rename_i t₃ h4
              cases e1
              rw [h1, h2]
              simp only [he, h3]
              rw [moveValueUpD_ok h4 g2]
              rfl
      · cases e1
    show (do let (x, t) ← popD c t; ok (some x, t)) = _
    rw [this]
    rfl
  | decreaseTop e =>
    obtain ⟨t₁, e1, e2⟩ := Option.map_eq_some_iff.mp h
    cases e2
    have : decreaseTopD c t e = ok t' := by
      unfold decreaseTop at e1
      unfold decreaseTopD
      split at e1
      · cases e1
      · rename_i t₂ hole h3
        rw [h3]
        simp only
        rw [moveValueUpD_ok e1 g2, thenValid_ok g2]
    show (do let t ← decreaseTopD c t e; ok (none, t)) = _
    rw [this]
    rfl
  | clear =>
    cases h
    show (do let t ← clearD c t; ok (none, t)) = _
    unfold clearD
    rw [thenValid_ok ht, ok_bind, thenValid_ok g2]
    rfl

/-- C84: on no history does an assertion of `Heap` fail: the debug build returns what the release build
returns, and it is undefined only where the release build is, when an empty heap is asked for its top. -/
theorem heap_assertions (c : PQConf E) (hc : c.Lawful) (ops : List (PQOp E)) :
    runD c [] ops = lift ((impl c).run ([] : List E) ops) := by
  have hinv := heap_inv c hc (fun _ => (0 : ℕ)) (fun _ _ _ _ => rfl)
  have key : ∀ (ops : List (PQOp E)) (t : List E), IsHeap c t →
      runD c t ops = lift ((impl c).run t ops) := by
    intro ops
    induction ops with
    | nil => intro t _; rfl
    | cons op ops ih =>
      intro t ht
      rw [runD]
      cases h : step c t op with
      | none =>
        have h0 : (impl c).step t op = none := h
        rw [run_none h0]
        have hempty : op.needsTop ∧ t = [] := by
          by_contra hcon
          obtain ⟨o, s', g1, _⟩ := hinv.step t op ht trivial (fun h1 h2 => hcon ⟨h1, h2⟩)
          exact nomatch g1.symm.trans h0
        obtain ⟨hn, rfl⟩ := hempty
        have : stepD c [] op = ub := by
          cases op with
          | push e => exact hn.elim
          | pushRange l => exact hn.elim
          | top => rfl
          | pop => rfl
          | decreaseTop e =>
            have h1 := decreaseTop_nil (c := c) e
            unfold decreaseTop at h1
            show (do let t ← decreaseTopD c [] e; ok (none, t)) = _
            unfold decreaseTopD
            split at h1
            · rename_i h2
              rw [h2]
              rfl
            · rename_i t' hole h2
              rw [h2]
              simp only
              unfold moveValueUpD
              rw [h1]
              rfl
          | clear => exact hn.elim
        rw [this]
        rfl
      | some r =>
        obtain ⟨o, t'⟩ := r
        have h0 : (impl c).step t op = some (o, t') := h
        obtain ⟨e1, e2⟩ := stepD_ok hc ht op h
        rw [run_some h0, e1, ok_bind]
        simp only
        rw [ih t' e2]
        cases (impl c).run t' ops with
        | none => rfl
        | some r => rfl
  exact key ops [] isHeap_nil

/-- Integers, with deduplication by keeping one of two equal ones. -/
def exConf : PQConf ℕ := ⟨fun a b => decide (a < b), fun a b => a == b, true, fun a _ => a⟩

theorem exConf_lawful : exConf.Lawful := by
  refine ⟨⟨?_, ?_, ?_⟩, ?_, ?_, ?_⟩ <;> simp only [exConf, decide_eq_true_eq, decide_eq_false_iff_not]
  · omega
  · omega
  · omega
  · intro a b
    rw [Bool.eq_iff_iff]
    simp
    omega
  · simp
  · simp

-- the run is that of a heap which merges equal entries on the way up and on the way down
#guard (match runD exConf [] [.push 5, .push 3, .push 8, .push 5, .push 3, .pop, .decreaseTop 3, .top] with
  | .ok (os, t) => os.getLast? == some (some 5) && t == [5, 3, 3]
  | _ => false)

/-- An order that is none: the assertion of the heap order fails in `push`. -/
example : runD (E := ℕ) ⟨fun a b => decide (b = a + 1 ∨ a = 5), fun _ _ => false, false, fun a _ => a⟩ []
    [.push 3, .push 5, .push 4] = failed := by decide +kernel

end Heap

/-! ## `TourTree` -/

namespace TourTree

variable {E : Type} {c : PQConf E}

theorem stepD_ok (hc : StrictWeak c.lt) {s : State E} (hs : Inv c s) (op : PQOp E) {o : Option E}
    {s' : State E} (h : step c s op = some (o, s')) : stepD c s op = ok (o, s') ∧ Inv c s' := by
  have hinv := tourTree_inv c hc (fun _ => (0 : ℕ))
  have hnt : op.needsTop → entries s ≠ [] := by
    intro hn he
    have := hinv.undef s op hs hn he
    exact nomatch this.symm.trans h
  obtain ⟨o', s₁, g1, g2, _⟩ := hinv.step s op hs trivial hnt
  have g1 : step c s op = some (o', s₁) := g1
  rw [h] at g1
  cases g1
  have g2 : Inv c s' := g2
  refine ⟨?_, g2⟩
  cases op with
  | push e =>
    obtain ⟨t₁, e1, e2⟩ := Option.map_eq_some_iff.mp h
    cases e2
    show (do let s ← pushD c s e; ok (none, s)) = _
    rw [pushD_ok hs e1 g2]
    rfl
  | pushRange l =>
    obtain ⟨t₁, e1, e2⟩ := Option.map_eq_some_iff.mp h
    cases e2
    show (do let s ← pushRangeD c s l; ok (none, s)) = _
    rw [(pushRangeD_ok hc l hs e1).1]
    rfl
  | top =>
    obtain ⟨x, e1, e2⟩ := Option.map_eq_some_iff.mp h
    cases e2
    have hne : (!s.tree.isEmpty) = true := by
      cases ht : s.tree with
      | nil => unfold top at e1; rw [ht] at e1; cases e1
      | cons a l => rfl
    show (do let x ← topD s; ok (some x, s)) = _
    unfold topD
    rw [assert_of hne, ok_bind, e1]
    rfl
  | pop =>
    obtain ⟨⟨x, t₁⟩, e1, e2⟩ := Option.map_eq_some_iff.mp h
    cases e2
    show (do let r ← popD c s; ok (some r.1, r.2)) = _
    rw [popD_ok hs e1 g2]
    rfl
  | decreaseTop e =>
    obtain ⟨t₁, e1, e2⟩ := Option.map_eq_some_iff.mp h
    cases e2
    show (do let s ← decreaseTopD c s e; ok (none, s)) = _
    rw [decreaseTopD_ok e1 g2]
    rfl
  | clear =>
    cases h
    show (do let s ← clearD c s; ok (none, s)) = _
    unfold clearD
    rw [isValid_ok hs, ok_bind, isValid_ok g2]
    rfl

/-- C84: on no history of allowed calls does an assertion of `TourTree` fail: the debug build returns
what the release build returns. A history that asks an empty tree for its top, which is undefined in
the release build, always fails an assertion instead. -/
theorem tourTree_assertions (c : PQConf E) (hc : StrictWeak c.lt) (ops : List (PQOp E)) :
    runD c ops = caught ((impl c).run (init : State E) ops) := by
  have hinv := tourTree_inv c hc (fun _ => (0 : ℕ))
  have key : ∀ (ops : List (PQOp E)) (s : State E), Inv c s →
      runFromD c s ops = caught ((impl c).run s ops) := by
    intro ops
    induction ops with
    | nil => intro s _; rfl
    | cons op ops ih =>
      intro s hs
      rw [runFromD]
      cases h : step c s op with
      | none =>
        have h0 : (impl c).step s op = none := h
        rw [run_none h0]
        have hempty : op.needsTop ∧ entries s = [] := by
          by_contra hcon
          obtain ⟨o, s', g1, _⟩ := hinv.step s op hs trivial (fun h1 h2 => hcon ⟨h1, h2⟩)
          exact nomatch g1.symm.trans h0
        obtain ⟨hn, he⟩ := hempty
        have ht : s.tree.isEmpty = true := by
          rw [List.isEmpty_iff]
          exact List.length_eq_zero_iff.mp ((nonempty_tree hs.toShape).mpr he)
        have : stepD c s op = failed := by
          cases op with
          | push e => exact hn.elim
          | pushRange l => exact hn.elim
          | top =>
            show (do let x ← topD s; ok (some x, s)) = _
            unfold topD
            rw [ht]
            rfl
          | pop =>
            show (do let r ← popD c s; ok (some r.1, r.2)) = _
            unfold popD
            rw [ht]
            rfl
          | decreaseTop e =>
            show (do let s ← decreaseTopD c s e; ok (none, s)) = _
            unfold decreaseTopD
            rw [ht]
            rfl
          | clear => exact hn.elim
        rw [this]
        rfl
      | some r =>
        obtain ⟨o, s'⟩ := r
        have h0 : (impl c).step s op = some (o, s') := h
        obtain ⟨e1, e2⟩ := stepD_ok hc hs op h
        rw [run_some h0, e1, ok_bind]
        simp only
        rw [ih s' e2]
        cases (impl c).run s' ops with
        | none => rfl
        | some r => rfl
  unfold runD
  rw [initD_ok, ok_bind]
  exact key ops init inv_init

/-- Integers. -/
def exConf : PQConf ℕ := ⟨fun a b => decide (a < b), fun a b => a == b, false, fun a _ => a⟩

-- histories that grow the tree, pop until it is empty, and ask an empty tree for its top
#guard (match runD exConf (.pushRange (List.range 20) :: List.replicate 20 .pop) with
  | .ok (os, s) => os.tail == (List.range 20).reverse.map some && s.players.isEmpty
  | _ => false)
#guard (match runD exConf [.push 4, .pop, .top] with
  | .failed => true
  | _ => false)

/-- The hypothesis is met. -/
example : StrictWeak exConf.lt := by
  refine ⟨?_, ?_, ?_⟩ <;> simp only [exConf, decide_eq_true_eq, decide_eq_false_iff_not] <;> omega

end TourTree

end Verif
