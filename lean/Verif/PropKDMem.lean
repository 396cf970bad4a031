import Verif.KDMemPackedReset
import Verif.KDMemSim
import Verif.PropKDTree

/-!
# Property C76: the memory of KD trees

The model is `KDMem.lean`. Its functions have no value when a pointer that is null or not set or that leads to memory given
back is used, when an entry is read or assigned where there is none, when one is constructed where there is one, when raw
memory is destructed, when memory with entries in it is given back, and when more is recorded than the recorder can hold.
The specification of the calls is that of C36, `KDTreeSpec.lean`.
-/

namespace Verif.KDMem

open Verif.KDTree (Conf Op Ret Trace exConf exConf_lawful)

variable {T N : Type} {c : Conf T}

/-- What the constructor, the calls `ops` and the destructor do with memory is defined, and nothing is left: the calls give
back what they should, the entries alive before the destructor runs are those held, and after it all nodes have been given
back (and with `freeAll`, no entry is left in them). -/
def Sound (I : Impl T N) (c : Conf T) (ops : List (Op T)) : Prop :=
  ∃ m₀ rs m l, init c = some m₀ ∧ run I c m₀ ops = .ok (rs, m) ∧ Trace c [] ops rs l ∧ (liveEntries I.slots m.tree.heap).Perm l ∧
    ∃ mt, I.clear c m.tree = some mt ∧ ∀ y, get mt.heap y = none

theorem sound {I : Impl T N} (L : Layout I c) (hl : c.Lawful) (ops : List (Op T)) (h1 : ∀ op ∈ ops, op.NoThrow ∧ op.ElementOk c)
    (h2 : (∀ op ∈ ops, op ≠ .size) ∨ ∀ op ∈ ops, op.NotElement) : Sound I c ops := by
  obtain ⟨s₀, g1, g2, g3, g4⟩ := KDTree.init_ok hl
  obtain ⟨m₀, g5, g6⟩ := init_sim L g1
  obtain ⟨rs, s, m, r1, r2, r3, r4, r5⟩ := run_sim hl L ops g2 (by unfold SizeGe; rw [g3]) g6 h1
  obtain ⟨rs', s', t1, t2, t3, t4⟩ := KDTree.run_inv hl ops g2 h1
  rw [r1] at t1
  cases t1
  rw [g4] at t3 t4
  refine ⟨m₀, rs, m, s.contents, g5, r2, ?_, sim_live L r5, sim_clear L r5⟩
  rcases h2 with h2 | h2
  · exact t3 h2
  · exact (t4 g3 h2).1

/-- C76 for binary trees, if no output object throws. (`removeElement` does not compile for them.) -/
theorem binary_memory_partial (hl : c.Lawful) (hp : c.packed = false) (ops : List (Op T)) (h1 : ∀ op ∈ ops, op.NoThrow)
    (h2 : ∀ op ∈ ops, op.NotElement) : Sound Binary.impl c ops :=
  sound (Binary.layout hl hp) hl ops (fun op ho => ⟨h1 op ho, by have := h2 op ho; cases op <;> trivial⟩) (.inr h2)

/-- C76 for packed trees, if no output object throws and `removeElement` is only called without a divisor cache. After
`removeElement` the value of `size` is not specified. -/
theorem packed_memory_partial (hl : c.Lawful) (hp : c.packed = true) (ops : List (Op T)) (h1 : ∀ op ∈ ops, op.NoThrow)
    (h2 : (∀ op ∈ ops, op.NotElement) ∨ c.useDivisorCache = false ∧ ∀ op ∈ ops, op ≠ .size) : Sound Packed.impl c ops := by
  refine sound (Packed.layout hl hp) hl ops (fun op ho => ⟨h1 op ho, ?_⟩) ?_
  · rcases h2 with h2 | h2
    · have := h2 op ho
      cases op <;> trivial
    · cases op <;> first | trivial | exact ⟨hp, h2.1⟩
  · rcases h2 with h2 | h2
    · exact .inr h2
    · exact .inl h2.2

-- histories with insertions that split, an enumeration cut short, a removal and rebuilds
example : Sound Binary.impl (exConf false true true 2) [.insert [1, 2], .insert [5], .insert [3, 1], .insert [7], .findDivisor [6],
    .forAll (fun _ => .stop), .removeMultiples [3], .rebuild, .size] :=
  binary_memory_partial (exConf_lawful _ _ _ (by decide)) rfl _ (by simp [Op.NoThrow]) (by simp [Op.NotElement])

example : Sound Packed.impl (exConf true false true 1) [.insert [1, 2], .insert [5], .insert [3, 1], .insert [7], .removeElement [5],
    .forAll (fun _ => .stop), .removeMultiples [3], .rebuild] :=
  packed_memory_partial (exConf_lawful _ _ _ (by decide)) rfl _ (by simp [Op.NoThrow]) (.inr ⟨rfl, by simp⟩)

/-- What is alive after some calls, the nodes in memory, and whether the destructor leaves something. -/
def outcome (I : Impl T N) (c : Conf T) (ops : List (Op T)) : Option (List (Ret T) × List T × ℕ × Bool) :=
  match init c with
  | none => none
  | some m =>
    match run I c m ops with
    | .ok (rs, m) => some (rs, liveEntries I.slots m.tree.heap, (m.tree.heap.filter (·.isSome)).length,
        (I.clear c m.tree).any (fun t => t.heap.all (·.isNone)))
    | _ => none

#guard outcome Binary.impl (exConf false true false 1) [.insert [5], .insert [1], .insert [9], .removeMultiples [9], .findDivisor [6]] ==
  some ([.unit, .unit, .unit, .removed [[9]] true, .entry (some [1])], [[1], [5]], 5, true)
#guard outcome Packed.impl (exConf true true false 1) [.insert [5], .insert [1], .insert [9], .removeMultiples [9], .findDivisor [6]] ==
  some ([.unit, .unit, .unit, .removed [[9]] true, .entry (some [1])], [[1], [5]], 3, true)

/-! ## Where it is not so -/

/-- A history of the tree model, the state it leads to tested. -/
def leads {T : Type} (c : Conf T) (ops : List (Op T)) (p : KDTree.State T → Bool) : Bool :=
  match KDTree.init c with
  | none => false
  | some s => match KDTree.run c s ops with | .ok (_, s) => p s | _ => false

theorem ub_of_leads {I : Impl T N} (L : Layout I c) (hl : c.Lawful) {ops ops' : List (Op T)} (h1 : ∀ op ∈ ops, op.NoThrow ∧ op.ElementOk c)
    {p : KDTree.State T → Bool} (hp : leads c ops p = true)
    (hub : ∀ (s : KDTree.State T) (m : State N), Sim L s m → p s = true → run I c m ops' = .ub) :
    ∃ m₀ : State N, init c = some m₀ ∧ run I c m₀ (ops ++ ops') = .ub := by
  obtain ⟨s₀, g1, g2, g3, g4⟩ := KDTree.init_ok hl
  obtain ⟨m₀, g5, g6⟩ := init_sim L g1
  obtain ⟨rs, s, m, r1, r2, r3, r4, r5⟩ := run_sim hl L ops g2 (by unfold SizeGe; rw [g3]) g6 h1
  refine ⟨m₀, g5, run_append I ops ops' r2 (hub s m r5 ?_)⟩
  unfold leads at hp
  rw [g1] at hp
  simp only [r1] at hp
  exact hp

/-- C76, refuted: after an output object has thrown, `rebuild` writes past the end of the memory of its recorder. -/
theorem recorder_refuted : (∃ (c : Conf (List ℕ)) (m₀ : State (BNode (List ℕ))), c.Lawful ∧ c.packed = false ∧ init c = some m₀ ∧
      run Binary.impl c m₀ [.insert [5], .insert [1], .findAllDivisors [9] (fun _ => .threw), .rebuild] = .ub) ∧
    ∃ (c : Conf (List ℕ)) (m₀ : State (PNode (List ℕ))), c.Lawful ∧ c.packed = true ∧ init c = some m₀ ∧
      run Packed.impl c m₀ [.insert [5], .insert [1], .findAllDivisors [9] (fun _ => .threw), .rebuild] = .ub := by
  constructor
  · have hl := exConf_lawful false false false (leafSize := 1) (by decide)
    obtain ⟨m₀, h1, h2⟩ := ub_of_leads (Binary.layout hl rfl) hl (ops := [.insert [5], .insert [1]])
      (ops' := [.findAllDivisors [9] (fun _ => .threw), .rebuild]) (by simp [Op.NoThrow, Op.ElementOk])
      (p := fun s => overflows _ s [9]) (by decide +kernel) (fun s m hs ho => overflow_ub _ hs ho)
    exact ⟨_, m₀, hl, rfl, h1, h2⟩
  · have hl := exConf_lawful true false false (leafSize := 1) (by decide)
    obtain ⟨m₀, h1, h2⟩ := ub_of_leads (Packed.layout hl rfl) hl (ops := [.insert [5], .insert [1]])
      (ops' := [.findAllDivisors [9] (fun _ => .threw), .rebuild]) (by simp [Op.NoThrow, Op.ElementOk])
      (p := fun s => overflows _ s [9]) (by decide +kernel) (fun s m hs ho => overflow_ub _ hs ho)
    exact ⟨_, m₀, hl, rfl, h1, h2⟩

/-- C76, refuted: with a divisor cache, `findDivisor` after `removeElement` reads raw memory. -/
theorem cached_memory_refuted : ∃ (c : Conf (List ℕ)) (m₀ : State (PNode (List ℕ))), c.Lawful ∧ c.packed = true ∧ init c = some m₀ ∧
    run Packed.impl c m₀ [.insert [1, 2], .findDivisor [2, 2], .removeElement [1, 2], .findDivisor [2, 2]] = .ub := by
  have hl := exConf_lawful true true false (leafSize := 2) (by decide)
  obtain ⟨m₀, h1, h2⟩ := ub_of_leads (Packed.layout hl rfl) hl (ops := [.insert [1, 2], .findDivisor [2, 2]])
    (ops' := [.removeElement [1, 2], .findDivisor [2, 2]]) (by simp [Op.NoThrow, Op.ElementOk])
    (p := fun s => dangles _ s [1, 2]) (by decide +kernel) (fun s m hs ho => dangle_ub _ rfl rfl rfl hs ho)
  exact ⟨_, m₀, hl, rfl, h1, h2⟩

end Verif.KDMem
