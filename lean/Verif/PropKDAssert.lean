import Verif.KDAssertStateProofs
import Verif.PropKDTree

/-!
# C86: the assertions of the KD trees
-/

namespace Verif.KDTree

open Verif.Dbg

variable {T : Type} {c : Conf T}

/-- C86: a KD tree from its construction, over any history of calls, to its destruction, in a debug build: if no call throws
`std::logic_error` in the release build, no assertion fails and every call returns what it returns in the release
build. -/
theorem kd_debug_agrees {pos : Bool} (hpos : c.doAutomaticRebuilds = true → pos = true) (hl : c.Lawful) (ops : List (Op T))
    (h1 : ∀ op ∈ ops, op.ElementOk c ∧ op.NoThrow) : ∃ s₀ rs s, init c = some s₀ ∧ run c s₀ ops = .ok (rs, s) ∧
      (.threw ∉ rs → runD c pos ops = .ok (rs, s)) := by
  obtain ⟨s₀, i1, i2, i3, _⟩ := initD_of hpos hl
  obtain ⟨rs, s, g1, _, g3⟩ := runFromD_spec hpos hl ops s₀ i3 h1
  refine ⟨s₀, rs, s, i1, g1, fun h0 => ?_⟩
  obtain ⟨e1, e2⟩ := g3 h0
  have htmp : s.tree.clearD = .ok () := by
    rw [Tree.clearD]; exact assert_of (by rw [e2.inv.tmp]; rfl)
  rw [runD, i2, ok_bind, e1, ok_bind]
  simp only
  rw [htmp, ok_bind]
  rfl

/-- C86: where a call throws `std::logic_error` in the release build, an assertion fails in the debug build, so that
the exception is never thrown. -/
theorem kd_debug_fails {pos : Bool} (hpos : c.doAutomaticRebuilds = true → pos = true) (hl : c.Lawful) (ops : List (Op T))
    (h1 : ∀ op ∈ ops, op.ElementOk c ∧ op.NoThrow) : ∃ s₀ rs s, init c = some s₀ ∧ run c s₀ ops = .ok (rs, s) ∧
      (.threw ∈ rs → runD c pos ops = .failed) := by
  obtain ⟨s₀, i1, i2, i3, _⟩ := initD_of hpos hl
  obtain ⟨rs, s, g1, g2, _⟩ := runFromD_spec hpos hl ops s₀ i3 h1
  refine ⟨s₀, rs, s, i1, g1, fun h0 => ?_⟩
  rw [runD, i2, ok_bind, g2 h0]
  rfl

/-- C86: with leaves larger than the history is long, and removals allowed, no call throws, so no assertion fails. -/
theorem kd_debug_holds {pos : Bool} (hpos : c.doAutomaticRebuilds = true → pos = true) (hl : c.Lawful)
    (ha : c.allowRemovals = true) (ops : List (Op T)) (h1 : ∀ op ∈ ops, op.ElementOk c ∧ op.NoThrow)
    (h2 : ops.length ≤ c.leafSize) : ∃ s₀ rs s, init c = some s₀ ∧ run c s₀ ops = .ok (rs, s) ∧
      runD c pos ops = .ok (rs, s) := by
  obtain ⟨s₀, rs, s, g1, g2, g3⟩ := kd_debug_agrees hpos hl ops h1
  refine ⟨s₀, rs, s, g1, g2, g3 ?_⟩
  obtain ⟨s₁, i1, i2, i3, i4⟩ := initD_of hpos hl
  rw [i1] at g1
  cases g1
  -- the number of entries is at most the number of calls
  have main : ∀ (ops : List (Op T)) (k : ℕ) (s₀ s : State T) (rs : List (Ret T)), Inv c s₀ → s₀.contents.length ≤ k →
      k + ops.length ≤ c.leafSize → (∀ op ∈ ops, op.ElementOk c ∧ op.NoThrow) → run c s₀ ops = .ok (rs, s) → .threw ∉ rs := by
    intro ops
    induction ops with
    | nil => intro k s₀ s rs _ _ _ _ hr; cases hr; nofun
    | cons op ops ih =>
      intro k s₀ s rs hi hk hlen hop hr
      obtain ⟨ho, hn⟩ := hop op List.mem_cons_self
      obtain ⟨r, s1, f1, f2, _, f4⟩ := step_spec hl hi op ho
      rw [List.length_cons] at hlen
      have hcont : r ≠ .threw ∧ s1.contents.length ≤ k + 1 := by
        by_cases hsz : op = .size
        · subst hsz
          rw [step] at f1
          cases f1
          exact ⟨nofun, by omega⟩
        have hs := f2 (.inl hsz)
        generalize hl1 : s1.contents = l' at *
        generalize hl0 : s₀.contents = l at *
        have hcp : ∀ e, copies c e l ≤ l.length := fun e => List.countP_le_length
        have hfl : ∀ q : T → Bool, (l.filter q).length ≤ l.length := fun q => List.length_filter_le _ _
        cases hs with
        | insert _ hp => exact ⟨nofun, by rw [hp.length_eq, List.length_cons]; omega⟩
        | insertThrows hfull _ =>
          exfalso
          have := le_trans hfull (hcp _)
          omega
        | removeMultiples _ _ _ hp =>
          refine ⟨nofun, ?_⟩
          rw [hp.length_eq]
          exact le_trans (hfl _) (by omega)
        | removeMultiplesOff hoff _ => rw [ha] at hoff; cases hoff
        | removeElementOff hoff _ => rw [ha] at hoff; cases hoff
        | removeElement _ _ hp =>
          refine ⟨nofun, ?_⟩
          have := hp.length_eq
          rw [List.length_cons] at this
          omega
        | removeNothing _ _ hp => exact ⟨nofun, by rw [hp.length_eq]; omega⟩
        | findDivisor _ _ hp => exact ⟨nofun, by rw [hp.length_eq]; omega⟩
        | findNone _ hp => exact ⟨nofun, by rw [hp.length_eq]; omega⟩
        | findAllDivisors _ hp => exact ⟨nofun, by rw [hp.length_eq]; omega⟩
        | findAllMultiples _ hp => exact ⟨nofun, by rw [hp.length_eq]; omega⟩
        | forAll _ hp => exact ⟨nofun, by rw [hp.length_eq]; omega⟩
        | rebuild hp => exact ⟨nofun, by rw [hp.length_eq]; omega⟩
        | size hp => exact ⟨nofun, by rw [hp.length_eq]; omega⟩
      rw [run, f1] at hr
      simp only at hr
      cases hrr : run c s1 ops with
      | ok x =>
        rw [hrr] at hr
        cases hr
        intro h0
        rcases List.mem_cons.mp h0 with h0 | h0
        · exact hcont.1 h0.symm
        · exact ih (k + 1) s1 _ _ (f4 hn) hcont.2 (by omega) (fun o hm => hop o (List.mem_cons_of_mem _ hm)) hrr h0
      | broken => rw [hrr] at hr; cases hr
      | ub => rw [hrr] at hr; cases hr
  refine main ops 0 s₀ s rs ?_ ?_ (by omega) h1 g2
  · exact i3.inv
  · rw [i4]; simp

/-- C86: a rebuild ratio that is not positive fails an assertion in the constructor. -/
theorem kd_ratio_fails (hd : c.doAutomaticRebuilds = true) {s₀ : State T} (hi : init c = some s₀) (ops : List (Op T)) :
    runD c false ops = .failed := by
  unfold init at hi
  have hcalc : ∃ bits, calcInit c = some bits := by
    cases hb : calcInit c with
    | none => rw [hb] at hi; cases hi
    | some bits => exact ⟨bits, rfl⟩
  obtain ⟨bits, hb⟩ := hcalc
  rw [runD, initD, hb, lift_some, ok_bind, Tree.validD, hd]
  by_cases h0 : 0 < c.leafSize
  · rw [assert_of (by simpa using h0)]; rfl
  · rw [show decide (0 < c.leafSize) = false by simpa using h0]; rfl

/-- C86: once an output object has thrown and left a node in the list of nodes to visit, every later enumeration, rebuild
and removal fails an assertion, and so does the destructor. -/
theorem kd_leftover_fails {pos : Bool} {s : State T} (h : s.tree.tmp ≠ []) :
    (∀ m p, stepD c pos s (.findAllDivisors m p) = .failed) ∧ (∀ m p, stepD c pos s (.findAllMultiples m p) = .failed) ∧
    (∀ p, stepD c pos s (.forAll p) = .failed) ∧ stepD c pos s .rebuild = .failed ∧
    (∀ m, stepD c pos s (.removeMultiples m) = .failed) ∧
    (c.packed = true → ∀ m, stepD c pos s (.removeElement m) = .failed) ∧
    (c.packed = true → ∀ e, stepD c pos s (.insert e) = .failed) ∧
    (c.useDivisorCache = false → ∀ m, stepD c pos s (.findDivisor m) = .failed) ∧ s.tree.clearD = .failed := by
  have he : s.tree.tmp.isEmpty = false := by simpa using h
  have hv : s.tree.validD c pos = .failed := by rw [Tree.validD, he]; rfl
  have hen : ∀ k f, s.tree.enumerateD c k f = .failed := by intro k f; rw [Tree.enumerateD, he]; rfl
  refine ⟨fun m p => ?_, fun m p => ?_, fun p => ?_, ?_, fun m => ?_, fun hp m => ?_, fun hp e => ?_, fun hu m => ?_, ?_⟩
  · rw [stepD, Tree.findAllDivisorsD, hen]; rfl
  · rw [stepD, Tree.findAllMultiplesD, hen]; rfl
  · rw [stepD, Tree.forAllD, hen]; rfl
  · rw [stepD, rebuildD, Tree.forAllD, hen]; rfl
  · rw [stepD, removeMultiplesD, Tree.removeMultiplesD, he]
    cases c.allowRemovals <;> rfl
  · rw [stepD, removeElementD, Tree.removeElementD, he, hp]
    cases c.allowRemovals <;> rfl
  · rw [stepD, insertD, Tree.insertD, hp, whenD, hv]; rfl
  · rw [stepD, findDivisorD, hu]
    simp only
    rw [findDivisorTreeD, Tree.findDivisorD, he, hv]
    cases c.packed <;> rfl
  · rw [Tree.clearD, he]; rfl

/-! ## Cases -/

/-- What a history gives in the debug build. -/
def outcomeD {T : Type} (c : Conf T) (pos : Bool) (ops : List (Op T)) : Dbg (List (Ret T) × List T × ℕ) :=
  match runD c pos ops with
  | .ok (rs, s) => .ok (rs, s.contents, s.size)
  | .failed => .failed
  | .ub => .ub

/-- Whether two outcomes are the same. -/
def sameOutcome {T : Type} [DecidableEq T] : Dbg (List (Ret T) × List T × ℕ) → Option (List (Ret T) × List T × ℕ) → Bool
  | .ok a, some b => a == b
  | _, _ => false

/-- An assertion fails. -/
def fails {α : Type} : Dbg α → Bool
  | .failed => true
  | _ => false

-- insertions that split, queries, removal, in all kinds of trees
#guard [exConf true true true 2, exConf false true true 2, exConf true false false 2, exConf false false false 1].all (fun c =>
  let ops := [.insert [1, 2, 3], .insert [2, 0, 0], .insert [0, 5, 0], .insert [3, 3, 3], .insert [0, 0, 1],
    .findDivisor [2, 1, 0], .findDivisor [1, 1, 0], .removeMultiples [1, 2, 0], .size, .rebuild, .findDivisor [9, 3, 9],
    .forAll (fun _ => .go)]
  sameOutcome (outcomeD c true ops) (outcome c ops))

-- an element is removed
#guard sameOutcome (outcomeD (exConf true false true 1) true [.insert [5], .insert [1], .removeElement [5], .size])
  (outcome (exConf true false true 1) [.insert [5], .insert [1], .removeElement [5], .size])

-- the third copy of an entry does not fit in a leaf of two: `MATHIC_ASSERT(false)`
#guard fails (outcomeD (exConf true true true 2) true [.insert [1], .insert [1], .insert [1]])
#guard fails (outcomeD (exConf false true true 2) true [.insert [1], .insert [1], .insert [1]])

-- removals are switched off
#guard fails (outcomeD { exConf true true true 2 with allowRemovals := false } true [.insert [1], .removeMultiples [1]])

-- a rebuild ratio that is not positive
#guard fails (outcomeD (exConf true true true 2) false [])

-- after an output object has thrown, the destructor alone fails an assertion
#guard fails (outcomeD (exConf true false false 1) true [.insert [5], .insert [1], .findAllDivisors [9] (fun _ => .threw)])
#guard fails (outcomeD (exConf false false false 1) true [.insert [5], .insert [1], .findAllDivisors [9] (fun _ => .threw)])

/-- The hypotheses are met: binary and packed, cache, automatic rebuilds. -/
example (packed cache auto : Bool) : ∃ s₀ rs s, init (exConf packed cache auto 3) = some s₀ ∧
    run (exConf packed cache auto 3) s₀ [.insert [1, 2], .insert [0, 3], .removeMultiples [1]] = .ok (rs, s) ∧
    runD (exConf packed cache auto 3) true [.insert [1, 2], .insert [0, 3], .removeMultiples [1]] = .ok (rs, s) :=
  kd_debug_holds (fun _ => rfl) (exConf_lawful packed cache auto (by decide)) rfl _
    (by
      intro op hop
      simp only [List.mem_cons, List.not_mem_nil, or_false] at hop
      rcases hop with rfl | rfl | rfl <;> exact ⟨trivial, trivial⟩) (show 3 ≤ 3 by decide)

/-- C86, the exception `insert` throws in the release build is out of reach in the debug build. -/
example (packed : Bool) : runD (exConf packed false false 1) true [.insert [1], .insert [1]] = .failed := by
  obtain ⟨s₀, rs, s, g1, g2, g3⟩ := kd_debug_fails (pos := true) (fun _ => rfl)
    (exConf_lawful packed false false (leafSize := 1) (by decide)) [.insert [1], .insert [1]]
    (by
      intro op hop
      simp only [List.mem_cons, List.not_mem_nil, or_false, or_self] at hop
      subst hop
      exact ⟨trivial, trivial⟩)
  apply g3
  have h : outcome (exConf packed false false 1) [.insert [1], .insert [1]] =
      some ([.unit, .threw], [[1]], 1) := by cases packed <;> decide +kernel
  unfold outcome at h
  rw [g1] at h
  simp only [g2, Option.some.injEq, Prod.mk.injEq] at h
  rw [h.1]
  decide

end Verif.KDTree
