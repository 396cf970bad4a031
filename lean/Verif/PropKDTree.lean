import Verif.KDThrowProofs

/-!
# Properties C34 to C41 and C63 to C65: the KD trees
-/

namespace Verif.KDTree

open Verif.DivMask (Ext Bits)

variable {T : Type} {c : Conf T}

/-! ## All calls -/

/-- Every history without `removeElement` and without exceptions of output objects does what the
specification says; no call is undefined and no exception leaves a broken tree. -/
theorem kdTree_correct (hl : c.Lawful) (ops : List (Op T)) (h1 : ∀ op ∈ ops, op.NoThrow)
    (h2 : ∀ op ∈ ops, op.NotElement) : ∃ s₀ rs s, init c = some s₀ ∧ run c s₀ ops = .ok (rs, s) ∧
      Trace c [] ops rs s.contents := by
  obtain ⟨s₀, g1, g2, g3, g4⟩ := init_ok hl
  have hops : ∀ op ∈ ops, op.NoThrow ∧ op.ElementOk c := by
    intro op hop
    refine ⟨h1 op hop, ?_⟩
    have := h2 op hop
    cases op <;> trivial
  obtain ⟨rs, s, r1, r2, _, r4⟩ := run_inv hl ops g2 hops
  refine ⟨s₀, rs, s, g1, r1, ?_⟩
  have := (r4 g3 h2).1
  rwa [g4] at this

/-- With `removeElement`, on packed trees without a divisor cache, when `size` is not asked for. -/
theorem kdTree_correct_element (hl : c.Lawful) (hp : c.packed = true) (hu : c.useDivisorCache = false)
    (ops : List (Op T)) (h1 : ∀ op ∈ ops, op.NoThrow)
    (h2 : ∀ op ∈ ops, op ≠ .size) : ∃ s₀ rs s, init c = some s₀ ∧ run c s₀ ops = .ok (rs, s) ∧
      Trace c [] ops rs s.contents := by
  obtain ⟨s₀, g1, g2, g3, g4⟩ := init_ok hl
  have hops : ∀ op ∈ ops, op.NoThrow ∧ op.ElementOk c := by
    intro op hop
    refine ⟨h1 op hop, ?_⟩
    cases op <;> trivial
  obtain ⟨rs, s, r1, r2, r3, _⟩ := run_inv hl ops g2 hops
  refine ⟨s₀, rs, s, g1, r1, ?_⟩
  have := r3 h2
  rwa [g4] at this

/-! ## C34 -/

/-- `findDivisor` finds a divisor that is in the tree if there is one. -/
theorem findDivisor_exact (hl : c.Lawful) {s : State T} (h : Reachable c s) (m : T) :
    ∃ r s', step c s (.findDivisor m) = .ok (.entry r, s') ∧ s'.contents = s.contents ∧
      (∀ e, r = some e → e ∈ s.contents ∧ c.dm.divides e m = true) ∧
      (r = none → ∀ e ∈ s.contents, c.dm.divides e m = false) := by
  obtain ⟨r, s', g1, g2, _, g4, _⟩ := findDivisor_ok hl (h.inv hl) m
  generalize s'.contents = l' at g2 g4
  cases g2 with
  | findDivisor he hd _ =>
    refine ⟨_, s', g1, ?_, ?_, nofun⟩
    · obtain ⟨r', s'', k1, _, _, k4, _⟩ := findDivisor_ok hl (h.inv hl) m
      rw [g1] at k1; cases k1; exact k4
    · rintro _ ⟨⟩; exact ⟨he, hd⟩
  | findNone hn _ =>
    refine ⟨_, s', g1, ?_, nofun, fun _ => hn⟩
    obtain ⟨r', s'', k1, _, _, k4, _⟩ := findDivisor_ok hl (h.inv hl) m
    rw [g1] at k1; cases k1; exact k4

/-! ## C35 -/

/-- The enumerations hand out each match once, up to the point where the output stops or throws. -/
theorem enumerations_exact (hl : c.Lawful) {s : State T} (h : Reachable c s) (m : T) (p : List T → Flow) :
    (∃ got b s', step c s (.findAllDivisors m p) = .ok (.got got b, s') ∧
      Delivered (s.contents.filter (fun e => c.dm.divides e m)) p got b) ∧
    (∃ got b s', step c s (.findAllMultiples m p) = .ok (.got got b, s') ∧
      Delivered (s.contents.filter (fun e => c.dm.divides m e)) p got b) ∧
    (∃ got b s', step c s (.forAll p) = .ok (.got got b, s') ∧ Delivered s.contents p got b) := by
  refine ⟨?_, ?_, ?_⟩
  · obtain ⟨r, s', g1, g2, _⟩ := step_spec hl (h.inv hl) (.findAllDivisors m p) trivial
    cases g2 (.inl nofun) with
    | findAllDivisors hd _ => exact ⟨_, _, s', g1, hd⟩
  · obtain ⟨r, s', g1, g2, _⟩ := step_spec hl (h.inv hl) (.findAllMultiples m p) trivial
    cases g2 (.inl nofun) with
    | findAllMultiples hd _ => exact ⟨_, _, s', g1, hd⟩
  · obtain ⟨r, s', g1, g2, _⟩ := step_spec hl (h.inv hl) (.forAll p) trivial
    cases g2 (.inl nofun) with
    | forAll hd _ => exact ⟨_, _, s', g1, hd⟩

/-! ## C36 -/

/-- `removeMultiples` removes the multiples, puts them out and leaves the others. -/
theorem removeMultiples_exact (hl : c.Lawful) (ha : c.allowRemovals = true) {s : State T} (h : Reachable c s) (m : T) :
    ∃ out b s', step c s (.removeMultiples m) = .ok (.removed out b, s') ∧
      out.Perm (s.contents.filter (fun e => c.dm.divides m e)) ∧ (b = true ↔ out ≠ []) ∧
      s'.contents.Perm (s.contents.filter (fun e => !c.dm.divides m e)) := by
  obtain ⟨r, s', g1, g2, _⟩ := step_spec hl (h.inv hl) (.removeMultiples m) trivial
  cases g2 (.inl nofun) with
  | removeMultiples _ ho hb hp => exact ⟨_, _, s', g1, ho, hb, hp⟩
  | removeMultiplesOff h0 _ => rw [ha] at h0; cases h0

/-- With removals off it throws and changes nothing. -/
theorem removeMultiples_off (ha : c.allowRemovals = false) (s : State T) (m : T) :
    step c s (.removeMultiples m) = .ok (.threw, s) := by
  simp [step, removeMultiples, ha]

/-! ## C37 -/

/-- An insertion that does not throw adds the entry and nothing else, automatic rebuild or not. -/
theorem insert_exact (hl : c.Lawful) {s s' : State T} (h : Reachable c s) (e : T)
    (hi : step c s (.insert e) = .ok (.unit, s')) : s'.contents.Perm (e :: s.contents) := by
  obtain ⟨r, s'', g1, g2, _⟩ := step_spec hl (h.inv hl) (.insert e) trivial
  rw [hi] at g1
  cases g1
  cases g2 (.inl nofun) with
  | insert _ hp => exact hp

/-- A rebuild keeps the entries. -/
theorem rebuild_exact (hl : c.Lawful) {s : State T} (h : Reachable c s) :
    ∃ s', step c s .rebuild = .ok (.unit, s') ∧ s'.contents.Perm s.contents := by
  obtain ⟨s', g1, _, g3, _⟩ := rebuild_ok hl (h.inv hl)
  exact ⟨s', by rw [step, g1]; rfl, g3⟩

/-! ## C38 -/

/-- An insertion throws just if the tree has `leafSize` entries with the same exponents, and then
changes nothing. No rebuild throws, neither explicit nor automatic. -/
theorem insert_throws_iff (hl : c.Lawful) {s : State T} (h : Reachable c s) (e : T) :
    ∃ r s', step c s (.insert e) = .ok (r, s') ∧
      (r = .threw ∧ c.leafSize ≤ copies c e s.contents ∧ s'.contents.Perm s.contents ∨
       r = .unit ∧ copies c e s.contents < c.leafSize ∧ s'.contents.Perm (e :: s.contents)) := by
  obtain ⟨r, s', g1, g2, _⟩ := step_spec hl (h.inv hl) (.insert e) trivial
  refine ⟨r, s', g1, ?_⟩
  have := g2 (.inl nofun)
  generalize s'.contents = l' at this
  cases this with
  | insert h1 h2 => exact .inr ⟨rfl, h1, h2⟩
  | insertThrows h1 h2 => exact .inl ⟨rfl, h1, h2⟩

/-- After an insertion that has thrown all calls work as before. -/
theorem reachable_step {s s' : State T} (h : Reachable c s) {op : Op T} (h1 : op.NoThrow)
    (h2 : op.ElementOk c) {r : Ret T} (hs : step c s op = .ok (r, s')) : Reachable c s' := by
  obtain ⟨s₀, ops, rs, g1, g2, g3⟩ := h
  refine ⟨s₀, ops ++ [op], rs ++ [r], g1, ?_, ?_⟩
  · intro o ho
    rcases List.mem_append.mp ho with ho | ho
    · exact g2 o ho
    · rw [List.mem_singleton.mp ho]; exact ⟨h1, h2⟩
  · clear g1 g2
    induction ops generalizing s₀ rs with
    | nil =>
      cases g3
      simp [run, hs]
    | cons o ops ih =>
      rw [run] at g3
      rw [List.cons_append, run]
      cases ho : step c s₀ o with
      | ub => rw [ho] at g3; cases g3
      | broken => rw [ho] at g3; cases g3
      | ok x =>
        rw [ho] at g3
        simp only at g3 ⊢
        cases hr : run c x.2 ops with
        | ub => rw [hr] at g3; cases g3
        | broken => rw [hr] at g3; cases g3
        | ok y =>
          rw [hr] at g3
          simp only [Res.ok.injEq, Prod.mk.injEq] at g3
          obtain ⟨k1, k2⟩ := g3
          have := ih x.2 y.1 (by rw [hr, ← k2])
          rw [this, ← k1]
          rfl

/-- The empty tree is reachable. -/
theorem reachable_init {s : State T} (h : init c = some s) : Reachable c s := ⟨s, [], [], h, nofun, rfl⟩

/-! ## C39 -/

/-- `size` is the number of entries as long as `removeElement` is not called. -/
theorem size_partial (hl : c.Lawful) (ops : List (Op T)) (h1 : ∀ op ∈ ops, op.NoThrow)
    (h2 : ∀ op ∈ ops, op.NotElement) : ∃ s₀ rs s, init c = some s₀ ∧ run c s₀ ops = .ok (rs, s) ∧
      step c s .size = .ok (.num s.contents.length, s) := by
  obtain ⟨s₀, g1, g2, g3, g4⟩ := init_ok hl
  have hops : ∀ op ∈ ops, op.NoThrow ∧ op.ElementOk c := by
    intro op hop
    refine ⟨h1 op hop, ?_⟩
    have := h2 op hop
    cases op <;> trivial
  obtain ⟨rs, s, r1, r2, _, r4⟩ := run_inv hl ops g2 hops
  refine ⟨s₀, rs, s, g1, r1, ?_⟩
  have := (r4 g3 h2).2
  unfold SizeOk at this
  rw [step, this]

/-! ## C40 -/

/-- The cache changes what `findDivisor` gives in no way that the specification can see, as long as
`removeElement` is not called: a divisor is found if there is one. -/
theorem cache_partial (hl : c.Lawful) (ops : List (Op T)) (h1 : ∀ op ∈ ops, op.NoThrow)
    (h2 : ∀ op ∈ ops, op.NotElement) (m : T) : ∃ s₀ rs s r s', init c = some s₀ ∧ run c s₀ ops = .ok (rs, s) ∧
      step c s (.findDivisor m) = .ok (.entry r, s') ∧
      (r.isSome = true ↔ ∃ e ∈ s.contents, c.dm.divides e m = true) ∧
      ∀ e, r = some e → e ∈ s.contents ∧ c.dm.divides e m = true := by
  obtain ⟨s₀, g1, g2, g3, g4⟩ := init_ok hl
  have hops : ∀ op ∈ ops, op.NoThrow ∧ op.ElementOk c := by
    intro op hop
    refine ⟨h1 op hop, ?_⟩
    have := h2 op hop
    cases op <;> trivial
  obtain ⟨rs, s, r1, _⟩ := run_inv hl ops g2 hops
  obtain ⟨r, s', k1, _, k3, k4⟩ := findDivisor_exact hl ⟨s₀, ops, rs, g1, hops, r1⟩ m
  refine ⟨s₀, rs, s, r, s', g1, r1, k1, ?_, k3⟩
  cases r with
  | none =>
    constructor
    · nofun
    · rintro ⟨e, he, hd⟩
      rw [k4 rfl e he] at hd; cases hd
  | some e => exact ⟨fun _ => ⟨e, k3 e rfl⟩, fun _ => rfl⟩

/-! ## C41 -/

/-- Any two KD trees on the same monomials with the same leaf size answer alike: binary or packed,
with or without masks, cache, sorting and automatic rebuilds. -/
theorem kdTrees_agree {c₁ c₂ : Conf T} (h₁ : c₁.Lawful) (h₂ : c₂.Lawful) (hdm : c₁.dm = c₂.dm)
    (hls : c₁.leafSize = c₂.leafSize) (har : c₁.allowRemovals = c₂.allowRemovals) (ops : List (Op T))
    (hf : ∀ op ∈ ops, op.Full) (hn : ∀ op ∈ ops, op.NotElement) :
    ∃ a₁ a₂ rs₁ rs₂ s₁ s₂, init c₁ = some a₁ ∧ init c₂ = some a₂ ∧ run c₁ a₁ ops = .ok (rs₁, s₁) ∧
      run c₂ a₂ ops = .ok (rs₂, s₂) ∧ List.Forall₂ Agree rs₁ rs₂ ∧ s₁.contents.Perm s₂.contents := by
  obtain ⟨a₁, rs₁, s₁, i1, r1, t1⟩ := kdTree_correct h₁ ops (fun op ho => (hf op ho).noThrow) hn
  obtain ⟨a₂, rs₂, s₂, i2, r2, t2⟩ := kdTree_correct h₂ ops (fun op ho => (hf op ho).noThrow) hn
  obtain ⟨e1, e2⟩ := trace_agree hdm hls har (.refl _) hf hn t1 t2
  exact ⟨a₁, a₂, rs₁, rs₂, s₁, s₂, i1, i2, r1, r2, e1, e2⟩

/-- A KD tree answers as a `DivList` on the same monomials does, as long as nothing throws. -/
theorem kdTree_divList_agree {d : DivList.Conf T} (hl : c.Lawful) (hd : d.Lawful) (hdm : c.dm = d.dm)
    (ops : List (Op T)) (hf : ∀ op ∈ ops, op.Full) (hn : ∀ op ∈ ops, op.NotElement) :
    ∃ a₁ a₂ rs₁ rs₂ s₁ s₂, init c = some a₁ ∧ DivList.init d = some a₂ ∧ run c a₁ ops = .ok (rs₁, s₁) ∧
      DivList.run d a₂ (ops.map Op.toList) = some (rs₂, s₂) ∧
      ((∀ r ∈ rs₁, r ≠ .threw) → List.Forall₂ AgreeList rs₁ rs₂ ∧ s₁.contents.Perm s₂.contents) := by
  obtain ⟨a₁, rs₁, s₁, i1, r1, t1⟩ := kdTree_correct hl ops (fun op ho => (hf op ho).noThrow) hn
  obtain ⟨a₂, i2, i3, i4⟩ := DivList.divList_correct hd
  have hinv : DivList.Inv d a₂ := by
    obtain ⟨a, e1, _, e3⟩ := DivList.init_spec hd
    rw [e1] at i2; cases i2; exact e3
  obtain ⟨rs₂, s₂, r2⟩ := list_defined hd ops hinv
  have t2 := i4 (ops.map Op.toList) rs₂ s₂ (by
    intro op hop
    obtain ⟨o, _, rfl⟩ := List.mem_map.mp hop
    cases o <;> trivial) r2
  exact ⟨a₁, a₂, rs₁, rs₂, s₁, s₂, i1, i2, r1, r2, fun ht => trace_agreeList hdm (.refl _) hf hn ht t1 t2⟩

/-! ## A configuration for examples -/

/-- Monomials in three variables, exponents are 32 bits wide and unsigned. -/
def exDm : DivMask.Conf (List ℕ) where
  ty := .unsigned 32
  varCount := 3
  getExponent t v := (t.getD v 0 % 2 ^ 32 : ℕ)
  divides a b := (List.range 3).all (fun v => decide (a.getD v 0 % 2 ^ 32 ≤ b.getD v 0 % 2 ^ 32))

theorem exDm_lawful : exDm.Lawful := by
  intro a b h v hv
  have := of_decide_eq_true (List.all_eq_true.mp h v (List.mem_range.mpr hv))
  show ((_ : ℕ) : ℤ) ≤ ((_ : ℕ) : ℤ)
  omega

/-- The degree. -/
def exDeg (t : List ℕ) : ℕ := t.getD 0 0 % 2 ^ 32 + t.getD 1 0 % 2 ^ 32 + t.getD 2 0 % 2 ^ 32

/-- Everything is switched on, entries are sorted by degree. -/
def exConf (packed cache auto : Bool) (leafSize : ℕ) : Conf (List ℕ) where
  dm := exDm
  packed := packed
  leafSize := leafSize
  useDivMask := true
  useTreeDivMask := true
  sortOnInsert := true
  allowRemovals := true
  useDivisorCache := cache
  isLessThan a b := decide (exDeg a < exDeg b)
  doAutomaticRebuilds := auto
  rebuildSize n := n / 2
  rebuildMin := 2
  sortVars := DivMask.exSort
  sort := DivList.exSort
  partition p l := (l.filter p, l.filter (fun x => !p x))
  selfCopyUndefined := false

theorem exConf_lawful (packed cache auto : Bool) {leafSize : ℕ} (h : 0 < leafSize) :
    (exConf packed cache auto leafSize).Lawful where
  masks := exDm_lawful
  leafSize := h
  treeMask := fun _ => rfl
  sortVars := DivMask.exSort_isSort
  noOverflow := fun _ l => DivMask.rebuild_unsigned rfl DivMask.exSort_isSort l
  range t v _ := by
    constructor
    · exact Int.natCast_nonneg _
    · have : t.getD v 0 % 2 ^ 32 < 2 ^ 32 := Nat.mod_lt _ (by norm_num)
      show ((t.getD v 0 % 2 ^ 32 : ℕ) : ℤ) < 2 ^ 32
      exact_mod_cast this
  order := fun _ => {
    irrefl := by simp [exConf]
    trans := by simp only [exConf, decide_eq_true_eq]; omega
    negTrans := by simp only [exConf, decide_eq_true_eq]; omega }
  refines := by
    intro _ a b h
    have := fun v hv => of_decide_eq_true (List.all_eq_true.mp h v (List.mem_range.mpr hv))
    have h0 := this 0 (by decide)
    have h1 := this 1 (by decide)
    have h2 := this 2 (by decide)
    have : exDeg a ≤ exDeg b := by unfold exDeg; omega
    simpa [exConf] using this
  sort := fun _ => DivList.exSort_isSortFn
  partition := by
    intro α p l
    refine ⟨List.filter_append_perm p l, ?_, ?_⟩
    · intro x hx; exact (List.mem_filter.mp hx).2
    · intro x hx; simpa using (List.mem_filter.mp hx).2
  selfCopy := fun _ => rfl

/-- What a history gives: results, entries and `size`. -/
def outcome {T : Type} (c : Conf T) (ops : List (Op T)) : Option (List (Ret T) × List T × ℕ) :=
  match init c with
  | none => none
  | some s =>
    match run c s ops with
    | .ok (rs, s') => some (rs, s'.contents, s'.size)
    | _ => none

-- insertions that split, queries, removal, in all kinds of trees
#guard [exConf true true true 2, exConf false true true 2, exConf true false false 2, exConf false false false 1].all (fun c =>
  (outcome c [.insert [1, 2, 3], .insert [2, 0, 0], .insert [0, 5, 0], .insert [3, 3, 3], .insert [0, 0, 1],
    .findDivisor [2, 1, 0], .findDivisor [1, 1, 0], .removeMultiples [1, 2, 0], .size, .findDivisor [9, 3, 9]]).any
    (fun r => r.1.drop 5 == [.entry (some [2, 0, 0]), .entry none] ++ r.1.drop 7 && r.2.2 == 3 && r.2.1.length == 3 &&
      r.1.getD 8 .unit == .num 3))

-- the third copy of an entry does not fit in a leaf of two
#guard (outcome (exConf true true true 2) [.insert [1], .insert [1], .insert [1], .size]).map Prod.fst ==
  some [.unit, .unit, .threw, .num 2]

/-- The hypotheses of the theorems are met: binary and packed, cache, automatic rebuilds. -/
example (ops : List (Op (List ℕ))) (hf : ∀ op ∈ ops, op.Full) (hn : ∀ op ∈ ops, op.NotElement) :=
  kdTrees_agree (exConf_lawful true true true (leafSize := 2) (by decide))
    (exConf_lawful false false false (leafSize := 2) (by decide)) rfl rfl rfl ops hf hn

example : ∀ op ∈ ([.insert [1, 2], .removeMultiples [1], .forAll (fun _ => .go), .size] : List (Op (List ℕ))),
    op.Full ∧ op.NotElement := by
  simp [Op.Full, Op.NotElement]

/-- A history that is evaluated gives a reachable state. -/
theorem reachable_of_outcome {T : Type} {c : Conf T} {ops : List (Op T)} {rs : List (Ret T)} {l : List T} {n : ℕ}
    (hops : ∀ op ∈ ops, op.NoThrow ∧ op.ElementOk c) (h : outcome c ops = some (rs, l, n)) :
    ∃ s, Reachable c s ∧ s.contents = l ∧ s.size = n := by
  unfold outcome at h
  split at h
  · cases h
  · rename_i s₀ h0
    split at h
    · rename_i rs' s hr
      simp only [Option.some.injEq, Prod.mk.injEq] at h
      exact ⟨s, ⟨s₀, ops, rs', h0, hops, hr⟩, h.2.1, h.2.2⟩
    · cases h

example : ∃ s, Reachable (exConf true true false 2) s ∧ s.contents = [[1, 2], [3]] ∧ s.size = 2 :=
  reachable_of_outcome (ops := [.insert [1, 2], .insert [3]]) (rs := [.unit, .unit])
    (by simp [Op.NoThrow, Op.ElementOk]) (by decide +kernel)

/-! ## Where the code does not do what it should -/

/-- C39, refuted: `removeElement` does not tell `size`. -/
theorem size_refuted : ∃ (c : Conf (List ℕ)) (s : State (List ℕ)), c.Lawful ∧ Reachable c s ∧ s.contents = [] ∧
    step c s .size = .ok (.num 1, s) := by
  obtain ⟨s, h1, h2, h3⟩ := reachable_of_outcome (c := exConf true false false 2)
    (ops := [.insert [1, 2], .removeElement [1, 2]]) (rs := [.unit, .flag true]) (l := []) (n := 1)
    (by simp [Op.NoThrow, Op.ElementOk, exConf]) (by decide +kernel)
  exact ⟨_, s, exConf_lawful _ _ _ (by decide), h1, h2, by rw [step, h3]⟩

/-- How a history ends: undefined or not. -/
def endsUb {T : Type} (c : Conf T) (ops : List (Op T)) : Bool :=
  match init c with
  | none => false
  | some s => match run c s ops with | .ub => true | _ => false

theorem ub_of_endsUb {T : Type} {c : Conf T} {ops : List (Op T)} (h : endsUb c ops = true) :
    ∃ s₀, init c = some s₀ ∧ run c s₀ ops = .ub := by
  unfold endsUb at h
  split at h
  · cases h
  · rename_i s₀ h0
    split at h
    · rename_i hr
      exact ⟨s₀, h0, hr⟩
    · cases h

/-- C40, refuted: `removeElement` leaves the pointer of the cache, and the next `findDivisor` reads an entry
that has been destroyed. -/
theorem cache_refuted : ∃ (c : Conf (List ℕ)) (s₀ : State (List ℕ)), c.Lawful ∧ c.packed = true ∧ init c = some s₀ ∧
    run c s₀ [.insert [1, 2], .findDivisor [2, 2], .removeElement [1, 2], .findDivisor [2, 2]] = .ub := by
  obtain ⟨s₀, h1, h2⟩ := ub_of_endsUb (c := exConf true true false 2)
    (ops := [.insert [1, 2], .findDivisor [2, 2], .removeElement [1, 2], .findDivisor [2, 2]]) (by decide +kernel)
  exact ⟨_, s₀, exConf_lawful _ _ _ (by decide), rfl, h1, h2⟩

/-- C63, refuted: with the rule of the standard that `std::copy` must not copy a range onto itself, an insertion
into a packed tree can be undefined. All else about the configuration is as it should be. -/
theorem selfCopy_refuted : ∃ (c : Conf (List ℕ)) (s₀ : State (List ℕ)), ({ c with selfCopyUndefined := false }).Lawful ∧
    c.packed = true ∧ init c = some s₀ ∧ run c s₀ [.insert [5], .insert [1]] = .ub := by
  obtain ⟨s₀, h1, h2⟩ := ub_of_endsUb (c := { exConf true false false 1 with selfCopyUndefined := true })
    (ops := [.insert [5], .insert [1]]) (by decide +kernel)
  exact ⟨_, s₀, exConf_lawful true false false (by decide), rfl, h1, h2⟩

/-- C63 for binary trees: no history does what is undefined, even if a copy of a range onto itself is. -/
theorem selfCopy_partial {T : Type} {c : Conf T} (hl : ({ c with selfCopyUndefined := false }).Lawful) (hp : c.packed = false)
    (ops : List (Op T)) (h1 : ∀ op ∈ ops, op.NoThrow) (h2 : ∀ op ∈ ops, op.NotElement) :
    ∃ s₀ rs s, init c = some s₀ ∧ run c s₀ ops = .ok (rs, s) ∧ Trace c [] ops rs s.contents := by
  refine kdTree_correct (c := c) ⟨hl.masks, hl.leafSize, hl.treeMask, hl.sortVars, hl.noOverflow, hl.range, hl.order, hl.refines,
    hl.sort, hl.partition, ?_⟩ ops h1 h2
  rw [hp]
  nofun

-- an output that throws
example : ∃ s got s', Reachable (exConf true true false 1) s ∧
    step (exConf true true false 1) s (.forAll (fun _ => .threw)) = .ok (.got got true, s') := by
  obtain ⟨s, h1, h2, _⟩ := reachable_of_outcome (c := exConf true true false 1) (ops := [.insert [5], .insert [1]])
    (rs := [.unit, .unit]) (l := [[1], [5]]) (n := 2) (by simp [Op.NoThrow, Op.ElementOk]) (by decide +kernel)
  obtain ⟨got, b, s', e1, e2⟩ := (enumerations_exact (exConf_lawful true true false (by decide)) h1 [] (fun _ => .threw)).2.2
  refine ⟨s, got, s', h1, ?_⟩
  obtain ⟨l', p1, k, k1, k2, k3, k4, k5⟩ := e2
  have hlen : l'.length = 2 := by rw [p1.length_eq, h2]; rfl
  have : b = true := k5.mpr ⟨by rcases k4 with h | h <;> omega, rfl⟩
  rw [e1, this]

example : ∃ s₀ rs s, init { exConf false true false 1 with selfCopyUndefined := true } = some s₀ ∧
    run { exConf false true false 1 with selfCopyUndefined := true } s₀ [.insert [5], .insert [1], .rebuild] = .ok (rs, s) ∧
    Trace { exConf false true false 1 with selfCopyUndefined := true } [] [.insert [5], .insert [1], .rebuild] rs s.contents :=
  selfCopy_partial (exConf_lawful false true false (by decide)) rfl _ (by simp [Op.NoThrow]) (by simp [Op.NotElement])

/-- The calls that take an output object. -/
def Op.Enumerates {T : Type} : Op T → Prop
  | .findAllDivisors _ _ | .findAllMultiples _ _ | .forAll _ => True
  | _ => False

/-- C64, what is left of it: an output object that throws does not change the entries, and the next `findDivisor`
is exact. -/
theorem throwing_output_partial {T : Type} {c : Conf T} (hl : c.Lawful) {s : State T} (h : Reachable c s) {op : Op T}
    (hop : op.Enumerates) (m : T) : ∃ got b s', step c s op = .ok (.got got b, s') ∧ s'.contents = s.contents ∧
      s'.size = s.size ∧ ∃ r s'', step c s' (.findDivisor m) = .ok (.entry r, s'') ∧ s''.contents = s.contents ∧
        (∀ e, r = some e → e ∈ s.contents ∧ c.dm.divides e m = true) ∧
        (r = none → ∀ e ∈ s.contents, c.dm.divides e m = false) := by
  have hi := h.inv hl
  have main : ∀ (k : Kind T) (f : List T → Arr T → Option (List T × Flow)),
      step c s op = gotRes s (s.tree.enumerate c k f) →
      ∃ got b s', step c s op = .ok (.got got b, s') ∧ s'.contents = s.contents ∧
        s'.size = s.size ∧ ∃ r s'', step c s' (.findDivisor m) = .ok (.entry r, s'') ∧ s''.contents = s.contents ∧
        (∀ e, r = some e → e ∈ s.contents ∧ c.dm.divides e m = true) ∧
        (r = none → ∀ e ∈ s.contents, c.dm.divides e m = false) := by
    intro k f hk
    obtain ⟨_, _, g1, _⟩ := step_spec hl hi op (by cases op <;> trivial)
    cases he : s.tree.enumerate c k f with
    | none => rw [hk, he] at g1; cases g1
    | some r =>
      rcases r with ⟨got, flow, t'⟩
      have hu := enumerate_usable hi.tmp he
      have hr : t'.root = s.tree.root := by
        unfold Tree.enumerate at he
        split at he
        · cases he; rfl
        · split at he
          · cases he
          · cases he; rfl
      have hcont : ({ s with tree := t' } : State T).contents = s.contents := by simp [State.contents, Tree.contents, hr]
      rw [hk, he]
      refine ⟨got, _, { s with tree := t' }, rfl, hcont, rfl, ?_⟩
      obtain ⟨r, s'', e1, e2, e3, e4⟩ := findDivisor_usable hl (s := { s with tree := t' }) hi.masks
        ⟨fun n hn => hi.tree.wf n (hr ▸ hn), fun ha n hn => hi.tree.ne ha n (hr ▸ hn)⟩ hu
        (fun hu p hp => by
          obtain ⟨e, he⟩ := hi.cache hu p hp
          exact ⟨e, by rw [← he]; simp [Tree.deref, hr]⟩) m
      rw [hcont] at e2 e3 e4
      exact ⟨r, s'', e1, e2, e3, e4⟩
  cases op with
  | findAllDivisors m' p => exact main _ _ rfl
  | findAllMultiples m' p => exact main _ _ rfl
  | forAll p => exact main _ _ rfl
  | _ => exact hop.elim

/-- C64, refuted: after an output object has thrown, the next enumeration hands out an entry twice. -/
theorem throwing_output_refuted (packed : Bool) : ∃ (c : Conf (List ℕ)) (s₀ : State (List ℕ)) (rs : List (Ret (List ℕ)))
    (s : State (List ℕ)), c.Lawful ∧ c.packed = packed ∧ init c = some s₀ ∧
    run c s₀ [.insert [5], .insert [1], .findAllDivisors [9] (fun _ => .threw), .findAllDivisors [9] (fun _ => .go)] = .ok (rs, s) ∧
    s.contents = [[1], [5]] ∧ rs = [.unit, .unit, .got [[1]] true, .got [[1], [5], [5]] false] := by
  have h : outcome (exConf packed false false 1)
      [.insert [5], .insert [1], .findAllDivisors [9] (fun _ => .threw), .findAllDivisors [9] (fun _ => .go)] =
      some ([.unit, .unit, .got [[1]] true, .got [[1], [5], [5]] false], [[1], [5]], 2) := by
    cases packed <;> decide +kernel
  unfold outcome at h
  split at h
  · cases h
  · rename_i s₀ h0
    split at h
    · rename_i rs' s hr
      simp only [Option.some.injEq, Prod.mk.injEq] at h
      exact ⟨_, s₀, rs', s, exConf_lawful _ _ _ (by decide), rfl, h0, hr, h.2.1, h.1⟩
    · cases h

/-- Without masks, and exponents of a signed type that may be negative. -/
def exSigned : Conf (List ℤ) where
  dm := DivMask.exConf (.signed 32) 1
  packed := true
  leafSize := 1
  useDivMask := false
  useTreeDivMask := false
  sortOnInsert := false
  allowRemovals := true
  useDivisorCache := false
  isLessThan _ _ := false
  doAutomaticRebuilds := false
  rebuildSize n := n
  rebuildMin := 0
  sortVars := DivMask.exSort
  sort := DivList.exSort
  partition p l := (l.filter p, l.filter (fun x => !p x))
  selfCopyUndefined := false

/-- C65, refuted: the average that `split` computes overflows although both exponents and the average fit
into 32 bits. -/
theorem average_refuted : (∃ s₀, init exSigned = some s₀ ∧
    run exSigned s₀ [.insert [-2147483648], .insert [1]] = .ub) ∧
    (∀ x ∈ [(-2147483648 : ℤ), 1, (-2147483648 + 1) / 2], DivMask.ExpTy.fit (.signed 32) x = some x) :=
  ⟨ub_of_endsUb (by decide +kernel), by decide⟩

/-- C65 for exponents that are not negative: the average is computed and separates. -/
theorem average_partial {ty : DivMask.ExpTy} {a b : ℤ} (ha : ExpRange ty a) (hb : ExpRange ty b) (hab : a < b) :
    ∃ d e, ty.fit (b - a) = some d ∧ ty.fit (a + d / 2) = some e ∧ a ≤ e ∧ e < b :=
  midpoint_ok ha hb hab

example : ∃ d e, DivMask.ExpTy.fit (.signed 32) (2147483647 - 3) = some d ∧
    DivMask.ExpTy.fit (.signed 32) (3 + d / 2) = some e ∧ 3 ≤ e ∧ e < 2147483647 :=
  average_partial (ty := .signed 32) (by constructor <;> norm_num) (by constructor <;> norm_num) (by norm_num)

end Verif.KDTree
