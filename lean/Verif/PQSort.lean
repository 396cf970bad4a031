import Verif.PQSpec

/-!
# Sorting with a priority queue

Helper lemmas for C08: what any correct queue does when filled and drained.
-/

namespace Verif

variable {E : Type*}

/-- Fill a queue with `l`, one by one, then pop as often. -/
def sortOps (l : List E) : List (PQOp E) := l.map .push ++ List.replicate l.length .pop

theorem PQTraceBy.split {M : Type*} [AddCommMonoid M] {mem : E → List E → Prop}
    {lt : E → E → Bool} {w : E → M}
    {ops₁ ops₂ : List (PQOp E)} : ∀ {t t' : List E} {outs : List (Option E)},
    PQTraceBy mem lt w t (ops₁ ++ ops₂) outs t' → ∃ outs₁ outs₂ t₁, outs = outs₁ ++ outs₂ ∧
      PQTraceBy mem lt w t ops₁ outs₁ t₁ ∧ PQTraceBy mem lt w t₁ ops₂ outs₂ t' := by
  induction ops₁ with
  | nil => intro t t' outs h; exact ⟨[], outs, t, rfl, .nil, h⟩
  | cons op ops₁ ih =>
    intro t t' outs h
    cases h with
    | cons h hs =>
      obtain ⟨o1, o2, t₁, e1, e2, e3⟩ := ih hs
      exact ⟨_ :: o1, o2, t₁, by rw [e1]; rfl, .cons h e2, e3⟩

theorem PQTraceBy.length_outs {M : Type*} [AddCommMonoid M] {mem : E → List E → Prop}
    {lt : E → E → Bool} {w : E → M} {ops : List (PQOp E)} {t t' : List E} {outs : List (Option E)}
    (h : PQTraceBy mem lt w t ops outs t') : outs.length = ops.length := by
  induction h with
  | nil => rfl
  | cons _ _ ih => simp [ih]

theorem PQTrace.pushes {lt : E → E → Bool} : ∀ {l t t' : List E} {outs : List (Option E)},
    PQTrace lt (fun e => ({e} : Multiset E)) t (l.map .push) outs t' →
      t'.Perm (t ++ l) ∧ outs = List.replicate l.length none := by
  intro l
  induction l with
  | nil => intro t t' outs h; cases h; exact ⟨by simp, rfl⟩
  | cons e l ih =>
    intro t t' outs h
    cases h with
    | @cons _ t₁ _ _ _ _ _ h hs =>
      cases h with
      | push hw =>
        obtain ⟨e1, e2⟩ := ih hs
        have : t₁.Perm (t ++ [e]) := by
          apply perm_of_wsum
          rw [hw]
          simp
        refine ⟨e1.trans ?_, by rw [e2]; rfl⟩
        have := this.append_right l
        simpa using this

/-- A correct queue, filled with `l` and drained, is defined all along, ends empty and returns a
sorted permutation of `l`. -/
theorem PQImpl.Correct.sorts {I : PQImpl E} {allowed : PQOp E → Prop} {lt : E → E → Bool}
    (h : I.Correct allowed lt (fun e => ({e} : Multiset E))) (hpush : ∀ e, allowed (.push e))
    (hpop : allowed .pop) (l : List E) :
    ∃ m s, I.run I.init (sortOps l) = some (List.replicate l.length none ++ m.map some, s) ∧
      m.Perm l ∧ Descending lt m ∧ I.entries s = [] ∧ I.empty s = true := by
  -- all prefixes run
  have hallowed : ∀ op ∈ sortOps l, allowed op := by
    intro op hop
    rcases List.mem_append.mp hop with h1 | h1
    · obtain ⟨e, _, rfl⟩ := List.mem_map.mp h1
      exact hpush e
    · obtain rfl := List.eq_of_mem_replicate h1
      exact hpop
  have hrun : ∀ ops rest, ops ++ rest = sortOps l → ∃ outs s, I.run I.init ops = some (outs, s) := by
    have hrunapp : ∀ (ops : List (PQOp E)) (op : PQOp E) (s0 s : I.State) (outs : List (Option E)),
        I.run s0 ops = some (outs, s) → ∀ o s', I.step s op = some (o, s') →
        I.run s0 (ops ++ [op]) = some (outs ++ [o], s') := by
      intro ops op
      induction ops with
      | nil =>
        intro s0 s outs hr o s' hst
        cases hr
        simp [PQImpl.run, hst]
      | cons op' ops ih =>
        intro s0 s outs hr o s' hst
        simp only [PQImpl.run] at hr
        split at hr
        · cases hr
        · rename_i o1 s1 h1
          split at hr
          · cases hr
          · rename_i os s2 h2
            cases hr
            simp only [List.cons_append, PQImpl.run, h1, ih s1 _ os h2 o s' hst]
    intro ops
    induction ops using List.reverseRecOn with
    | nil => intro rest _; exact ⟨[], I.init, rfl⟩
    | append_singleton ops op ih =>
      intro rest hr
      obtain ⟨outs, s, hs⟩ := ih (op :: rest) (by simpa using hr)
      have hal : ∀ o ∈ ops, allowed o := fun o ho => hallowed o (by
        rw [← hr]; simp [ho])
      have haop : allowed op := hallowed op (by rw [← hr]; simp)
      have hdef := h.defined ops outs s op hal hs haop
      have hnn : I.step s op ≠ none := by
        intro hn
        obtain ⟨h1, h2⟩ := hdef.mp hn
        -- `op` is a pop and too many pops were made
        have htr := h.trace ops outs s hal hs
        rw [h2] at htr
        have hcons := htr.conservation (by
          intro o ho
          have : o ∈ sortOps l := by rw [← hr]; simp [ho]
          rcases List.mem_append.mp this with h3 | h3
          · obtain ⟨e, _, rfl⟩ := List.mem_map.mp h3
            exact ⟨nofun, nofun, nofun⟩
          · obtain rfl := List.eq_of_mem_replicate h3
            exact ⟨nofun, nofun, nofun⟩)
        simp only [wsum_nil, zero_add] at hcons
        have hlen : ∀ (ops : List (PQOp E)) t outs t', PQTrace lt (fun e => ({e} : Multiset E)) t ops outs t' →
            (∀ o ∈ ops, o ∈ sortOps l) → (outs.flatMap Option.toList).length + ops.countP (fun o => match o with | .push _ => true | _ => false) = ops.length := by
          intro ops t outs t' ht hmem
          induction ht with
          | nil => rfl
          | @cons t t₁ t₂ op out ops outs hst hs ih =>
            have ih := ih (fun o ho => hmem o (List.mem_cons_of_mem _ ho))
            have hm := hmem op List.mem_cons_self
            cases hst with
            | push => simp [← ih]; omega
            | pushRange =>
              rcases List.mem_append.mp hm with h3 | h3
              · obtain ⟨e, _, h4⟩ := List.mem_map.mp h3; cases h4
              · have := List.eq_of_mem_replicate h3; cases this
            | top =>
              rcases List.mem_append.mp hm with h3 | h3
              · obtain ⟨e, _, h4⟩ := List.mem_map.mp h3; cases h4
              · have := List.eq_of_mem_replicate h3; cases this
            | pop => simp [← ih]; omega
            | decreaseTop =>
              rcases List.mem_append.mp hm with h3 | h3
              · obtain ⟨e, _, h4⟩ := List.mem_map.mp h3; cases h4
              · have := List.eq_of_mem_replicate h3; cases this
            | clear =>
              rcases List.mem_append.mp hm with h3 | h3
              · obtain ⟨e, _, h4⟩ := List.mem_map.mp h3; cases h4
              · have := List.eq_of_mem_replicate h3; cases this
        have hpushed : ∀ ops : List (PQOp E), (∀ o ∈ ops, o ∈ sortOps l) →
            (ops.flatMap PQOp.pushed).length = ops.countP (fun o => match o with | .push _ => true | _ => false) := by
          intro ops hmem
          induction ops with
          | nil => rfl
          | cons o ops ih =>
            have ih := ih (fun o ho => hmem o (List.mem_cons_of_mem _ ho))
            have hm := hmem o List.mem_cons_self
            rcases List.mem_append.mp hm with h3 | h3
            · obtain ⟨e, _, rfl⟩ := List.mem_map.mp h3
              simp [PQOp.pushed, ih]
            · obtain rfl := List.eq_of_mem_replicate h3
              simp [PQOp.pushed, ih]
        have hmem : ∀ o ∈ ops, o ∈ sortOps l := fun o ho => by rw [← hr]; simp [ho]
        have e1 := hlen ops _ _ _ htr hmem
        have e2 := hpushed ops hmem
        have e3 := (perm_of_wsum hcons).length_eq
        -- pushes come first
        have hop : op = .pop := by
          have : op ∈ sortOps l := by rw [← hr]; simp
          rcases List.mem_append.mp this with h3 | h3
          · obtain ⟨e, _, rfl⟩ := List.mem_map.mp h3
            exact h1.elim
          · exact List.eq_of_mem_replicate h3
        have hcount : (ops ++ [op] ++ rest).countP (fun o => match o with | .push _ => true | _ => false) = l.length := by
          rw [hr, sortOps, List.countP_append]
          have a1 : (l.map PQOp.push).countP (fun o => match o with | .push _ => true | _ => false) = l.length := by
            rw [List.countP_map]
            simp [Function.comp_def]
          have a2 : (List.replicate l.length (PQOp.pop : PQOp E)).countP (fun o => match o with | .push _ => true | _ => false) = 0 := by
            rw [List.countP_replicate]; simp
          omega
        have hidx : l.length ≤ ops.length := by
          by_contra hlt
          have hg : (sortOps l)[ops.length]? = some op := by
            rw [← hr]; simp
          rw [sortOps, List.getElem?_append_left (by simp; omega), List.getElem?_map] at hg
          cases hl : l[ops.length]? with
          | none => rw [hl] at hg; cases hg
          | some e => rw [hl, hop] at hg; cases hg
        have hall : rest.countP (fun o => match o with | .push _ => true | _ => false) = 0 := by
          rw [List.countP_eq_zero]
          intro o ho
          obtain ⟨i, hi⟩ := List.mem_iff_getElem?.mp ho
          have hg : (sortOps l)[ops.length + 1 + i]? = some o := by
            rw [← hr, List.getElem?_append_right (by simp)]
            simpa using hi
          rw [sortOps, List.getElem?_append_right (by simp; omega)] at hg
          have := List.eq_of_mem_replicate (List.mem_of_getElem? hg)
          subst this
          simp
        have hopc : [op].countP (fun o => match o with | .push _ => true | _ => false) = 0 := by
          rw [hop]; rfl
        rw [List.countP_append, List.countP_append] at hcount
        have htot : ops.length + 1 + rest.length = 2 * l.length := by
          have := congrArg List.length hr
          simp [sortOps] at this
          omega
        omega
      cases hst : I.step s op with
      | none => exact absurd hst hnn
      | some r => exact ⟨_, _, hrunapp ops op _ s outs hs r.1 r.2 hst⟩
  obtain ⟨outs, s, hs⟩ := hrun (sortOps l) [] (by simp)
  obtain ⟨o1, o2, t₁, e1, e2, e3⟩ := (h.trace _ _ _ hallowed hs).split
  obtain ⟨f1, f2⟩ := PQTrace.pushes e2
  rw [List.nil_append] at f1
  obtain ⟨m, g1, g2, g3, g4⟩ := PQTrace.drain e3 f1.length_eq.symm
  refine ⟨m, s, ?_, g2.trans f1, g3, g4, (h.empty_iff _ _ _ hallowed hs).mpr g4⟩
  rw [hs, e1, f2, g1]

/-- Two sorted permutations of the same list agree position by position up to equivalence. -/
theorem sorted_perms_equiv {lt : E → E → Bool} (hw : StrictWeak lt) {l m : List E} (h : l.Perm m)
    (hl : Descending lt l) (hm : Descending lt m) (i : ℕ) (hi : i < l.length) (hi' : i < m.length) :
    lt l[i] m[i] = false ∧ lt m[i] l[i] = false := by
  have key : ∀ (l m : List E), l.Perm m → Descending lt l → Descending lt m → ∀ (hi : i < l.length)
      (hi' : i < m.length), lt l[i] m[i] = false := by
    intro l m h hl hm hi hi'
    cases hlt : lt l[i] m[i] with
    | false => rfl
    | true =>
      -- `m` has `i + 1` entries greater than `l[i]`, `l` has at most `i`
      exfalso
      let p : E → Bool := fun x => lt l[i] x
      have h1 : l.countP p ≤ i := by
        conv_lhs => rw [← List.take_append_drop i l, List.countP_append]
        have h2 : (l.drop i).countP p = 0 := by
          rw [List.countP_eq_zero]
          intro x hx
          obtain ⟨j, hj⟩ := List.mem_iff_getElem?.mp hx
          rw [List.getElem?_drop] at hj
          obtain ⟨hj1, rfl⟩ := List.getElem?_eq_some_iff.mp hj
          show ¬ lt l[i] l[i + j] = true
          rcases Nat.eq_zero_or_pos j with h0 | h0
          · subst h0; simp [hw.irrefl]
          · have := List.pairwise_iff_getElem.mp hl i (i + j) hi hj1 (by omega)
            simp [this]
        have h3 : (l.take i).countP p ≤ (l.take i).length := List.countP_le_length
        simp at h3
        omega
      have h4 : i + 1 ≤ m.countP p := by
        conv_rhs => rw [← List.take_append_drop (i + 1) m, List.countP_append]
        have h5 : (m.take (i + 1)).countP p = (m.take (i + 1)).length := by
          rw [List.countP_eq_length]
          intro x hx
          obtain ⟨j, hj⟩ := List.mem_iff_getElem?.mp hx
          rw [List.getElem?_take] at hj
          split at hj
          · rename_i hji
            obtain ⟨hj1, rfl⟩ := List.getElem?_eq_some_iff.mp hj
            show lt l[i] m[j] = true
            by_cases hij : j = i
            · subst hij; exact hlt
            · have h6 := List.pairwise_iff_getElem.mp hm j i hj1 hi' (by omega)
              rcases hw.negTrans l[i] m[j] m[i] hlt with h7 | h7
              · exact h7
              · rw [h6] at h7; cases h7
          · cases hj
        rw [h5]
        simp
        omega
      rw [h.countP_eq p] at h1
      omega
  exact ⟨key l m h hl hm hi hi', key m l h.symm hm hl hi' hi⟩

end Verif
