import Verif.PQSimSpec
import Mathlib.Data.Multiset.AddSub
import Mathlib.Algebra.BigOperators.Group.Multiset.Basic

/-!
# Helper lemmas about the queues of the simulator
-/

namespace Verif.PQSim

/-! ## From a relation -/

/-- Correctness from a relation between states and sets that each call keeps. -/
theorem Queue.Correct.of_rel {Q : Queue} (R : Q.State → Finset ℕ → Prop) (hinit : R Q.init ∅)
    (hempty : ∀ s S, R s S → Q.empty s = decide (S = ∅))
    (hpush : ∀ s S l, (SimOp.push l).Allowed → R s S → ∃ s', Q.push s l = some s' ∧ R s' (S ∪ l.toFinset))
    (hnone : ∀ s, R s ∅ → Q.pop s = none)
    (hpop : ∀ s S (h : S.Nonempty), R s S →
      ∃ s', Q.pop s = some (S.max' h, s') ∧ R s' (S.erase (S.max' h))) : Q.Correct := by
  have key : ∀ ops s S, R s S → (∀ op ∈ ops, op.Allowed) →
      (Q.run s ops).map (fun r => (r.1, Q.empty r.2)) =
        (Spec.run S ops).map (fun r => (r.1, decide (r.2 = ∅))) := by
    intro ops
    induction ops with
    | nil =>
      intro s S hR _
      simp only [run, Spec.run, Option.map_some, hempty s S hR]
    | cons op ops ih =>
      intro s S hR hal
      have hal' := fun o ho => hal o (List.mem_cons_of_mem _ ho)
      have next : ∀ o s' S', Q.step s op = some (o, s') → Spec.step S op = some (o, S') → R s' S' →
          (Q.run s (op :: ops)).map (fun r => (r.1, Q.empty r.2)) =
            (Spec.run S (op :: ops)).map (fun r => (r.1, decide (r.2 = ∅))) := by
        intro o s' S' h1 h2 h3
        have := ih s' S' h3 hal'
        rw [run, Spec.run, h1, h2]
        simp only [Option.map_map]
        cases hq : Q.run s' ops <;> cases hs : Spec.run S' ops <;> rw [hq, hs] at this <;>
          simp_all
      cases op with
      | push l =>
        obtain ⟨s', h1, h2⟩ := hpush s S l (hal _ List.mem_cons_self) hR
        exact next none s' _ (by rw [step, h1]; rfl) rfl h2
      | pop =>
        by_cases hS : S.Nonempty
        · obtain ⟨s', h1, h2⟩ := hpop s S hS hR
          exact next _ s' _ (by rw [step, h1]; rfl) (by rw [Spec.step, dif_pos hS]) h2
        · rw [Finset.not_nonempty_iff_eq_empty] at hS
          subst hS
          rw [run, Spec.run, step, hnone s hR]
          simp [Spec.step]
  intro ops hal
  exact key ops _ _ hinit hal

/-! ## On elements -/

/-- What a queue of values has to do for the model on elements. -/
structure ElemGood (I : PQImpl ℕ) (Inv : I.State → Prop) : Prop where
  init : Inv I.init
  start : I.entries I.init = []
  empty : ∀ s, Inv s → (I.empty s = true ↔ I.entries s = [])
  undef : ∀ s, Inv s → I.entries s = [] → I.step s .top = none
  push : ∀ s l, Inv s → l ≠ [] → l.Pairwise (fun a b => b ≤ a) →
    ∃ s', I.step s (.pushRange l) = some (none, s') ∧ Inv s' ∧
      ∀ v, v ∈ I.entries s' ↔ v ∈ I.entries s ∨ v ∈ l
  top : ∀ s, Inv s → I.entries s ≠ [] → ∃ x s', I.step s .top = some (some x, s') ∧ Inv s' ∧
    x ∈ I.entries s ∧ (∀ y ∈ I.entries s, y ≤ x) ∧ (∀ v, v ∈ I.entries s' ↔ v ∈ I.entries s) ∧
    (I.entries s').length ≤ (I.entries s).length
  pop : ∀ s, Inv s → I.entries s ≠ [] → ∃ x s', I.step s .pop = some (some x, s') ∧ Inv s' ∧
    x ∈ I.entries s ∧ (∀ y ∈ I.entries s, y ≤ x) ∧
    (∀ v, v ∈ I.entries s ↔ v = x ∨ v ∈ I.entries s') ∧ (I.entries s').length < (I.entries s).length

namespace ElemGood
variable {I : PQImpl ℕ} {Inv : I.State → Prop}

theorem popLoop (h : ElemGood I Inv) (x : ℕ) (s : I.State) (hs : Inv s) (hx : x ∈ I.entries s)
    (hmax : ∀ y ∈ I.entries s, y ≤ x) :
    ∃ s', Elements.popLoop I x s = some s' ∧ Inv s' ∧ ∀ v, v ∈ I.entries s' ↔ v ∈ I.entries s ∧ v ≠ x := by
  induction hn : (I.entries s).length using Nat.strong_induction_on generalizing s with
  | _ n ih =>
    obtain ⟨y, s₁, h1, h2, h3, h4, h5, h6⟩ := h.pop s hs (List.ne_nil_of_mem hx)
    have hyx : y = x := Nat.le_antisymm (hmax y h3) (h4 x hx)
    subst hyx
    rw [Elements.popLoop, h1]
    simp only
    by_cases he : I.entries s₁ = []
    · rw [Elements.more, if_pos ((h.empty s₁ h2).mpr he)]
      refine ⟨s₁, rfl, h2, ?_⟩
      intro v
      rw [h5 v, he]
      simp only [List.not_mem_nil, or_false, false_iff, not_and, not_not]
      exact id
    · obtain ⟨z, s₂, k1, k2, k3, k4, k5, k6⟩ := h.top s₁ h2 he
      rw [Elements.more, if_neg (fun hc => he ((h.empty s₁ h2).mp hc)), Elements.top, k1]
      simp only [Option.map_some]
      by_cases hz : z = y
      · subst hz
        simp only [beq_self_eq_true]
        obtain ⟨s₃, j1, j2, j3⟩ := ih (I.entries s₂).length (by omega) s₂ k2 ((k5 z).mpr k3)
          (fun u hu => hmax u ((h5 u).mpr (Or.inr ((k5 u).mp hu)))) rfl
        refine ⟨s₃, j1, j2, ?_⟩
        intro v
        rw [j3 v, k5 v, h5 v]
        constructor
        · rintro ⟨a, b⟩; exact ⟨Or.inr a, b⟩
        · rintro ⟨a | a, b⟩
          · exact absurd a b
          · exact ⟨a, b⟩
      · have : (z == y) = false := by simp [hz]
        rw [this]
        refine ⟨s₂, rfl, k2, ?_⟩
        intro v
        rw [k5 v, h5 v]
        constructor
        · intro hv
          refine ⟨Or.inr hv, ?_⟩
          rintro rfl
          have h7 := k4 v hv
          have h8 := h4 z ((h5 z).mpr (Or.inr k3))
          omega
        · rintro ⟨a | a, b⟩
          · exact absurd a b
          · exact a

theorem pop_none (h : ElemGood I Inv) {s : I.State} (hs : Inv s) (he : I.entries s = []) :
    Elements.pop I s = none := by
  rw [Elements.pop, Elements.top, h.undef s hs he]

theorem pop_some {s s₁ s₂ : I.State} {x : ℕ} (h1 : I.step s .top = some (some x, s₁))
    (h2 : Elements.popLoop I x s₁ = some s₂) : Elements.pop I s = some (x, s₂) := by
  rw [Elements.pop, Elements.top, h1]
  simp only
  rw [h2]
  rfl

theorem correct (h : ElemGood I Inv) : (elements I).Correct := by
  refine Queue.Correct.of_rel (Q := elements I) (fun s S => Inv s ∧ ∀ v, v ∈ S ↔ v ∈ I.entries s) ?_ ?_ ?_ ?_ ?_
  · refine ⟨h.init, ?_⟩
    intro v
    show v ∈ ∅ ↔ v ∈ I.entries I.init
    rw [h.start]
    simp
  · rintro s S ⟨hs, hS⟩
    show I.empty s = _
    rw [Bool.eq_iff_iff, h.empty s hs, decide_eq_true_iff]
    constructor
    · intro he
      ext v
      rw [hS v, he]
      simp
    · intro he
      rw [List.eq_nil_iff_forall_not_mem]
      intro v hv
      have := (hS v).mpr hv
      rw [he] at this
      simp at this
  · rintro s S l hl ⟨hs, hS⟩
    obtain ⟨s', h1, h2, h3⟩ := h.push s l hs hl.1 hl.2
    refine ⟨s', ?_, h2, ?_⟩
    · show (I.step s (.pushRange l)).map Prod.snd = _
      rw [h1]
      rfl
    · intro v
      rw [Finset.mem_union, List.mem_toFinset, h3 v, hS v]
  · rintro s ⟨hs, hS⟩
    have he : I.entries s = [] := by
      rw [List.eq_nil_iff_forall_not_mem]
      intro v hv
      have := (hS v).mpr hv
      simp at this
    exact h.pop_none hs he
  · rintro s S hne ⟨hs, hS⟩
    have hn : I.entries s ≠ [] := by
      obtain ⟨v, hv⟩ := hne
      exact List.ne_nil_of_mem ((hS v).mp hv)
    obtain ⟨x, s₁, k1, k2, k3, k4, k5, k6⟩ := h.top s hs hn
    obtain ⟨s₂, j1, j2, j3⟩ := h.popLoop x s₁ k2 ((k5 x).mpr k3) (fun y hy => k4 y ((k5 y).mp hy))
    have hx : S.max' hne = x := by
      apply Nat.le_antisymm
      · exact Finset.max'_le _ _ _ (fun y hy => k4 y ((hS y).mp hy))
      · exact Finset.le_max' _ _ ((hS x).mpr k3)
    refine ⟨s₂, ?_, j2, ?_⟩
    · rw [hx]
      exact pop_some k1 j1
    · intro v
      rw [hx, Finset.mem_erase, hS v, j3 v, k5 v, and_comm]

end ElemGood

/-! ## Items -/

/-- An item between `begin` and `end` of a sorted range. -/
def GoodItem (i : Item) : Prop := i.rest.head? = some i.value ∧ i.rest.Pairwise (fun a b => b ≤ a)

theorem GoodItem.rest_eq {i : Item} (h : GoodItem i) : i.rest = i.value :: i.rest.tail := by
  obtain ⟨v, l⟩ := i
  obtain ⟨h1, h2⟩ := h
  cases l with
  | nil => simp at h1
  | cons a l => simp at h1; subst h1; rfl

theorem GoodItem.mem {i : Item} (h : GoodItem i) (v : ℕ) : v ∈ i.rest ↔ v = i.value ∨ v ∈ i.rest.tail := by
  conv_lhs => rw [h.rest_eq]
  exact List.mem_cons

theorem GoodItem.length {i : Item} (h : GoodItem i) : i.rest.length = i.rest.tail.length + 1 := by
  conv_lhs => rw [h.rest_eq]
  rfl

theorem GoodItem.le {i : Item} (h : GoodItem i) {v : ℕ} (hv : v ∈ i.rest) : v ≤ i.value := by
  have h2 := h.2
  rw [h.rest_eq] at h2
  rw [h.mem] at hv
  rcases hv with rfl | hv
  · exact le_refl _
  · exact (List.pairwise_cons.mp h2).1 v hv

theorem GoodItem.not_atEnd {i : Item} (h : GoodItem i) : i.atEnd = false := by
  unfold Item.atEnd
  rw [h.rest_eq]
  rfl

theorem GoodItem.toNext {i : Item} (h : GoodItem i) :
    ∃ j, i.toNext = some j ∧ j.rest = i.rest.tail ∧ j.value ≤ i.value ∧ j.atEnd = i.rest.tail.isEmpty ∧
      (j.atEnd = false → GoodItem j) := by
  obtain ⟨v, l⟩ := i
  obtain ⟨h1, h2⟩ := h
  match l with
  | [] => simp at h1
  | [a] => exact ⟨⟨v, []⟩, rfl, rfl, le_refl _, rfl, by intro h; simp [Item.atEnd] at h⟩
  | a :: b :: l =>
    simp at h1
    subst h1
    rw [List.pairwise_cons] at h2
    have hb := h2.1 b List.mem_cons_self
    refine ⟨⟨b, b :: l⟩, ?_, rfl, hb, rfl, fun _ => ⟨rfl, h2.2⟩⟩
    simp only [Item.toNext]
    rw [if_pos hb]

theorem GoodItem.ofRange {l : List ℕ} (h : l ≠ []) (hs : l.Pairwise (fun a b => b ≤ a)) :
    GoodItem (Item.ofRange l) := by
  cases l with
  | nil => exact absurd rfl h
  | cons a l => exact ⟨rfl, hs⟩

/-! ## Calls that merge items -/

/-- Values in items. -/
def Vals (m : Multiset Item) (v : ℕ) : Prop := ∃ i ∈ m, v ∈ i.rest

/-- Number of values in items. -/
def tot (m : Multiset Item) : ℕ := (m.map (fun i => i.rest.length)).sum

theorem Vals.add {m n : Multiset Item} {v : ℕ} : Vals (m + n) v ↔ Vals m v ∨ Vals n v := by
  simp only [Vals, Multiset.mem_add, or_and_right, exists_or]

theorem Vals.cons {i : Item} {m : Multiset Item} {v : ℕ} : Vals (i ::ₘ m) v ↔ v ∈ i.rest ∨ Vals m v := by
  simp only [Vals, Multiset.mem_cons, or_and_right, exists_or, exists_eq_left]

theorem Vals.zero {v : ℕ} : ¬ Vals 0 v := by simp [Vals]

theorem tot_add (m n : Multiset Item) : tot (m + n) = tot m + tot n := by simp [tot]

theorem tot_cons (i : Item) (m : Multiset Item) : tot (i ::ₘ m) = i.rest.length + tot m := by simp [tot]

/-- The items `t` become `t'` by calls of `deduplicate`, whose second arguments are gone. For each item
one of the same value is left. -/
structure Absorbs (t : Multiset Item) (log : List (Item × Item)) (t' : Multiset Item) : Prop where
  perm : t = t' + (log.map Prod.snd : List Item)
  same : ∀ x ∈ t, ∃ y ∈ t', y.value = x.value

theorem Absorbs.refl (t : Multiset Item) : Absorbs t [] t := ⟨by simp, fun x hx => ⟨x, hx, rfl⟩⟩

namespace Spans

theorem absorb_ok (log : List (Item × Item)) : ∀ pending : List Item,
    (∀ b ∈ log.map Prod.snd, GoodItem b) → (∀ p ∈ pending, GoodItem p) →
    ∃ p', absorb pending log = some p' ∧ (∀ p ∈ p', GoodItem p) ∧
      (∀ p ∈ p', p ∈ pending ∨ ∃ b ∈ log.map Prod.snd, p.value ≤ b.value) ∧
      (∀ v, Vals p' v ↔ Vals pending v ∨ ∃ b ∈ log.map Prod.snd, v ∈ b.rest.tail) ∧
      tot p' + log.length = tot pending + tot (log.map Prod.snd : List Item) ∧
      p'.length ≤ pending.length + log.length ∧ (log = [] → p' = pending) := by
  induction log with
  | nil =>
    intro pending _ hp
    exact ⟨pending, rfl, hp, fun p h => Or.inl h, by simp, by simp [tot], by simp, fun _ => rfl⟩
  | cons ab log ih =>
    obtain ⟨a, b⟩ := ab
    intro pending hl hp
    have hb : GoodItem b := hl b (by simp)
    have hl' : ∀ b ∈ log.map Prod.snd, GoodItem b := fun c hc => hl c (by
      rw [List.map_cons]; exact List.mem_cons_of_mem _ hc)
    obtain ⟨j, j1, j2, j3, j4, j5⟩ := hb.toNext
    have hlen := hb.length
    rw [absorb, j1]
    simp only
    have tb : tot (((a, b) :: log).map Prod.snd : List Item) = b.rest.length + tot (log.map Prod.snd : List Item) := by
      rw [List.map_cons, ← Multiset.cons_coe, tot_cons]
    by_cases hj : j.atEnd = true
    · rw [if_pos hj]
      obtain ⟨p', k1, k2, k3, k4, k5, k6, k7⟩ := ih pending hl' hp
      have ht : b.rest.tail = [] := by rw [j4, List.isEmpty_iff] at hj; exact hj
      refine ⟨p', k1, k2, ?_, ?_, ?_, ?_, by simp⟩
      · intro p h
        rcases k3 p h with h | ⟨c, hc, h⟩
        · exact Or.inl h
        · exact Or.inr ⟨c, by rw [List.map_cons]; exact List.mem_cons_of_mem _ hc, h⟩
      · intro v
        rw [k4 v]
        simp [ht]
      · rw [ht, List.length_nil] at hlen
        rw [tb, List.length_cons]
        omega
      · simp only [List.length_cons]; omega
    · rw [if_neg hj]
      have hj' : j.atEnd = false := by simpa using hj
      obtain ⟨p', k1, k2, k3, k4, k5, k6, k7⟩ := ih (j :: pending) hl' (by
        intro p h
        rcases List.mem_cons.mp h with rfl | h
        · exact j5 hj'
        · exact hp p h)
      refine ⟨p', k1, k2, ?_, ?_, ?_, ?_, by simp⟩
      · intro p h
        rcases k3 p h with h | ⟨c, hc, h⟩
        · rcases List.mem_cons.mp h with rfl | h
          · exact Or.inr ⟨b, by simp, j3⟩
          · exact Or.inl h
        · exact Or.inr ⟨c, by rw [List.map_cons]; exact List.mem_cons_of_mem _ hc, h⟩
      · intro v
        rw [k4 v, ← Multiset.cons_coe, Vals.cons, j2]
        simp only [List.map_cons, List.mem_cons, exists_eq_or_imp]
        tauto
      · rw [tb]
        rw [← Multiset.cons_coe, tot_cons, j2] at k5
        simp only [List.length_cons]
        omega
      · simp only [List.length_cons] at *; omega

variable {I : LogImpl Item}

/-- The items of a state. -/
def State.all (s : State I) : Multiset Item := (I.entries s.ds : Multiset Item) + (s.pending : Multiset Item)

/-- What is known of a state between calls of the queue. -/
structure Good (Inv : I.State → Prop) (s : State I) : Prop where
  inv : Inv s.ds
  items : ∀ i ∈ s.all, GoodItem i

/-- Pending items are not larger than all the items in the queue. -/
def Dom (t : Multiset Item) (pending : List Item) : Prop := ∀ p ∈ pending, ∃ e ∈ t, p.value ≤ e.value

theorem call_ok {Inv : I.State → Prop} {s : State I} {op : PQOp Item} {o : Option Item} {ds : I.State}
    {log : List (Item × Item)} {t : Multiset Item} (hstep : I.step s.ds op = some (o, ds, log))
    (hinv : Inv ds) (ha : Absorbs t log (I.entries ds : Multiset Item)) (ht : ∀ i ∈ t, GoodItem i)
    (hp : ∀ i ∈ s.pending, GoodItem i) :
    ∃ s', call I s op = some (o, s') ∧ s'.ds = ds ∧ Good Inv s' ∧
      (∀ v, Vals s'.all v ↔ Vals (t + (s.pending : Multiset Item)) v) ∧
      tot s'.all + log.length = tot (t + (s.pending : Multiset Item)) ∧
      s'.pending.length ≤ s.pending.length + log.length ∧
      (Dom t s.pending → Dom (I.entries ds : Multiset Item) s'.pending) ∧ (log = [] → s'.pending = s.pending) := by
  have hlt : ∀ b ∈ log.map Prod.snd, b ∈ t := by
    intro b hb
    rw [ha.perm, Multiset.mem_add]
    exact Or.inr hb
  have het : ∀ b, b ∈ (I.entries ds : Multiset Item) → b ∈ t := by
    intro b hb
    rw [ha.perm, Multiset.mem_add]
    exact Or.inl hb
  obtain ⟨p', k1, k2, k3, k4, k5, k6, k7⟩ := absorb_ok log s.pending (fun b hb => ht b (hlt b hb)) hp
  refine ⟨⟨ds, p'⟩, by rw [call, hstep]; simp only; rw [k1]; rfl, rfl, ⟨hinv, ?_⟩, ?_, ?_, k6, ?_, k7⟩
  · intro i hi
    rcases Multiset.mem_add.mp hi with hi | hi
    · exact ht i (het i hi)
    · exact k2 i hi
  · intro v
    show Vals (_ + _) v ↔ _
    rw [Vals.add, Vals.add]
    show Vals (I.entries ds : Multiset Item) v ∨ Vals (p' : Multiset Item) v ↔ _
    rw [k4 v]
    constructor
    · rintro (h | h | ⟨b, hb, h⟩)
      · obtain ⟨i, hi, h⟩ := h
        exact Or.inl ⟨i, het i hi, h⟩
      · exact Or.inr h
      · exact Or.inl ⟨b, hlt b hb, List.mem_of_mem_tail h⟩
    · rintro (⟨i, hi, h⟩ | h)
      · rcases ((ht i hi).mem v).mp h with rfl | h'
        · obtain ⟨y, hy, e⟩ := ha.same i hi
          refine Or.inl ⟨y, hy, ?_⟩
          rw [← e, (ht y (het y hy)).mem]
          exact Or.inl rfl
        · rw [ha.perm, Multiset.mem_add] at hi
          rcases hi with hi | hi
          · exact Or.inl ⟨i, hi, h⟩
          · exact Or.inr (Or.inr ⟨i, hi, h'⟩)
      · exact Or.inr (Or.inl h)
  · show tot (_ + _) + _ = _
    rw [tot_add, tot_add, ha.perm, tot_add]
    show tot (I.entries ds : Multiset Item) + tot (p' : Multiset Item) + _ = _
    omega
  · intro hd p hpp
    have step : ∀ e ∈ t, p.value ≤ e.value → ∃ e ∈ (I.entries ds : Multiset Item), p.value ≤ e.value := by
      intro e he hle
      obtain ⟨y, hy, e'⟩ := ha.same e he
      exact ⟨y, hy, by omega⟩
    rcases k3 p hpp with h | ⟨b, hb, h⟩
    · obtain ⟨e, he, hle⟩ := hd p h
      exact step e he hle
    · exact step b (hlt b hb) h

end Spans

/-- What a queue of items has to do for the model on spans. -/
structure SpanGood (I : LogImpl Item) (Inv : I.State → Prop) (dedup dec : Bool) : Prop where
  init : Inv I.init
  start : I.entries I.init = []
  empty : ∀ s, Inv s → (I.empty s = true ↔ I.entries s = [])
  undef : ∀ s, Inv s → I.entries s = [] → I.step s .top = none
  push : ∀ s e, Inv s → ∃ s' log, I.step s (.push e) = some (none, s', log) ∧ Inv s' ∧
    Absorbs (e ::ₘ (I.entries s : Multiset Item)) log (I.entries s') ∧ (dedup = false → log = [])
  top : ∀ s, Inv s → I.entries s ≠ [] → ∃ x s', I.step s .top = some (some x, s', []) ∧ Inv s' ∧
    (I.entries s').Perm (I.entries s) ∧ x ∈ I.entries s ∧ ∀ y ∈ I.entries s, y.value ≤ x.value
  pop : dec = false → ∀ s, Inv s → I.entries s ≠ [] → ∃ x s' log R,
    I.step s .pop = some (some x, s', log) ∧ Inv s' ∧ (I.entries s : Multiset Item) = x ::ₘ R ∧
    (∀ y ∈ I.entries s, y.value ≤ x.value) ∧ Absorbs R log (I.entries s') ∧ (dedup = false → log = [])
  dec : dec = true → ∀ s, Inv s → I.entries s ≠ [] → ∃ x R, I.step s .top = some (some x, s, []) ∧
    (I.entries s : Multiset Item) = x ::ₘ R ∧ (∀ y ∈ I.entries s, y.value ≤ x.value) ∧
    (∃ o s' log, I.step s .pop = some (o, s', log) ∧ Inv s' ∧ Absorbs R log (I.entries s') ∧
      (dedup = false → log = [])) ∧
    ∀ e, ∃ s' log, I.step s (.decreaseTop e) = some (none, s', log) ∧ Inv s' ∧
      Absorbs (e ::ₘ R) log (I.entries s') ∧ (dedup = false → log = [])

namespace SpanGood
open Spans
variable {I : LogImpl Item} {Inv : I.State → Prop} {dedup dec : Bool}

theorem push_ok (h : SpanGood I Inv dedup dec) {s : State I} (hs : Good Inv s) {e : Item} (he : GoodItem e) :
    ∃ s' log, call I s (.push e) = some (none, s') ∧ Good Inv s' ∧
      (∀ v, Vals s'.all v ↔ v ∈ e.rest ∨ Vals s.all v) ∧
      tot s'.all + List.length (α := Item × Item) log = e.rest.length + tot s.all ∧
      s'.pending.length ≤ s.pending.length + log.length ∧
      (Dom (e ::ₘ (I.entries s.ds : Multiset Item)) s.pending → Dom (I.entries s'.ds : Multiset Item) s'.pending) ∧
      (dedup = false → s'.pending = s.pending) := by
  obtain ⟨ds, log, h1, h2, h3, h4⟩ := h.push s.ds e hs.inv
  obtain ⟨s', k1, k2, k3, k4, k5, k6, k7, k8⟩ := call_ok h1 h2 h3 (by
    intro i hi
    rcases Multiset.mem_cons.mp hi with rfl | hi
    · exact he
    · exact hs.items i (Multiset.mem_add.mpr (Or.inl hi)))
    (fun i hi => hs.items i (Multiset.mem_add.mpr (Or.inr hi)))
  refine ⟨s', log, k1, k3, ?_, ?_, k6, by rw [k2]; exact k7, fun hd => k8 (h4 hd)⟩
  · intro v
    rw [k4 v, Multiset.cons_add, Vals.cons]
    rfl
  · rw [k5, Multiset.cons_add, tot_cons]
    rfl

theorem drain_ok (h : SpanGood I Inv dedup dec) (s : State I) (hs : Good Inv s) :
    ∃ s', drain I s = some s' ∧ Good Inv s' ∧ s'.pending = [] ∧ (∀ v, Vals s'.all v ↔ Vals s.all v) ∧
      tot s'.all ≤ tot s.all := by
  induction hn : 2 * tot s.all + s.pending.length using Nat.strong_induction_on generalizing s with
  | _ n ih =>
    rw [drain]
    cases hp : s.pending with
    | nil => exact ⟨s, rfl, hs, hp, fun v => Iff.rfl, le_refl _⟩
    | cons item pending =>
      simp only
      have hall : s.all = item ::ₘ State.all (I := I) ⟨s.ds, pending⟩ := by
        show _ + _ = _ ::ₘ (_ + _)
        rw [hp, ← Multiset.cons_coe, Multiset.add_cons]
      have hitem : GoodItem item := hs.items item (by rw [hall]; exact Multiset.mem_cons_self _ _)
      have hs' : Good Inv (⟨s.ds, pending⟩ : State I) :=
        ⟨hs.inv, fun i hi => hs.items i (by rw [hall]; exact Multiset.mem_cons_of_mem hi)⟩
      obtain ⟨s₁, log, k1, k2, k3, k4, k5, k6, k7⟩ := h.push_ok hs' hitem
      have ht : tot s.all = item.rest.length + tot (State.all (I := I) ⟨s.ds, pending⟩) := by
        rw [hall, tot_cons]
      have hl : s.pending.length = pending.length + 1 := by rw [hp]; rfl
      simp only at k5
      obtain ⟨s₂, j1, j2, j3, j4, j5⟩ := ih (2 * tot s₁.all + s₁.pending.length) (by omega) s₁ k2 rfl
      refine ⟨s₂, by rw [k1]; exact j1, j2, j3, ?_, by omega⟩
      intro v
      rw [j4 v, k3 v, hall, Vals.cons]

theorem top_ok (h : SpanGood I Inv dedup dec) {s : State I} (hs : Good Inv s) (hne : I.entries s.ds ≠ []) :
    ∃ x s', Spans.top I s = some (x, s') ∧ Good Inv s' ∧ x ∈ I.entries s.ds ∧
      (∀ y ∈ I.entries s.ds, y.value ≤ x.value) ∧ s'.all = s.all ∧ s'.pending = s.pending ∧
      (I.entries s'.ds).Perm (I.entries s.ds) := by
  obtain ⟨x, ds, h1, h2, h3, h4, h5⟩ := h.top s.ds hs.inv hne
  have hall : State.all (I := I) ⟨ds, s.pending⟩ = s.all := by
    show _ + _ = _ + _
    rw [Multiset.coe_eq_coe.mpr h3]
  have hx : GoodItem x := hs.items x (Multiset.mem_add.mpr (Or.inl h4))
  refine ⟨x, ⟨ds, s.pending⟩, ?_, ⟨h2, ?_⟩, h4, h5, hall, rfl, h3⟩
  · rw [Spans.top, call, h1]
    simp only [absorb, Option.map_some, hx.not_atEnd]
    rfl
  · intro i hi
    rw [hall] at hi
    exact hs.items i hi

/-- The step to the next value of the largest item. -/
theorem advance_ok (h : SpanGood I Inv dedup dec) {s : State I} (hs : Good Inv s) (hne : I.entries s.ds ≠ []) :
    ∃ x s', (if dec then advanceByDecrease I s else advanceByPop I s) = some s' ∧ Good Inv s' ∧
      x ∈ I.entries s.ds ∧ (∀ y ∈ I.entries s.ds, y.value ≤ x.value) ∧
      (∀ v, Vals s.all v ↔ v = x.value ∨ Vals s'.all v) ∧ tot s'.all < tot s.all ∧
      (dedup = false → s'.pending = s.pending) := by
  have hp : ∀ i ∈ s.pending, GoodItem i := fun i hi => hs.items i (Multiset.mem_add.mpr (Or.inr hi))
  have he : ∀ i ∈ I.entries s.ds, GoodItem i := fun i hi => hs.items i (Multiset.mem_add.mpr (Or.inl hi))
  cases dec with
  | true =>
    obtain ⟨x, R, h1, h2, h3, ⟨o, ds, log, h4, h5, h6, h7⟩, h8⟩ := h.dec rfl s.ds hs.inv hne
    have hxm : x ∈ I.entries s.ds := by
      rw [← Multiset.mem_coe, h2]
      exact Multiset.mem_cons_self _ _
    have hR : ∀ i ∈ R, GoodItem i := fun i hi => he i (by
      rw [← Multiset.mem_coe, h2]
      exact Multiset.mem_cons_of_mem hi)
    have hall : s.all = x ::ₘ (R + (s.pending : Multiset Item)) := by
      show _ + _ = _
      rw [h2, Multiset.cons_add]
    have hx := he x hxm
    obtain ⟨j, j1, j2, j3, j4, j5⟩ := hx.toNext
    have hct : call I s .top = some (some x, s) := by
      rw [call, h1]
      rfl
    rw [if_pos rfl, advanceByDecrease, hct]
    simp only [j1]
    by_cases hj : j.atEnd = true
    · rw [if_pos hj]
      have htl : x.rest.tail = [] := by rw [j4, List.isEmpty_iff] at hj; exact hj
      obtain ⟨s', k1, k2, k3, k4, k5, k6, k7, k8⟩ := call_ok h4 h5 h6 hR hp
      refine ⟨x, s', by rw [k1]; rfl, k3, hxm, h3, ?_, ?_, fun hd => k8 (h7 hd)⟩
      · intro v
        rw [hall, Vals.cons, k4 v, hx.mem, htl]
        simp
      · have := hx.length
        rw [hall, tot_cons]
        omega
    · rw [if_neg hj]
      have hj' : j.atEnd = false := by simpa using hj
      obtain ⟨ds', log', g1, g2, g3, g4⟩ := h8 j
      obtain ⟨s', k1, k2, k3, k4, k5, k6, k7, k8⟩ := call_ok g1 g2 g3 (by
        intro i hi
        rcases Multiset.mem_cons.mp hi with rfl | hi
        · exact j5 hj'
        · exact hR i hi) hp
      refine ⟨x, s', by rw [k1]; rfl, k3, hxm, h3, ?_, ?_, fun hd => k8 (g4 hd)⟩
      · intro v
        rw [hall, Vals.cons, k4 v, hx.mem, Multiset.cons_add, Vals.cons, j2, or_assoc]
      · have := hx.length
        rw [Multiset.cons_add, tot_cons, j2] at k5
        rw [hall, tot_cons]
        omega
  | false =>
    obtain ⟨x, ds, log, R, h1, h2, h3, h4, h5, h6⟩ := h.pop rfl s.ds hs.inv hne
    have hxm : x ∈ I.entries s.ds := by
      rw [← Multiset.mem_coe, h3]
      exact Multiset.mem_cons_self _ _
    have hR : ∀ i ∈ R, GoodItem i := fun i hi => he i (by
      rw [← Multiset.mem_coe, h3]
      exact Multiset.mem_cons_of_mem hi)
    have hall : s.all = x ::ₘ (R + (s.pending : Multiset Item)) := by
      show _ + _ = _
      rw [h3, Multiset.cons_add]
    have hx := he x hxm
    have hlen := hx.length
    obtain ⟨j, j1, j2, j3, j4, j5⟩ := hx.toNext
    obtain ⟨s', k1, k2, k3, k4, k5, k6, k7, k8⟩ := call_ok h1 h2 h5 hR hp
    rw [if_neg (by simp), advanceByPop, k1]
    simp only [j1]
    by_cases hj : j.atEnd = true
    · rw [if_pos hj]
      have htl : x.rest.tail = [] := by rw [j4, List.isEmpty_iff] at hj; exact hj
      refine ⟨x, s', rfl, k3, hxm, h4, ?_, ?_, fun hd => k8 (h6 hd)⟩
      · intro v
        rw [hall, Vals.cons, k4 v, hx.mem, htl]
        simp
      · rw [hall, tot_cons]
        omega
    · rw [if_neg hj]
      have hj' : j.atEnd = false := by simpa using hj
      obtain ⟨s₂, log', g1, g2, g3, g4, g5, g6, g7⟩ := h.push_ok k3 (j5 hj')
      refine ⟨x, s₂, by rw [g1]; rfl, g2, hxm, h4, ?_, ?_, fun hd => (g7 hd).trans (k8 (h6 hd))⟩
      · intro v
        rw [hall, Vals.cons, g3 v, k4 v, hx.mem, j2, or_assoc]
      · rw [j2] at g4
        rw [hall, tot_cons]
        omega

theorem round_ok (h : SpanGood I Inv dedup dec) {s : State I} (hs : Good Inv s) (hne : I.entries s.ds ≠ [])
    (hd : dedup = false → s.pending = []) :
    ∃ x s', Spans.round I dedup dec s = some s' ∧ Good Inv s' ∧ s'.pending = [] ∧
      x ∈ I.entries s.ds ∧ (∀ y ∈ I.entries s.ds, y.value ≤ x.value) ∧
      (∀ v, Vals s.all v ↔ v = x.value ∨ Vals s'.all v) ∧ tot s'.all < tot s.all := by
  obtain ⟨x, s₁, h1, h2, h3, h4, h5, h6, h7⟩ := h.advance_ok hs hne
  rw [Spans.round, h1]
  simp only
  cases hdd : dedup with
  | true =>
    obtain ⟨s₂, k1, k2, k3, k4, k5⟩ := h.drain_ok s₁ h2
    refine ⟨x, s₂, by rw [if_pos rfl]; exact k1, k2, k3, h3, h4, ?_, by omega⟩
    intro v
    rw [h5 v, k4 v]
  | false =>
    have hp : s₁.pending = [] := (h7 hdd).trans (hd hdd)
    refine ⟨x, s₁, ?_, h2, hp, h3, h4, h5, h6⟩
    rw [if_neg (by simp), if_pos (by rw [hp]; rfl)]

/-- With nothing pending, the largest item has the largest value. -/
theorem vals_le {s : State I} (hs : Good Inv s) (hd : Dom (I.entries s.ds : Multiset Item) s.pending) {x : Item}
    (hmax : ∀ y ∈ I.entries s.ds, y.value ≤ x.value) {v : ℕ} (hv : Vals s.all v) : v ≤ x.value := by
  obtain ⟨i, hi, h⟩ := hv
  have h1 := (hs.items i hi).le h
  rcases Multiset.mem_add.mp hi with hi | hi
  · have := hmax i hi
    omega
  · obtain ⟨e, he, hle⟩ := hd i hi
    have := hmax e he
    omega

theorem vals_mem {s : State I} (hs : Good Inv s) {x : Item} (hx : x ∈ I.entries s.ds) : Vals s.all x.value := by
  have hm : x ∈ s.all := Multiset.mem_add.mpr (Or.inl hx)
  exact ⟨x, hm, ((hs.items x hm).mem _).mpr (Or.inl rfl)⟩

theorem popLoop_ok (h : SpanGood I Inv dedup dec) (m : ℕ) (s : State I) (hs : Good Inv s)
    (hne : I.entries s.ds ≠ []) (hd : dedup = false → s.pending = [])
    (hdom : Dom (I.entries s.ds : Multiset Item) s.pending) (hm : Vals s.all m) (hmax : ∀ v, Vals s.all v → v ≤ m) :
    ∃ s', Spans.popLoop I dedup dec m s = some s' ∧ Good Inv s' ∧ s'.pending = [] ∧
      ∀ v, Vals s'.all v ↔ Vals s.all v ∧ v ≠ m := by
  induction hn : tot s.all using Nat.strong_induction_on generalizing s with
  | _ n ih =>
    obtain ⟨x, s₁, h1, h2, h3, h4, h5, h6, h7⟩ := h.round_ok hs hne hd
    have hxm : x.value = m := Nat.le_antisymm (hmax _ (vals_mem hs h4)) (vals_le hs hdom h5 hm)
    rw [hxm] at h6
    have hdom₁ : Dom (I.entries s₁.ds : Multiset Item) s₁.pending := by
      rw [h3]
      intro p hp
      simp at hp
    rw [Spans.popLoop, h1]
    simp only
    by_cases he : I.entries s₁.ds = []
    · rw [Spans.more, if_pos ((h.empty _ h2.inv).mpr he)]
      refine ⟨s₁, rfl, h2, h3, ?_⟩
      have hz : s₁.all = 0 := by
        show _ + _ = _
        rw [he, h3]
        rfl
      intro v
      rw [h6 v, hz]
      constructor
      · intro hv; exact absurd hv Vals.zero
      · rintro ⟨rfl | hv, hvm⟩
        · exact absurd rfl hvm
        · exact hv
    · obtain ⟨z, s₂, k1, k2, k3, k4, k5, k6, k7⟩ := h.top_ok h2 he
      rw [Spans.more, if_neg (fun hc => he ((h.empty _ h2.inv).mp hc)), k1]
      simp only [Option.map_some]
      by_cases hz : z.value = m
      · simp only [hz, beq_self_eq_true]
        have hp2 : s₂.pending = [] := k6.trans h3
        obtain ⟨s₃, j1, j2, j3, j4⟩ := ih (tot s₂.all) (by rw [k5]; omega) s₂ k2
          (by intro h0; rw [h0] at k7; exact he (List.nil_perm.mp k7)) (fun _ => hp2)
          (by rw [hp2]; intro p hp; simp at hp)
          (by rw [k5, ← hz]; exact vals_mem h2 k3)
          (fun v hv => hmax v ((h6 v).mpr (Or.inr (by rw [k5] at hv; exact hv)))) rfl
        refine ⟨s₃, j1, j2, j3, ?_⟩
        intro v
        rw [j4 v, k5, h6 v]
        constructor
        · rintro ⟨a, b⟩; exact ⟨Or.inr a, b⟩
        · rintro ⟨a | a, b⟩
          · exact absurd a b
          · exact ⟨a, b⟩
      · have : (z.value == m) = false := by simp [hz]
        rw [this]
        refine ⟨s₂, rfl, k2, k6.trans h3, ?_⟩
        intro v
        rw [k5, h6 v]
        constructor
        · intro hv
          refine ⟨Or.inr hv, ?_⟩
          rintro rfl
          have h8 := vals_le h2 hdom₁ k4 hv
          have h9 := hmax _ ((h6 _).mpr (Or.inr (vals_mem h2 k3)))
          omega
        · rintro ⟨a | a, b⟩
          · exact absurd a b
          · exact a

theorem push_some {s s' : State I} {l : List ℕ} {o : Option Item}
    (h : call I s (.push (Item.ofRange l)) = some (o, s')) : Spans.push I s l = some s' := by
  rw [Spans.push, h]
  rfl

theorem pop_none (h : SpanGood I Inv dedup dec) {s : State I} (hs : Good Inv s) (he : I.entries s.ds = []) :
    Spans.pop I dedup dec s = none := by
  rw [Spans.pop, Spans.top, call, h.undef _ hs.inv he]

theorem pop_some {s s₁ s₂ : State I} {x : Item} (h1 : Spans.top I s = some (x, s₁))
    (h2 : Spans.popLoop I dedup dec x.value s₁ = some s₂) :
    Spans.pop I dedup dec s = some (x.value, s₂) := by
  rw [Spans.pop, h1]
  simp only
  rw [h2]
  rfl

theorem correct (h : SpanGood I Inv dedup dec) : (spans I dedup dec).Correct := by
  have hnil : ∀ s : State I, Good Inv s → Dom (I.entries s.ds : Multiset Item) s.pending →
      (I.entries s.ds = [] ↔ ∀ v, ¬ Vals s.all v) := by
    intro s hs hd
    constructor
    · rintro he v ⟨i, hi, hv⟩
      rcases Multiset.mem_add.mp hi with hi | hi
      · rw [he] at hi; simp at hi
      · obtain ⟨e, he', _⟩ := hd i hi
        rw [he] at he'
        simp at he'
    · intro hv
      rw [List.eq_nil_iff_forall_not_mem]
      intro x hx
      exact hv _ (vals_mem hs hx)
  refine Queue.Correct.of_rel (Q := spans I dedup dec)
    (fun (s : State I) S => Good Inv s ∧ Dom (I.entries s.ds : Multiset Item) s.pending ∧
      (dedup = false → s.pending = []) ∧ ∀ v, v ∈ S ↔ Vals s.all v) ?_ ?_ ?_ ?_ ?_
  · have hz : State.all (I := I) ⟨I.init, []⟩ = 0 := by
      show _ + _ = _
      rw [h.start]
      rfl
    refine ⟨⟨h.init, ?_⟩, ?_, fun _ => rfl, ?_⟩
    · intro i hi
      rw [show State.all (I := I) (spans I dedup dec).init = 0 from hz] at hi
      simp at hi
    · intro p hp
      exact absurd hp (List.not_mem_nil)
    · intro v
      rw [show State.all (I := I) (spans I dedup dec).init = 0 from hz]
      simp [Vals.zero]
  · rintro s S ⟨hs, hd, hp, hS⟩
    show I.empty s.ds = _
    rw [Bool.eq_iff_iff, h.empty _ hs.inv, decide_eq_true_iff, hnil s hs hd, Finset.eq_empty_iff_forall_notMem]
    simp only [hS]
  · rintro s S l hl ⟨hs, hd, hp, hS⟩
    obtain ⟨s', log, k1, k2, k3, k4, k5, k6, k7⟩ := h.push_ok hs (GoodItem.ofRange hl.1 hl.2)
    refine ⟨s', ?_, k2, k6 ?_, fun hdd => (k7 hdd).trans (hp hdd), ?_⟩
    · exact push_some k1
    · intro p hpp
      obtain ⟨e, he, hle⟩ := hd p hpp
      exact ⟨e, Multiset.mem_cons_of_mem he, hle⟩
    · intro v
      rw [k3 v, Finset.mem_union, List.mem_toFinset, hS v, or_comm]
      rfl
  · rintro s ⟨hs, hd, hp, hS⟩
    have he : I.entries s.ds = [] := by
      rw [hnil s hs hd]
      intro v hv
      have := (hS v).mpr hv
      simp at this
    exact h.pop_none hs he
  · rintro s S hne ⟨hs, hd, hp, hS⟩
    have hn : I.entries s.ds ≠ [] := by
      obtain ⟨v, hv⟩ := hne
      rw [Ne, hnil s hs hd]
      exact fun h => h v ((hS v).mp hv)
    obtain ⟨x, s₁, k1, k2, k3, k4, k5, k6, k7⟩ := h.top_ok hs hn
    have hvx := vals_mem hs k3
    have hle : ∀ v, Vals s.all v → v ≤ x.value := fun v hv => vals_le hs hd k4 hv
    obtain ⟨s₂, j1, j2, j3, j4⟩ := h.popLoop_ok x.value s₁ k2
      (by intro h0; rw [h0] at k7; exact hn (List.nil_perm.mp k7)) (fun hdd => k6.trans (hp hdd))
      (by
        intro p hpp
        rw [k6] at hpp
        obtain ⟨e, he, hle⟩ := hd p hpp
        exact ⟨e, k7.mem_iff.mpr he, hle⟩)
      (by rw [k5]; exact hvx) (by rw [k5]; exact hle)
    have hx : S.max' hne = x.value := by
      apply Nat.le_antisymm
      · exact Finset.max'_le _ _ _ (fun y hy => hle y ((hS y).mp hy))
      · exact Finset.le_max' _ _ ((hS _).mpr hvx)
    refine ⟨s₂, ?_, j2, ?_, fun _ => j3, ?_⟩
    · rw [hx]
      exact pop_some k1 j1
    · rw [j3]
      intro p hpp
      simp at hpp
    · intro v
      rw [hx, Finset.mem_erase, hS v, j4 v, k5, and_comm]

end SpanGood

end Verif.PQSim
