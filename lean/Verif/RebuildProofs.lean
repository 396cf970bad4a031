import Verif.RebuildSpec
import Verif.DivListProofs
import Verif.KDThrowProofs

/-!
# Lemmas on automatic rebuilds
-/

namespace Verif.Rebuild

variable {T : Type}

/-- The same but for the order of entries. -/
structure Alike (E E' : Epoch T) : Prop where
  none : E.built = none ↔ E'.built = none
  some : ∀ l l', E.built = some l → E'.built = some l' → l.Perm l'
  limit : E.limit = E'.limit
  since : E.since = E'.since

theorem alike_refl (E : Epoch T) : Alike E E :=
  ⟨.rfl, fun _ _ h h' => by rw [h] at h'; cases h'; rfl, rfl, rfl⟩

theorem alike_fresh (p : Plan) {l l' : List T} (h : l.Perm l') : Alike (Epoch.fresh p l) (Epoch.fresh p l') := by
  refine ⟨by simp [Epoch.fresh], ?_, by simp [Epoch.fresh, h.length_eq], rfl⟩
  rintro _ _ ⟨⟩ ⟨⟩
  exact h

theorem alike_change (p : Plan) {E E' : Epoch T} (h : Alike E E') (n : ℕ) {l l' : List T} (hp : l.Perm l') :
    Alike (E.change p n l) (E'.change p n l') := by
  unfold Epoch.change
  rw [h.limit, h.since]
  split
  · exact alike_fresh p hp
  · exact ⟨h.none, h.some, rfl, rfl⟩

theorem alike_inserts (p : Plan) (es : List T) : ∀ {E E' : Epoch T} {l l' : List T}, Alike E E' → l.Perm l' →
    Alike (E.inserts p l es) (E'.inserts p l' es) := by
  induction es with
  | nil => intro E E' l l' h _; exact h
  | cons e es ih =>
    intro E E' l l' h hp
    exact ih (alike_change p h 1 (hp.append_right [e])) (hp.append_right [e])

theorem alike_masks {E E' : Epoch T} (h : Alike E E') {d : Option DivMask.Bits} {make : List T → Option DivMask.Bits}
    {bits : DivMask.Bits} (hm : E.Masks d make bits) : E'.Masks d make bits := by
  unfold Epoch.Masks at *
  cases h1 : E.built with
  | none =>
    rw [h1] at hm
    rw [h.none.mp h1]
    exact hm
  | some l =>
    cases h2 : E'.built with
    | none => rw [h.none.mpr h2] at h1; cases h1
    | some l' =>
      rw [h1] at hm
      obtain ⟨k, k1, k2⟩ := hm
      exact ⟨k, k1.trans (h.some _ _ h1 h2), k2⟩

end Verif.Rebuild

namespace Verif.DivList

open Verif.Rebuild
open Verif.DivMask (Ext Bits)

variable {T : Type} {c : Conf T}

/-- The counter and the masks go by the epoch. -/
structure Sched (c : Conf T) (s : State T) (E : Epoch T) : Prop where
  masks : E.Masks (calcInit c) (calcRebuild c) s.bits
  counter : c.doAutomaticRebuilds = true → s.changes + E.since = E.limit

theorem Sched.alike {s : State T} {E E' : Epoch T} (h : Sched c s E) (ha : Alike E E') : Sched c s E' :=
  ⟨alike_masks ha h.masks, fun hd => by rw [← ha.since, ← ha.limit]; exact h.counter hd⟩

theorem Sched.list {s : State T} {E : Epoch T} (h : Sched c s E) (l : List (Ext T)) : Sched c { s with list := l } E :=
  ⟨h.masks, h.counter⟩

theorem resetChanges_changes (hd : c.doAutomaticRebuilds = true) (s : State T) :
    (resetChanges c s).changes = max (c.rebuildSize s.list.length) c.rebuildMin := by
  unfold resetChanges
  rw [if_pos hd]

theorem init_sched {s : State T} (h : init c = some s) : Sched c s (Epoch.start c.plan) := by
  unfold init at h
  cases hb : calcInit c with
  | none => rw [hb] at h; cases h
  | some bits =>
    rw [hb] at h
    cases h
    refine ⟨?_, fun hd => ?_⟩
    · rw [resetChanges_bits]; exact hb
    · rw [resetChanges_changes hd]; rfl

theorem rebuild_sched {s s' : State T} (h : rebuild c s = some s') :
    s'.contents = s.contents ∧ Sched c s' (Epoch.fresh c.plan s'.contents) := by
  unfold rebuild at h
  cases hb : calcRebuild c s.contents with
  | none => rw [hb] at h; cases h
  | some bits =>
    rw [hb] at h
    cases h
    have e : (resetChanges c { s with bits := bits, list := s.list.map (fun x => Ext.make c.dm bits x.t) }).contents =
        s.contents := by
      rw [resetChanges_contents]
      unfold State.contents
      rw [List.map_map]
      rfl
    refine ⟨e, ?_, fun hd => ?_⟩
    · rw [e, resetChanges_bits]
      exact ⟨_, .refl _, hb⟩
    · rw [resetChanges_changes hd, e]
      simp [Epoch.fresh, Conf.plan, State.contents]

theorem reportChanges_sched {s s' : State T} {E : Epoch T} (hs : Sched c s E) (n : ℕ)
    (h : reportChanges c s n = some s') : s'.contents = s.contents ∧ Sched c s' (E.change c.plan n s'.contents) := by
  unfold reportChanges at h
  unfold Epoch.change Conf.plan
  cases hd : c.doAutomaticRebuilds with
  | false =>
    rw [hd] at h
    cases h
    refine ⟨rfl, ?_⟩
    rw [if_neg (by simp)]
    exact ⟨hs.masks, fun h => by rw [hd] at h; cases h⟩
  | true =>
    rw [hd] at h
    have hc := hs.counter hd
    simp only [Bool.not_true, Bool.false_eq_true, if_false] at h
    split at h
    · cases h
      refine ⟨rfl, ?_⟩
      rw [if_neg (by simp; omega)]
      exact ⟨hs.masks, fun _ => by simp only; omega⟩
    · rw [if_pos ⟨rfl, by omega⟩]
      have := rebuild_sched h
      unfold Conf.plan at this
      rw [hd] at this
      exact this

theorem insert_sched {s s' : State T} {E : Epoch T} (hs : Sched c s E) (e : T) (h : insert c s e = some s') :
    Sched c s' (E.change c.plan 1 s'.contents) := by
  unfold insert at h
  simp only at h
  split at h
  · exact (reportChanges_sched (hs.list _) 1 h).2
  · split at h
    · cases h
    · exact (reportChanges_sched (hs.list _) 1 h).2

theorem insertEach_sched (hl : c.Lawful) (es : List T) : ∀ {s s' : State T} {E : Epoch T}, Inv c s → Sched c s E →
    insertEach c s es = some s' → Sched c s' (E.inserts c.plan s.contents es) := by
  induction es with
  | nil => intro s s' E _ hs h; cases h; exact hs
  | cons e es ih =>
    intro s s' E hi hs h
    obtain ⟨s1, h1, h2, h3, _⟩ := insert_spec hl hi e
    rw [insertEach, h1] at h
    have hp : s1.contents.Perm (s.contents ++ [e]) := by rw [h2]; exact refInsert_perm _ _
    exact (ih h3 (insert_sched hs e h1) h).alike
      (alike_inserts c.plan es (alike_change c.plan (alike_refl E) 1 hp) hp)

theorem insertRange_sched (hl : c.Lawful) (es : List T) {s s' : State T} {E : Epoch T} (hi : Inv c s)
    (hs : Sched c s E) (h : insertRange c s es = some s') :
    Sched c s' (nextEpoch c false E s.contents (.insertRange es) .unit s'.contents) := by
  have hrange := h
  obtain ⟨s₂, k1, k2, k3, k4⟩ := insertRange_spec hl hi es
  rw [h] at k1
  cases k1
  unfold insertRange at h
  unfold nextEpoch
  simp only
  rw [← contents_isEmpty]
  cases hemp : s.list.isEmpty with
  | false =>
    rw [hemp] at h
    exact insertEach_sched hl es hi hs h
  | true =>
    rw [hemp] at h
    simp only [Bool.not_true, Bool.false_eq_true, if_false, if_true] at h ⊢
    cases hes : es.isEmpty with
    | true =>
      rw [hes] at h
      cases h
      exact hs
    | false =>
      rw [hes] at h
      simp only [Bool.false_eq_true, if_false] at h ⊢
      have hnil : s.contents = [] := by
        have := contents_isEmpty s
        rw [hemp] at this
        exact List.isEmpty_iff.mp this.symm
      have hp : s'.contents.Perm es := by
        have hc := k2
        unfold refInsertRange at hc
        rw [hnil, hes] at hc
        simp only [List.isEmpty_nil, if_true, Bool.false_eq_true, if_false] at hc
        rw [hc]
        cases hso : c.sortOnInsert with
        | false => rfl
        | true => exact (hl.sort hso).perm _ _ (hl.order hso)
      cases hb : calcRebuild c es with
      | none => rw [hb] at h; cases h
      | some bits =>
        rw [hb] at h
        simp only [Option.some.injEq] at h
        refine ⟨?_, fun hd => ?_⟩
        · refine ⟨es, hp.symm, ?_⟩
          rw [← h, resetChanges_bits]
          exact hb
        · have : s'.changes = max (c.rebuildSize s'.list.length) c.rebuildMin := by
            rw [← h, resetChanges_changes hd, resetChanges_list]
          rw [this]
          simp [Epoch.fresh, Conf.plan, State.contents]

theorem removeMultiples_sched (m : T) {s s' : State T} {E : Epoch T} (hs : Sched c s E) {out : List T} {b : Bool} (h : removeMultiples c s m = some (out, b, s')) :
    Sched c s' (E.change c.plan (s.contents.length - s'.contents.length) s'.contents) := by
  unfold removeMultiples at h
  simp only at h
  have hboth : (if c.useLinkedList then some (removeMultiplesList c (ext c s m) s.list)
      else removeMultiplesVector c (ext c s m) s.list) =
      some (s.list.filter (fun e => !divides c (ext c s m) e),
      (s.list.filter (fun e => divides c (ext c s m) e)).map Ext.t,
      (s.list.filter (fun e => divides c (ext c s m) e)).length) := by
    split
    · rw [removeMultiplesList_spec]
    · rw [removeMultiplesVector_spec]
  rw [hboth] at h
  simp only at h
  cases hr : reportChanges c { s with list := s.list.filter (fun e => !divides c (ext c s m) e) }
      (s.list.filter (fun e => divides c (ext c s m) e)).length with
  | none => rw [hr] at h; cases h
  | some s2 =>
    rw [hr] at h
    simp only [Option.some.injEq, Prod.mk.injEq] at h
    obtain ⟨_, _, rfl⟩ := h
    obtain ⟨k1, k2⟩ := reportChanges_sched (hs.list _) _ hr
    have hlen : s.contents.length - s2.contents.length =
        (s.list.filter (fun e => divides c (ext c s m) e)).length := by
      rw [k1]
      simp only [State.contents, List.length_map]
      have := List.length_eq_length_filter_add (l := s.list) (fun e => divides c (ext c s m) e)
      omega
    rw [hlen]
    exact k2

/-- One call. -/
theorem step_sched (hl : c.Lawful) {s s' : State T} {E : Epoch T} (hi : Inv c s) (hs : Sched c s E) (op : Op T)
    {r : Ret T} (h : step c s op = some (r, s')) :
    Sched c s' (nextEpoch c false E s.contents op r s'.contents) := by
  cases op with
  | insert e =>
    simp only [step, Option.map_eq_some_iff, Prod.mk.injEq] at h
    obtain ⟨_, h1, rfl, rfl⟩ := h
    exact insert_sched hs e h1
  | insertRange es =>
    simp only [step, Option.map_eq_some_iff, Prod.mk.injEq] at h
    obtain ⟨_, h1, rfl, rfl⟩ := h
    exact insertRange_sched hl es hi hs h1
  | removeMultiples m =>
    simp only [step, Option.map_eq_some_iff, Prod.mk.injEq] at h
    obtain ⟨⟨out, b, s2⟩, h1, rfl, rfl⟩ := h
    exact removeMultiples_sched m hs h1
  | removeElement m =>
    simp only [step, Option.some.injEq, Prod.mk.injEq] at h
    obtain ⟨rfl, rfl⟩ := h
    simp only [nextEpoch, Bool.false_eq_true, false_and, if_false]
    unfold removeElement
    split
    · exact hs
    · exact hs.list _
  | findDivisor m =>
    simp only [step, Option.map_eq_some_iff, Prod.mk.injEq] at h
    obtain ⟨_, _, rfl, rfl⟩ := h
    exact hs
  | findDivisorIterator m =>
    simp only [step, Option.map_eq_some_iff, Prod.mk.injEq] at h
    obtain ⟨_, _, rfl, rfl⟩ := h
    exact hs
  | findAllDivisors m p =>
    simp only [step, Option.map_eq_some_iff, Prod.mk.injEq] at h
    obtain ⟨_, _, rfl, rfl⟩ := h
    exact hs
  | findAllMultiples m p =>
    simp only [step, Option.some.injEq, Prod.mk.injEq] at h
    obtain ⟨rfl, rfl⟩ := h
    exact hs
  | forAll p =>
    simp only [step, Option.some.injEq, Prod.mk.injEq] at h
    obtain ⟨rfl, rfl⟩ := h
    exact hs
  | moveToFront i =>
    simp only [step, Option.map_eq_some_iff, Prod.mk.injEq] at h
    obtain ⟨_, h1, rfl, rfl⟩ := h
    rw [moveToFront_list, Option.map_eq_some_iff] at h1
    obtain ⟨_, _, rfl⟩ := h1
    exact hs.list _
  | rebuild =>
    simp only [step, Option.map_eq_some_iff, Prod.mk.injEq] at h
    obtain ⟨_, h1, rfl, rfl⟩ := h
    exact (rebuild_sched h1).2
  | size =>
    simp only [step, Option.some.injEq, Prod.mk.injEq] at h
    obtain ⟨rfl, rfl⟩ := h
    exact hs

/-- A history. -/
theorem run_sched (hl : c.Lawful) : ∀ (ops : List (Op T)) {s s' : State T} {E : Epoch T} {rs : List (Ret T)}, Inv c s →
    Sched c s E → (∀ op ∈ ops, Allowed c op) → run c s ops = some (rs, s') →
    ∃ E', Epochs c false s.contents E ops rs s'.contents E' ∧ Sched c s' E' ∧ Inv c s' := by
  intro ops
  induction ops with
  | nil =>
    intro s s' E rs hi hs _ h
    cases h
    exact ⟨E, .nil, hs, hi⟩
  | cons op ops ih =>
    intro s s' E rs hi hs ha h
    rcases step_spec hl hi op (ha op List.mem_cons_self) with ⟨_, h1, _⟩ | ⟨_, r, s1, h1, _, h3, h4⟩
    · rw [run, h1] at h; cases h
    · rw [run, h1] at h
      simp only at h
      cases hr : run c s1 ops with
      | none => rw [hr] at h; cases h
      | some q =>
        rw [hr] at h
        cases h
        obtain ⟨E', k1, k2, k3⟩ := ih h3 (step_sched hl hi hs op h1) (fun o ho => ha o (List.mem_cons_of_mem _ ho)) hr
        exact ⟨E', .cons h4 k1, k2, k3⟩

/-- Without `removeElement` it does not matter whether it counts. -/
theorem epochs_element {ops : List (Op T)} (hn : ∀ op ∈ ops, op.NotElement) {l l' : List T} {E E' : Epoch T}
    {rs : List (Ret T)} (h : Epochs c false l E ops rs l' E') : Epochs c true l E ops rs l' E' := by
  induction h with
  | nil => exact .nil
  | @cons l l₁ l₂ E E' op ops r rs h1 _ ih =>
    refine .cons h1 ?_
    have : nextEpoch c true E l op r l₁ = nextEpoch c false E l op r l₁ := by
      have := hn op List.mem_cons_self
      cases op <;> first | rfl | exact this.elim
    rw [this]
    exact ih (fun o ho => hn o (List.mem_cons_of_mem _ ho))

end Verif.DivList

namespace Verif.KDTree

open Verif.Rebuild
open Verif.DivMask (Ext Bits)

variable {T : Type} {c : Conf T}

/-- The counter and the masks go by the epoch. -/
structure Sched (c : Conf T) (s : State T) (E : Epoch T) : Prop where
  masks : E.Masks (calcInit c) (calcRebuild c) s.bits
  counter : c.doAutomaticRebuilds = true → s.changes + E.since = E.limit

theorem resetChanges_changes (hd : c.doAutomaticRebuilds = true) (s : State T) :
    (resetChanges c s).changes = max (c.rebuildSize s.size) c.rebuildMin := by
  unfold resetChanges
  simp only [hd, Bool.not_true, Bool.false_eq_true, if_false]
  split <;> rfl

theorem init_sched {s : State T} (h : init c = some s) : Sched c s (Epoch.start c.plan) := by
  unfold init at h
  cases hb : calcInit c with
  | none => rw [hb] at h; cases h
  | some bits =>
    rw [hb] at h
    cases h
    refine ⟨?_, fun hd => ?_⟩
    · rw [(resetChanges_spec c _).2.1]; exact hb
    · rw [resetChanges_changes hd]; rfl

theorem rebuild_sched (hl : c.Lawful) {s s' : State T} (hi : Inv c s) (hz : SizeOk s) (h : rebuild c s = .ok s') :
    Sched c s' (Epoch.fresh c.plan s'.contents) := by
  obtain ⟨got, flow, t', g1, _, g3, _⟩ := tree_forAll_ok hi.tree hi.tmp (fun _ => Flow.go)
  have hp := delivered_go g3
  obtain ⟨bits, b1, b2⟩ := calcRebuild_ok hl got
  obtain ⟨t, t1, t2, t3, t4⟩ := tree_reset_ok hl (bits := bits) (l := got)
    (fun x => by rw [copies_perm x hp]; exact tree_copies hi.tree x)
  obtain ⟨e1, e2, e3, e4⟩ := resetChanges_spec c { s with tree := t, bits := bits }
  have hr : rebuild c s = .ok (resetChanges c { s with tree := t, bits := bits }) := by
    rw [rebuild, g1]; simp only [b1, t1]
  rw [hr] at h
  cases h
  have hc : (resetChanges c { s with tree := t, bits := bits }).contents.Perm got := by
    unfold State.contents; rw [e1]; exact t4
  refine ⟨⟨got, hc.symm, by rw [e2]; exact b1⟩, fun hd => ?_⟩
  rw [resetChanges_changes hd]
  unfold SizeOk at hz
  have hg : got.length = s.size := hp.length_eq.trans hz.symm
  simp only [Epoch.fresh, Conf.plan]
  rw [hc.length_eq, hg]
  rfl

theorem reportChanges_sched (hl : c.Lawful) {s s' : State T} {E : Epoch T} (additions removals : ℕ) (h1 : Calc c s.bits)
    (h2 : s.tree.Ok c s.bits) (h3 : s.tree.tmp = [])
    (h4 : additions + removals = 0 → c.useDivisorCache = true → ∀ p, s.cache = some p → ∃ e, s.tree.deref p = some e)
    (hz : s.size + additions - removals = s.contents.length) (hs : Sched c s E)
    (h : reportChanges c s additions removals = .ok s') :
    Sched c s' (E.change c.plan (additions + removals) s'.contents) := by
  unfold reportChanges at h
  have key : ∃ s1 : State T, (if c.useDivisorCache && (additions + removals != 0) then { s with cache := none } else s) = s1 ∧
      Inv c { s1 with size := s1.size + additions - removals } ∧ s1.tree = s.tree ∧ s1.size = s.size ∧
      s1.bits = s.bits ∧ s1.changes = s.changes := by
    cases hu : c.useDivisorCache with
    | false => exact ⟨s, rfl, ⟨h1, h2, h3, by rw [hu]; nofun⟩, rfl, rfl, rfl, rfl⟩
    | true =>
      by_cases h0 : additions + removals = 0
      · refine ⟨s, by simp [h0], ⟨h1, h2, h3, fun hu => ?_⟩, rfl, rfl, rfl, rfl⟩
        exact h4 h0 hu
      · exact ⟨_, if_pos (by simpa using h0), ⟨h1, h2, h3, fun _ => nofun⟩, rfl, rfl, rfl, rfl⟩
  obtain ⟨s1, e1, e2, e3, e4, e5, e6⟩ := key
  rw [e1] at h
  simp only at h
  unfold Epoch.change
  cases hd : c.doAutomaticRebuilds with
  | false =>
    rw [hd] at h
    cases h
    rw [if_neg (by simp [Conf.plan, hd])]
    exact ⟨by rw [e5]; exact hs.masks, fun h => by rw [hd] at h; cases h⟩
  | true =>
    rw [hd] at h
    have hc := hs.counter hd
    simp only [Bool.not_true, Bool.false_eq_true, if_false] at h
    split at h
    · cases h
      rw [if_neg (by simp only [not_and, not_le]; intro; omega)]
      exact ⟨by rw [e5]; exact hs.masks, fun _ => by simp only; omega⟩
    · rw [if_pos ⟨hd, by omega⟩]
      refine rebuild_sched hl e2 ?_ h
      unfold SizeOk
      simp only [e4, State.contents, e3]
      exact hz

/-- One call. -/
theorem step_sched (hl : c.Lawful) {s s' : State T} {E : Epoch T} (hi : Inv c s) (hz : SizeOk s) (hs : Sched c s E)
    (op : Op T) (hne : op.NotElement) {r : Ret T} (h : step c s op = .ok (r, s')) :
    Sched c s' (nextEpoch c true E s.contents op r s'.contents) := by
  have hext : ∀ m, IsExt c s.bits (ext c s m) := fun _ => rfl
  have hgot : ∀ {p : Op T} {q : Option (List T × Flow × Tree T)}, gotRes s q = .ok (r, s') →
      Sched c s' E := by
    intro p q hq
    cases q with
    | none => cases hq
    | some q => cases hq; exact ⟨hs.masks, hs.counter⟩
  cases op with
  | insert e =>
    obtain ⟨b, t, g1, g2, g3, g4, g5⟩ := tree_insert_ok hl hi.tree (hext e)
    rw [step, insert, g1] at h
    cases b with
    | true => cases h; exact ⟨hs.masks, hs.counter⟩
    | false =>
      obtain ⟨_, e2⟩ := g5 rfl
      simp only at h
      cases hr : reportChanges c { s with tree := t } 1 0 with
      | ok s2 =>
        rw [hr] at h
        cases h
        refine reportChanges_sched hl (s := { s with tree := t }) 1 0 hi.masks g2 (by rw [← hi.tmp, ← g3]) (by omega) ?_ ⟨hs.masks, hs.counter⟩ hr
        have := e2.length_eq
        unfold SizeOk at hz
        simp only [State.contents] at hz ⊢
        rw [this, hz]
        rfl
      | broken => rw [hr] at h; cases h
      | ub => rw [hr] at h; cases h
  | removeMultiples m =>
    rw [step, removeMultiples] at h
    cases ha : c.allowRemovals with
    | false => rw [ha] at h; cases h; exact hs
    | true =>
      obtain ⟨out, t, g1, g2, g3, g4, g5, g6⟩ := tree_removeMultiples_ok hl hi.masks (hext m) hi.tree ha hi.tmp
      rw [ha] at h
      simp only [Bool.not_true, Bool.false_eq_true, if_false, g1] at h
      have h4 : 0 + out.length = 0 → c.useDivisorCache = true → ∀ p, s.cache = some p → ∃ e, t.deref p = some e := by
        intro h0 hu p hp
        have hnil : out = [] := List.length_eq_zero_iff.mp (by omega)
        rw [g6 hnil]
        exact hi.cache hu p hp
      obtain ⟨s3, r1, _, r3, _⟩ := reportChanges_ok hl (s := { s with tree := t }) 0 out.length hi.masks g2 g3 h4
      rw [r1] at h
      cases h
      have hlen : t.contents.length = s.contents.length - out.length := by
        rw [g5.length_eq, filter_len, g4.length_eq]
        rfl
      have hle : out.length ≤ s.contents.length := by
        rw [g4.length_eq]; exact List.length_filter_le _ _
      have hdiff : s.contents.length - s'.contents.length = 0 + out.length := by
        rw [r3.length_eq]
        show s.contents.length - t.contents.length = _
        omega
      show Sched c s' (E.change c.plan (s.contents.length - s'.contents.length) s'.contents)
      rw [hdiff]
      refine reportChanges_sched hl (s := { s with tree := t }) 0 out.length hi.masks g2 g3 h4 ?_ ⟨hs.masks, hs.counter⟩ r1
      show s.size + 0 - out.length = t.contents.length
      unfold SizeOk at hz
      omega
  | removeElement m => exact hne.elim
  | findDivisor m =>
    have hmk : ∀ s2 : State T, s2.bits = s.bits → s2.changes = s.changes → Sched c s2 E :=
      fun s2 e1 e2 => ⟨by rw [e1]; exact hs.masks, by rw [e2]; exact hs.counter⟩
    have htree : findDivisorTree c s m = .ok (r, s') → Sched c s' E := by
      intro h
      unfold findDivisorTree at h
      split at h
      · cases h
      · cases h; exact hmk _ rfl rfl
      · split at h
        · cases h
        · cases h; exact hmk _ rfl rfl
    rw [step, findDivisor] at h
    show Sched c s' E
    split at h
    · split at h
      · cases h
      · split at h
        · cases h; exact hs
        · exact htree h
    · exact htree h
  | findAllDivisors m p => exact hgot (p := .size) h
  | findAllMultiples m p => exact hgot (p := .size) h
  | forAll p => exact hgot (p := .size) h
  | rebuild =>
    rw [step] at h
    cases hr : rebuild c s with
    | ok s2 =>
      rw [hr] at h
      cases h
      exact rebuild_sched hl hi hz hr
    | broken => rw [hr] at h; cases h
    | ub => rw [hr] at h; cases h
  | size => cases h; exact hs

/-- A history. -/
theorem run_sched (hl : c.Lawful) : ∀ (ops : List (Op T)) {s : State T} {E : Epoch T}, Inv c s → SizeOk s →
    Sched c s E → (∀ op ∈ ops, op.NoThrow) → (∀ op ∈ ops, op.NotElement) →
    ∃ rs s' E', run c s ops = .ok (rs, s') ∧ Epochs c true s.contents E ops rs s'.contents E' ∧ Sched c s' E' ∧ Inv c s' := by
  intro ops
  induction ops with
  | nil => intro s E hi _ hs _ _; exact ⟨[], s, E, rfl, .nil, hs, hi⟩
  | cons op ops ih =>
    intro s E hi hz hs h1 h2
    have hne := h2 op List.mem_cons_self
    obtain ⟨r, s1, k1, k2, k3, k4⟩ := step_spec hl hi op (by cases op <;> trivial)
    obtain ⟨rs, s', E', q1, q2, q3, q4⟩ := ih (k4 (h1 op List.mem_cons_self)) (k3 hne hz)
      (step_sched hl hi hz hs op hne k1) (fun o ho => h1 o (List.mem_cons_of_mem _ ho))
      (fun o ho => h2 o (List.mem_cons_of_mem _ ho))
    exact ⟨r :: rs, s', E', by rw [run, k1]; simp only [q1], .cons (k2 (.inr hz)) q2, q3, q4⟩

theorem extEntries_eq (n : Node T) : n.extEntries = n.exts := by
  induction n with
  | entries a => rfl
  | split _ _ _ le gt ih1 ih2 => simp only [Node.extEntries, Node.exts, ih1, ih2]

theorem inv_masks {s : State T} (hi : Inv c s) (n : Node T) (hn : s.tree.root = some n) (x : Ext T)
    (hx : x ∈ n.extEntries) : x = Ext.make c.dm s.bits x.t := by
  rw [extEntries_eq] at hx
  exact wf_exts (hi.tree.wf n hn) x hx

end Verif.KDTree
