import Verif.GeoSimInsertProofs
import Verif.GeobucketProofs

/-!
# Helper lemmas: histories of a geobucket with its memory
-/

namespace Verif.GeoMem

open Geobucket (Conf Storage Sane Allowed)

variable {E : Type} {c : Conf E}

theorem entries_eq (s : State E) : entries s = Geobucket.flat s.view.buckets := by
  rw [entries, Geobucket.flat, State.view, List.flatMap_map]
  rfl

theorem getMax_none {s : State E} (h : Ok c s) (hn : Geobucket.getMax c s.view = none) (he : entries s = []) :
    getMax c s = none := by
  have hf : s.view.front = s.front := rfl
  rw [Geobucket.getMax, hf] at hn
  rw [getMax]
  cases ht : c.trackFront with
  | true =>
    rw [ht, if_pos rfl] at hn
    rw [if_pos rfl]
    split
    · rfl
    · rename_i h0
      rw [if_neg h0, Option.map_eq_none_iff] at hn
      rw [hn]
      rfl
  | false =>
    rw [ht, if_neg (by simp)] at hn
    rw [if_neg (by simp)]
    cases hca : s.front.cached with
    | some b =>
      rw [hca] at hn
      cases hn
    | none =>
      have : s.buckets.findIdx? (fun b => decide (b.size ≠ 0)) = none := by
        rw [List.findIdx?_eq_none_iff]
        intro b hb
        obtain ⟨i, hi⟩ := List.getElem?_of_mem hb
        have h0 : slice s.mem b.start b.size = [] := by
          rw [entries, List.flatMap_eq_nil_iff] at he
          exact he b hb
        have h1 : b.size = 0 := (h.es_nil hi).mp h0
        simp [h1]
      simp only [this]

theorem step_undefined {s : State E} (dflt : E) (hg : getMax c s = none) (op : PQOp E) (hn : op.needsTop) :
    step c dflt s op = none := by
  cases op with
  | push e => exact hn.elim
  | pushRange l => exact hn.elim
  | top => simp [step, top, hg]
  | pop => simp [step, pop, hg]
  | decreaseTop e => simp [step, decreaseTop, pop, hg]
  | clear => exact hn.elim

/-- The state after the constructor. -/
theorem init_sim (hs : Sane c) (dflt : E) : Sim c (impl c dflt).init (Geobucket.impl c).init := by
  obtain ⟨t, k1, _⟩ := Geobucket.mk_spec hs (fun _ => (0 : ℕ))
  obtain ⟨s, h1, h2⟩ := mk_sim hs dflt t k1
  have e1 : (impl c dflt).init = s := by simp [impl, h1]
  have e2 : (Geobucket.impl c).init = t := by simp [Geobucket.impl, k1]
  rw [e1, e2]
  exact h2

theorem run_sim (hs : Sane c) (dflt : E) : ∀ (ops : List (PQOp E)) (s : State E) (t : Geobucket.State E), Sim c s t →
    SimR (fun r r' => r.1 = r'.1 ∧ Sim c r.2 r'.2) ((impl c dflt).run s ops) ((Geobucket.impl c).run t ops) := by
  intro ops
  induction ops with
  | nil => intro s t h; exact SimR.ret ⟨rfl, h⟩
  | cons op ops ih =>
    intro s t h r hr
    simp only [PQImpl.run] at hr ⊢
    split at hr
    · cases hr
    · rename_i o t1 h1
      split at hr
      · cases hr
      · rename_i os t2 h2
        cases hr
        obtain ⟨⟨o', s1⟩, k1, k2, k3⟩ := step_sim hs dflt h op _ h1
        obtain ⟨⟨os', s2⟩, m1, m2, m3⟩ := ih s1 t1 k3 _ h2
        have k1 : (impl c dflt).step s op = some (o', s1) := k1
        rw [k1]
        simp only [m1]
        have k2 : o' = o := k2
        have m2 : os' = os := m2
        subst k2 m2
        exact ⟨_, rfl, rfl, m3⟩

theorem run_none (hs : Sane c) (hc : c.Lawful) (dflt : E) : ∀ (ops : List (PQOp E)) (s : State E), Ok c s →
    Geobucket.Inv c (fun _ => (0 : ℕ)) (wsum (fun _ => 0) (Geobucket.flat s.view.buckets)) s.view →
    (∀ op ∈ ops, Allowed c op) → (Geobucket.impl c).run s.view ops = none → (impl c dflt).run s ops = none := by
  intro ops
  induction ops with
  | nil => intro s _ _ _ h; cases h
  | cons op ops ih =>
    intro s h hinv ha hr
    simp only [PQImpl.run] at hr ⊢
    by_cases hne : op.needsTop → Geobucket.flat s.view.buckets ≠ []
    · obtain ⟨o, t, k1, k2, _, _⟩ := Geobucket.step_ok hs hc (fun _ _ _ _ => rfl) hinv op (ha op List.mem_cons_self) hne
      obtain ⟨⟨o', s'⟩, m1, m2, m3, m4⟩ := step_sim hs dflt h.sim op _ k1
      have m3 : s'.view = t := m3
      subst m3
      have k1 : (Geobucket.impl c).step s.view op = some (o, s'.view) := k1
      have m1 : (impl c dflt).step s op = some (o', s') := m1
      rw [k1] at hr
      rw [m1]
      simp only at hr ⊢
      cases hr' : (Geobucket.impl c).run s'.view ops with
      | none =>
        rw [ih s' m4 k2 (fun op hop => ha op (List.mem_cons_of_mem _ hop)) hr']
      | some r =>
        rw [hr'] at hr
        cases hr
    · push Not at hne
      obtain ⟨hn, he⟩ := hne
      have : (impl c dflt).step s op = none := by
        refine step_undefined dflt (getMax_none h ?_ ?_) op hn
        · exact Geobucket.getMax_none hinv.good.front hinv.cache he
        · rw [entries_eq]
          exact he
      rw [this]

/-- A history of allowed calls is defined with the memory if and only if it is without. -/
theorem run_none_iff (hs : Sane c) (hc : c.Lawful) (dflt : E) (ops : List (PQOp E)) (ha : ∀ op ∈ ops, Allowed c op) :
    (impl c dflt).run (impl c dflt).init ops = none ↔ (Geobucket.impl c).run (Geobucket.impl c).init ops = none := by
  have hi := init_sim hs dflt
  constructor
  · intro h
    by_contra hne
    obtain ⟨r, hr⟩ := Option.ne_none_iff_exists'.mp hne
    obtain ⟨r', k1, _⟩ := run_sim hs dflt ops _ _ hi _ hr
    rw [h] at k1
    cases k1
  · intro h
    rw [← hi.1] at h
    refine run_none hs hc dflt ops _ hi.2 ?_ ha h
    rw [hi.1]
    exact (Geobucket.init_ok hs _).1

theorem run_same (c : Conf E) (hs : Sane c) (hc : c.Lawful) (dflt : E) (ops : List (PQOp E))
    (outs : List (Option E)) (s : State E) (ha : ∀ op ∈ ops, Allowed c op)
    (h : (impl c dflt).run (impl c dflt).init ops = some (outs, s)) :
    (Geobucket.impl c).run (Geobucket.impl c).init ops = some (outs, s.view) ∧
      (impl c dflt).entries s = (Geobucket.impl c).entries s.view := by
  refine ⟨?_, entries_eq s⟩
  cases hr : (Geobucket.impl c).run (Geobucket.impl c).init ops with
  | none =>
    rw [(run_none_iff hs hc dflt ops ha).mpr hr] at h
    cases h
  | some r =>
    obtain ⟨r', k1, k2, k3⟩ := run_sim hs dflt ops _ _ (init_sim hs dflt) _ hr
    rw [h] at k1
    cases k1
    obtain ⟨outs', t⟩ := r
    have e1 : outs = outs' := k2
    have e2 : s.view = t := k3.1
    rw [e1, ← e2]
    rfl

theorem run_ok (c : Conf E) (hs : Sane c) (hc : c.Lawful) (dflt : E) (ops : List (PQOp E))
    (outs : List (Option E)) (s : State E) (ha : ∀ op ∈ ops, Allowed c op)
    (h : (impl c dflt).run (impl c dflt).init ops = some (outs, s)) : Ok c s := by
  have k := (run_same c hs hc dflt ops outs s ha h).1
  obtain ⟨⟨_, s'⟩, k1, _, k3⟩ := run_sim hs dflt ops _ _ (init_sim hs dflt) _ k
  rw [h] at k1
  cases k1
  exact k3.2

end Verif.GeoMem
