import Verif.SimVerdictSpec
import Verif.PropSimulator

/-!
# Lemmas on the verdicts of simulations
-/

namespace Verif.PQSim.Sim

theorem runEvents_append (Q : Queue) (mem : List ℕ) (es es' : List Event) : ∀ s : Q.State,
    runEvents Q mem (es ++ es') s =
      match runEvents Q mem es s with
      | none => none
      | some (.accuse v) => some (.accuse v)
      | some (.pass s') => runEvents Q mem es' s' := by
  induction es with
  | nil =>
    intro s
    rfl
  | cons e es ih =>
    intro s
    simp only [List.cons_append, runEvents]
    rcases hv : runEvent Q mem e s with _ | (s' | v)
    · rfl
    · exact ih s'
    · rfl

theorem run_eq (Q : Queue) (sim : Simulation) (n : ℕ) : ∀ s : Q.State,
    run Q sim n s = runEvents Q sim.mem (List.replicate n sim.events).flatten s := by
  induction n with
  | zero =>
    intro s
    rfl
  | succ n ih =>
    intro s
    rw [List.replicate_succ, List.flatten_cons, runEvents_append, run]
    rcases hv : runEvents Q sim.mem sim.events s with _ | (s' | v)
    · rfl
    · exact ih s'
    · rfl

theorem calls_eq (sim : Simulation) (n : ℕ) :
    sim.calls n = (List.replicate n sim.events).flatten.map (opOf sim.mem) := by
  rw [List.map_flatten, List.map_replicate]
  rfl

theorem queue_run_append (Q : Queue) (a b : List SimOp) : ∀ s : Q.State,
    Q.run s (a ++ b) = (Q.run s a).bind (fun r => (Q.run r.2 b).map (fun q => (r.1 ++ q.1, q.2))) := by
  induction a with
  | nil =>
    intro s
    simp [Queue.run]
  | cons op a ih =>
    intro s
    simp only [List.cons_append, Queue.run]
    cases Q.step s op with
    | none => rfl
    | some r =>
      obtain ⟨o, s'⟩ := r
      simp only [ih s']
      cases Q.run s' a with
      | none => rfl
      | some q =>
        simp only [Option.bind_some, Option.map_some, Option.map_map]
        cases Q.run q.2 b <;> rfl

theorem queue_run_length (Q : Queue) (a : List SimOp) : ∀ (s s' : Q.State) (outs : List (Option ℕ)),
    Q.run s a = some (outs, s') → outs.length = a.length := by
  induction a with
  | nil =>
    intro s s' outs h
    cases h
    rfl
  | cons op a ih =>
    intro s s' outs h
    simp only [Queue.run] at h
    cases hs : Q.step s op with
    | none =>
      rw [hs] at h
      cases h
    | some r =>
      rw [hs] at h
      obtain ⟨q, hq, he⟩ := Option.map_eq_some_iff.1 h
      cases he
      simp [ih _ _ _ hq]

theorem spec_run_length (a : List SimOp) : ∀ (S S' : Finset ℕ) (outs : List (Option ℕ)),
    Spec.run S a = some (outs, S') → outs.length = a.length := by
  induction a with
  | nil =>
    intro s s' outs h
    cases h
    rfl
  | cons op a ih =>
    intro s s' outs h
    simp only [Spec.run] at h
    cases hs : Spec.step s op with
    | none =>
      rw [hs] at h
      cases h
    | some r =>
      rw [hs] at h
      obtain ⟨q, hq, he⟩ := Option.map_eq_some_iff.1 h
      cases he
      simp [ih _ _ _ hq]

/-- What the events did. -/
inductive Done (Q : Queue) (mem : List ℕ) (es : List Event) (s : Q.State) : Option (Verdict Q.State) → Prop
  | pass (s' : Q.State) (h : Q.run s (es.map (opOf mem)) = some (es.map expected, s')) : Done Q mem es s (some (.pass s'))
  | accuse (es₁ : List Event) (e : Event) (es₂ : List Event) (s₁ s₂ : Q.State) (v w : ℕ) (he : es = es₁ ++ e :: es₂)
      (h : Q.run s (es₁.map (opOf mem)) = some (es₁.map expected, s₁)) (hz : opOf mem e = .pop) (hw : expected e = some w)
      (hp : Q.pop s₁ = some (v, s₂)) (hne : v ≠ w) : Done Q mem es s (some (.accuse v))
  | undefined (es₁ : List Event) (e : Event) (es₂ : List Event) (s₁ : Q.State) (he : es = es₁ ++ e :: es₂)
      (h : Q.run s (es₁.map (opOf mem)) = some (es₁.map expected, s₁)) (hp : Q.step s₁ (opOf mem e) = none) :
      Done Q mem es s none

theorem done_cons {Q : Queue} {mem : List ℕ} {e : Event} {es : List Event} {s s' : Q.State}
    {r : Option (Verdict Q.State)} (h : Q.step s (opOf mem e) = some (expected e, s')) (hd : Done Q mem es s' r) :
    Done Q mem (e :: es) s r := by
  have hc : ∀ (l : List Event) (s'' : Q.State), Q.run s' (l.map (opOf mem)) = some (l.map expected, s'') →
      Q.run s ((e :: l).map (opOf mem)) = some ((e :: l).map expected, s'') := by
    intro l s'' hl
    rw [List.map_cons, Queue.run, h]
    simp only [hl, Option.map_some, List.map_cons]
  cases hd with
  | pass s'' h' => exact .pass _ (hc _ _ h')
  | accuse es₁ e' es₂ s₁ s₂ v w he h' hz hw hp hne =>
    exact .accuse (e :: es₁) e' es₂ s₁ s₂ v w (by rw [he]; rfl) (hc _ _ h') hz hw hp hne
  | undefined es₁ e' es₂ s₁ he h' hp => exact .undefined (e :: es₁) e' es₂ s₁ (by rw [he]; rfl) (hc _ _ h') hp

theorem runEvents_done (Q : Queue) (mem : List ℕ) (es : List Event) : ∀ s : Q.State, (∀ e ∈ es, EventOk mem e) →
    Done Q mem es s (runEvents Q mem es s) := by
  induction es with
  | nil =>
    intro s _
    exact .pass s rfl
  | cons e es ih =>
    intro s hok
    have he := hok e (by simp)
    have hes := fun e he => hok e (List.mem_cons_of_mem _ he)
    unfold EventOk at he
    by_cases hz : e.size = 0
    · rw [if_pos hz] at he
      obtain ⟨w, hw⟩ := Option.isSome_iff_exists.1 he
      have hop : opOf mem e = .pop := by
        unfold opOf
        rw [if_pos hz]
      have hex : expected e = some w := by
        unfold expected
        rw [if_pos hz, hw]
      rcases hp : Q.pop s with _ | ⟨v, s'⟩
      · have hr : runEvents Q mem (e :: es) s = none := by
          simp only [runEvents, runEvent, if_pos hz, hp]
        rw [hr]
        exact .undefined [] e es s rfl rfl (by rw [hop]; simp only [Queue.step, hp, Option.map_none])
      · by_cases hvw : v = w
        · have hr : runEvents Q mem (e :: es) s = runEvents Q mem es s' := by
            simp only [runEvents, runEvent, if_pos hz, hp, hw, if_pos hvw]
          rw [hr]
          refine done_cons ?_ (ih s' hes)
          rw [hop, hex]
          simp only [Queue.step, hp, Option.map_some, hvw]
        · have hr : runEvents Q mem (e :: es) s = some (.accuse v) := by
            simp only [runEvents, runEvent, if_pos hz, hp, hw, if_neg hvw]
          rw [hr]
          exact .accuse [] e es s s' v w rfl rfl hop hex hp hvw
    · rw [if_neg hz] at he
      obtain ⟨b, hb, hle⟩ := he
      have hop : opOf mem e = .push ((mem.drop b).take e.size) := by
        unfold opOf
        rw [if_neg hz, hb]
        rfl
      have hex : expected e = none := by
        unfold expected
        rw [if_neg hz]
      rcases hp : Q.push s ((mem.drop b).take e.size) with _ | s'
      · have hr : runEvents Q mem (e :: es) s = none := by
          simp only [runEvents, runEvent, if_neg hz, hb, if_pos hle, hp, Option.map_none]
        rw [hr]
        exact .undefined [] e es s rfl rfl (by rw [hop]; simp only [Queue.step, hp, Option.map_none])
      · have hr : runEvents Q mem (e :: es) s = runEvents Q mem es s' := by
          simp only [runEvents, runEvent, if_neg hz, hb, if_pos hle, hp, Option.map_some]
        rw [hr]
        refine done_cons ?_ (ih s' hes)
        rw [hop, hex]
        simp only [Queue.step, hp, Option.map_some]

/-- What a set returns on the calls before one of them, and at it. -/
theorem spec_split {mem : List ℕ} {es₁ es₂ : List Event} {e : Event} {S S' : Finset ℕ}
    (h : Spec.run S ((es₁ ++ e :: es₂).map (opOf mem)) = some ((es₁ ++ e :: es₂).map expected, S')) :
    ∃ T T', Spec.run S (es₁.map (opOf mem)) = some (es₁.map expected, T) ∧ Spec.step T (opOf mem e) = some (expected e, T') := by
  rw [List.map_append, Spec.run_append] at h
  obtain ⟨⟨o, T⟩, h1, h2⟩ := Option.bind_eq_some_iff.1 h
  obtain ⟨⟨o', T'⟩, h3, h4⟩ := Option.map_eq_some_iff.1 h2
  simp only [Prod.mk.injEq, List.map_append] at h4
  have hl : o.length = (es₁.map expected).length := by
    rw [spec_run_length _ _ _ _ h1, List.length_map, List.length_map]
  obtain ⟨h5, h6⟩ := List.append_inj h4.1 hl
  subst h5
  rw [List.map_cons, Spec.run] at h3
  rcases hs : Spec.step T (opOf mem e) with _ | ⟨o'', T''⟩
  · rw [hs] at h3
    cases h3
  · rw [hs] at h3
    obtain ⟨q, hq, he⟩ := Option.map_eq_some_iff.1 h3
    cases he
    rw [List.map_cons, List.cons.injEq] at h6
    exact ⟨T, T'', h1, by rw [hs, h6.1]⟩

/-- The state of a queue after some calls is determined. -/
theorem asSet_unique {Q : Queue} {ops : List SimOp} {s s' : Q.State} {S S' : Finset ℕ} (h : AsSet Q ops s S)
    (h' : AsSet Q ops s' S') : s = s' ∧ S = S' := by
  obtain ⟨o, h1, h2⟩ := h
  obtain ⟨o', h3, h4⟩ := h'
  rw [h1] at h3
  rw [h2] at h4
  cases h3
  cases h4
  exact ⟨rfl, rfl⟩

/-- A queue that is as a set on some calls is so on the first ones of them. -/
theorem asSet_prefix {Q : Queue} {ops ops' : List SimOp} {s : Q.State} {S : Finset ℕ} (h : AsSet Q (ops ++ ops') s S) :
    ∃ s₁ S₁ o, AsSet Q ops s₁ S₁ ∧ Q.run s₁ ops' = some (o, s) ∧ Spec.run S₁ ops' = some (o, S) := by
  obtain ⟨outs, h1, h2⟩ := h
  rw [queue_run_append] at h1
  rw [Spec.run_append] at h2
  obtain ⟨⟨o, s₁⟩, a1, a2⟩ := Option.bind_eq_some_iff.1 h1
  obtain ⟨⟨o', s'⟩, a3, a4⟩ := Option.map_eq_some_iff.1 a2
  obtain ⟨⟨u, S₁⟩, b1, b2⟩ := Option.bind_eq_some_iff.1 h2
  obtain ⟨⟨u', S'⟩, b3, b4⟩ := Option.map_eq_some_iff.1 b2
  simp only [Prod.mk.injEq] at a4 b4
  have hl : o.length = u.length := by
    rw [queue_run_length _ _ _ _ _ a1, spec_run_length _ _ _ _ b1]
  obtain ⟨h5, h6⟩ := List.append_inj (a4.1.trans b4.1.symm) hl
  subst h5 h6
  obtain ⟨-, rfl⟩ := a4
  obtain ⟨-, rfl⟩ := b4
  exact ⟨s₁, S₁, o', ⟨o, a1, b1⟩, a3, b3⟩

/-- A call at which a queue does not do what a set does. -/
def Fails (Q : Queue) (s : Q.State) (S : Finset ℕ) (op : SimOp) : Prop :=
  ∀ o s' S', Q.step s op = some (o, s') → Spec.step S op = some (o, S') → False

/-- There is only one first call at which a queue fails. -/
theorem fails_unique {Q : Queue} {ops : List SimOp} : ∀ {ops₁ ops₂ : List SimOp} {op : SimOp} {s s' : Q.State}
    {S S' : Finset ℕ}, AsSet Q ops s S → AsSet Q (ops ++ op :: ops₁ ++ ops₂) s' S' → Fails Q s S op → False := by
  intro ops₁ ops₂ op s s' S S' h h' hf
  rw [List.append_assoc] at h'
  obtain ⟨s₁, S₁, o, a1, a2, a3⟩ := asSet_prefix h'
  obtain ⟨rfl, rfl⟩ := asSet_unique h a1
  rw [List.cons_append, Queue.run] at a2
  rw [List.cons_append, Spec.run] at a3
  rcases hs : Q.step s op with _ | ⟨x, s₂⟩
  · rw [hs] at a2
    cases a2
  · rcases ht : Spec.step S op with _ | ⟨y, S₂⟩
    · rw [ht] at a3
      cases a3
    · rw [hs] at a2
      rw [ht] at a3
      obtain ⟨q, -, hq⟩ := Option.map_eq_some_iff.1 a2
      obtain ⟨q', -, hq'⟩ := Option.map_eq_some_iff.1 a3
      cases hq
      simp only [Prod.mk.injEq, List.cons.injEq] at hq'
      exact hf x s₂ S₂ hs (by rw [ht, hq'.1.1])

/-- Two first calls at which a queue fails are the same. -/
theorem first_unique {Q : Queue} {l a a' b b' : List SimOp} {x y : SimOp} {s t : Q.State} {S U : Finset ℕ}
    (h1 : l = a ++ x :: a') (h2 : l = b ++ y :: b') (hs : AsSet Q a s S) (ht : AsSet Q b t U) (fx : Fails Q s S x)
    (fy : Fails Q t U y) : a = b ∧ x = y ∧ s = t ∧ S = U := by
  rcases List.append_eq_append_iff.1 (h1.symm.trans h2) with ⟨d, e1, e2⟩ | ⟨d, e1, e2⟩
  · cases d with
    | nil =>
      rw [List.append_nil] at e1
      subst e1
      rw [List.nil_append, List.cons.injEq] at e2
      exact ⟨rfl, e2.1, asSet_unique hs ht⟩
    | cons z d =>
      rw [List.cons_append, List.cons.injEq] at e2
      obtain ⟨rfl, -⟩ := e2
      exact (fails_unique (ops₁ := d) (ops₂ := []) hs (by rw [List.append_nil, ← e1]; exact ht) fx).elim
  · cases d with
    | nil =>
      rw [List.append_nil] at e1
      subst e1
      rw [List.nil_append, List.cons.injEq] at e2
      exact ⟨rfl, e2.1.symm, asSet_unique hs ht⟩
    | cons z d =>
      rw [List.cons_append, List.cons.injEq] at e2
      obtain ⟨rfl, -⟩ := e2
      exact (fails_unique (ops₁ := d) (ops₂ := []) ht (by rw [List.append_nil, ← e1]; exact hs) fy).elim

theorem fails_pop {Q : Queue} {s s' : Q.State} {S : Finset ℕ} {v : ℕ} (h : S.Nonempty) (hp : Q.pop s = some (v, s'))
    (hne : v ≠ S.max' h) : Fails Q s S .pop := by
  intro o t T h1 h2
  simp only [Queue.step, hp, Option.map_some, Option.some.injEq, Prod.mk.injEq] at h1
  simp only [Spec.step, dif_pos h, Option.some.injEq, Prod.mk.injEq] at h2
  rw [← h1.1] at h2
  exact hne (Option.some.inj h2.1).symm

theorem fails_none {Q : Queue} {s : Q.State} {S : Finset ℕ} {op : SimOp} (h : Q.step s op = none) : Fails Q s S op := by
  intro o t T h1
  rw [h] at h1
  cases h1

/-- A simulation that expects what a set returns tells the truth. -/
theorem telling_of {sim : Simulation} (hok : ∀ e ∈ sim.events, EventOk sim.mem e)
    (hrun : Spec.run ∅ (sim.events.map (opOf sim.mem)) = some (sim.events.map expected, ∅)) : sim.Telling := by
  have key : ∀ (Q : Queue) (n : ℕ),
      (∃ s S, run Q sim n Q.init = some (.pass s) ∧ AsSet Q (sim.calls n) s S) ∨
      (∃ (v : ℕ) (ops ops' : List SimOp) (s s' : Q.State) (S : Finset ℕ) (h : S.Nonempty),
        run Q sim n Q.init = some (.accuse v) ∧ sim.calls n = ops ++ .pop :: ops' ∧ AsSet Q ops s S ∧
          Q.pop s = some (v, s') ∧ v ≠ S.max' h) ∨
      (∃ (ops : List SimOp) (op : SimOp) (ops' : List SimOp) (s : Q.State) (S : Finset ℕ), run Q sim n Q.init = none ∧
        sim.calls n = ops ++ op :: ops' ∧ AsSet Q ops s S ∧ Q.step s op = none ∧ Spec.step S op ≠ none) := by
    intro Q n
    have hok' : ∀ e ∈ (List.replicate n sim.events).flatten, EventOk sim.mem e := by
      intro e he
      simp only [List.mem_flatten, List.mem_replicate] at he
      obtain ⟨l, ⟨_, rfl⟩, he⟩ := he
      exact hok e he
    have hr := spec_replicate hrun n
    have hr' : Spec.run ∅ ((List.replicate n sim.events).flatten.map (opOf sim.mem)) =
        some ((List.replicate n sim.events).flatten.map expected, ∅) := by
      rw [List.map_flatten, List.map_flatten, List.map_replicate, List.map_replicate, hr]
    have hd := runEvents_done Q sim.mem _ Q.init hok'
    rw [← run_eq] at hd
    rw [calls_eq]
    generalize hg : run Q sim n Q.init = r at hd
    cases hd with
    | pass s h => exact .inl ⟨s, ∅, rfl, _, h, hr'⟩
    | accuse es₁ e es₂ s₁ s₂ v w he h hz hw hp hne =>
      rw [he] at hr'
      obtain ⟨T, T', b1, b2⟩ := spec_split hr'
      rw [hz, hw] at b2
      by_cases hT : T.Nonempty
      · refine .inr (.inl ⟨v, es₁.map (opOf sim.mem), es₂.map (opOf sim.mem), s₁, s₂, T, hT, rfl, ?_, ⟨_, h, b1⟩, hp, ?_⟩)
        · rw [he, List.map_append, List.map_cons, hz]
        · simp only [Spec.step, dif_pos hT, Option.some.injEq, Prod.mk.injEq] at b2
          rw [b2.1]
          exact hne
      · simp only [Spec.step, dif_neg hT] at b2
        cases b2
    | undefined es₁ e es₂ s₁ he h hp =>
      rw [he] at hr'
      obtain ⟨T, T', b1, b2⟩ := spec_split hr'
      refine .inr (.inr ⟨es₁.map (opOf sim.mem), opOf sim.mem e, es₂.map (opOf sim.mem), s₁, T, rfl, ?_, ⟨_, h, b1⟩, hp,
        ?_⟩)
      · rw [he, List.map_append, List.map_cons]
      · rw [b2]
        nofun
  have clash : ∀ {Q : Queue} {l a b : List SimOp} {x : SimOp} {s t : Q.State} {S U : Finset ℕ}, l = a ++ x :: b →
      AsSet Q a s S → Fails Q s S x → AsSet Q l t U → False := by
    intro Q l a b x s t S U hl h hf h'
    exact fails_unique (ops₁ := b) (ops₂ := []) h (by rw [List.append_nil, ← hl]; exact h') hf
  constructor
  · intro Q n s
    constructor
    · intro h
      rcases key Q n with ⟨s', S, a1, a2⟩ | ⟨v, ops, ops', s₁, s₂, S, hS, a1, -⟩ | ⟨_, _, _, _, _, a1, -⟩
      · rw [h] at a1
        cases a1
        exact ⟨S, a2⟩
      · rw [h] at a1
        cases a1
      · rw [h] at a1
        cases a1
    · rintro ⟨S, h⟩
      rcases key Q n with ⟨s', S, a1, a2⟩ | ⟨v, ops, ops', s₁, s₂, S, hS, a1, a2, a3, a4, a5⟩ |
        ⟨ops, op, ops', s₁, S, a1, a2, a3, a4, a5⟩
      · rw [a1, (asSet_unique h a2).1]
      · exact (clash a2 a3 (fails_pop hS a4 a5) h).elim
      · exact (clash a2 a3 (fails_none a4) h).elim
  · intro Q n v
    constructor
    · intro h
      rcases key Q n with ⟨s', S, a1, -⟩ | ⟨v', ops, ops', s₁, s₂, S, hS, a1, a2⟩ | ⟨_, _, _, _, _, a1, -⟩
      · rw [h] at a1
        cases a1
      · rw [h] at a1
        cases a1
        exact ⟨ops, ops', s₁, s₂, S, hS, a2⟩
      · rw [h] at a1
        cases a1
    · rintro ⟨ops, ops', s, s', S, hS, b1, b2, b3, b4⟩
      rcases key Q n with ⟨t, U, a1, a2⟩ | ⟨v', o, o', s₁, s₂, U, hU, a1, a2, a3, a4, a5⟩ |
        ⟨o, op, o', s₁, U, a1, a2, a3, a4, a5⟩
      · exact (clash b1 b2 (fails_pop hS b3 b4) a2).elim
      · obtain ⟨-, -, rfl, rfl⟩ := first_unique b1 a2 b2 a3 (fails_pop hS b3 b4) (fails_pop hU a4 a5)
        rw [b3] at a4
        cases a4
        exact a1
      · obtain ⟨-, rfl, rfl, rfl⟩ := first_unique b1 a2 b2 a3 (fails_pop hS b3 b4) (fails_none a4)
        simp only [Queue.step, b3, Option.map_some] at a4
        cases a4
  · intro Q n
    constructor
    · intro h
      rcases key Q n with ⟨s', S, a1, -⟩ | ⟨v', ops, ops', s₁, s₂, S, hS, a1, a2⟩ | ⟨o, op, o', s₁, U, a1, a2⟩
      · rw [h] at a1
        cases a1
      · rw [h] at a1
        cases a1
      · exact ⟨o, op, o', s₁, U, a2⟩
    · rintro ⟨ops, op, ops', s, S, b1, b2, b3, b4⟩
      rcases key Q n with ⟨t, U, a1, a2⟩ | ⟨v', o, o', s₁, s₂, U, hU, a1, a2, a3, a4, a5⟩ |
        ⟨o, op, o', s₁, U, a1, a2, a3, a4, a5⟩
      · exact (clash b1 b2 (fails_none b3) a2).elim
      · obtain ⟨-, rfl, rfl, rfl⟩ := first_unique b1 a2 b2 a3 (fails_none b3) (fails_pop hU a4 a5)
        simp only [Queue.step, a4, Option.map_some] at b3
        cases b3
      · exact a1

end Verif.PQSim.Sim
