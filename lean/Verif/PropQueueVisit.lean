import Verif.QueueVisitProofs
import Verif.PropTourTree
import Verif.PropGeoAssert

/-!
# C96: `forAll` of the priority queues
-/

namespace Verif.Visit

open Verif.ComTree Dbg

variable {E : Type}

/-- C96: what a visitor is shown is determined by the entries and its answers. -/
theorem shown_unique {l : List E} {ask : List E → Ans} {got got' : List E} {a a' : Ans}
    (h : Shown l ask got a) (h' : Shown l ask got' a') : got = got' ∧ a = a' := by
  obtain ⟨h1, h2, h3, h4⟩ := h
  obtain ⟨k1, k2, k3, k4⟩ := h'
  have hgot : got = got' := by
    rcases List.prefix_or_prefix_of_prefix h1 k1 with hp | hp
    · by_contra hne
      by_cases ha : a = .go
      · have := (h3 ha).1
        subst this
        exact hne (hp.eq_of_length_le k1.length_le)
      · obtain ⟨g1, g2⟩ := h4 ha
        exact ha (g2 ▸ k2 got hp g1 hne)
    · by_contra hne
      by_cases ha : a' = .go
      · have := (k3 ha).1
        subst this
        exact hne (h1.eq_of_length_le hp.length_le)
      · obtain ⟨g1, g2⟩ := k4 ha
        exact ha (g2 ▸ h2 got' hp g1 (fun e => hne e.symm))
  subst hgot
  refine ⟨rfl, ?_⟩
  by_cases ha : a = .go
  · by_cases ha' : a' = .go
    · rw [ha, ha']
    · obtain ⟨g1, g2⟩ := k4 ha'
      rw [ha, ← g2, (h3 ha).2 g1]
  · obtain ⟨g1, g2⟩ := h4 ha
    by_cases ha' : a' = .go
    · rw [ha', ← g2, (k3 ha').2 g1]
    · rw [← g2, (k4 ha').2]

/-- C96, heap: for both kinds of nodes and every heap that fits the address space, also an empty one, `forAll`
ends after at most one round for each entry and one more, reads no cell but those of entries, and shows the
entries up to the first at which the visitor does not go on. -/
theorem heap_forAll (k : NodeConf) (hk : k.Ok) (t : List E) (last : Node) (hl : Reps k t.length last)
    (hov : (t.length + 1) * k.unit.toNat < 2 ^ 64) (ask : List E → Ans) (rounds : ℕ) (hr : t.length < rounds) :
    ∃ got a, heapForAll k t last ask rounds = some (got, a) ∧ Shown t ask got a := by
  have hroot : Reps k (0 + 1) k.root := node_root k
  refine ⟨_, _, heapLoop_eq hk hov (node_next k _ _ hl hov) rounds 0 k.root [] hroot (Nat.zero_le _) (by omega), ?_⟩
  rw [List.drop_zero]
  exact walk_nil_shown ask t

/-- C96, heap, for histories of pushes and pops without deduplication: a visitor that always goes on is shown
exactly what has been pushed and not popped, each entry as often as it is held. -/
theorem heap_forAll_conservation (c : PQConf E) (hc : c.Lawful) (hd : c.supportDedup = false)
    (ops : List (PQOp E)) (outs : List (Option E)) (t : List E)
    (h : (Heap.impl c).run [] ops = some (outs, t))
    (hops : ∀ op ∈ ops, op ≠ .clear ∧ op ≠ .top ∧ ∀ e, op ≠ .decreaseTop e)
    (k : NodeConf) (hk : k.Ok) (last : Node) (hl : Reps k t.length last)
    (hov : (t.length + 1) * k.unit.toNat < 2 ^ 64) :
    ∃ got, heapForAll k t last (fun _ => .go) (t.length + 1) = some (got, .go) ∧
      (ops.flatMap PQOp.pushed).Perm (outs.flatMap Option.toList ++ got) := by
  obtain ⟨got, a, h1, h2⟩ := heap_forAll k hk t last hl hov (fun _ => .go) (t.length + 1) (by omega)
  have ha : a = .go := by
    by_contra hne
    exact hne ((h2.2.2.2 hne).2.symm)
  subst ha
  rw [← (h2.2.2.1 rfl).1] at h
  exact ⟨got, h1, Heap.heap_conservation c hc hd ops outs got h hops⟩

/-- C96, tournament tree: `forAll` of a constant tree shows the entries held up to the first at which the visitor
does not go on. -/
theorem tourTree_forAll (s : TourTree.State E) (ask : List E → Ans) (rounds : ℕ)
    (hr : (TourTree.entries s).length < rounds) :
    ∃ got a, tourForAll s ask rounds = some (got, a) ∧ Shown (TourTree.entries s) ask got a := by
  rw [TourTree.entries_length] at hr
  refine ⟨_, _, tourLoop_eq rounds 0 [] (Nat.zero_le _) (by omega), ?_⟩
  rw [List.drop_zero]
  exact walk_nil_shown ask _

/-- C96, tournament tree that is not constant: after any history `forAll` shows the entries held up to the first
at which the visitor does not go on, and changes just those shown, to what the visitor leaves. If that lets no
entry become less than another that it was not less than, the tree is a max priority queue with the new
entries in all later histories. -/
theorem tourTree_forAll_edit {M : Type*} [AddCommMonoid M] (c : PQConf E) (hc : StrictWeak c.lt) (w : E → M)
    (ops : List (PQOp E)) (outs : List (Option E)) (s : TourTree.State E)
    (h : (TourTree.impl c).run TourTree.init ops = some (outs, s)) (ask : List E → Ans) (edit : List E → E)
    (rounds : ℕ) (hr : (TourTree.entries s).length < rounds) :
    ∃ s' got a, tourForAllMut s ask edit rounds = some (s', got, a) ∧ Shown (TourTree.entries s) ask got a ∧
      Edited (TourTree.entries s) edit got.length (TourTree.entries s') ∧
      (KeepsOrder c.lt (TourTree.entries s) (TourTree.entries s') →
        ∀ ops' outs' s'', (TourTree.impl c).run s' ops' = some (outs', s'') →
          PQTrace c.lt w (TourTree.entries s') ops' outs' (TourTree.entries s'') ∧
          ∀ op, (TourTree.impl c).step s'' op = none ↔ op.needsTop ∧ TourTree.entries s'' = []) := by
  have hinv := TourTree.tourTree_inv c hc w
  have hi : TourTree.Inv c s := (run_from hinv ops _ hinv.init (fun _ _ => trivial) outs s h).1
  rw [TourTree.entries_length] at hr
  have hlen : (s.players.map Prod.fst).length = s.players.length := List.length_map _
  obtain ⟨players, h1, h2, h3⟩ := tourLoopMut_eq (ask := ask) (edit := edit) (l := s.players.map Prod.fst) rounds 0
    s.players (Nat.zero_le _) (by omega) (edited_zero _ _).symm rfl
  rw [List.take_zero, List.drop_zero] at h1 h2
  rw [hlen] at h1
  refine ⟨{ s with players := players }, (walk ask (s.players.map Prod.fst) []).1,
    (walk ask (s.players.map Prod.fst) []).2, ?_, walk_nil_shown ask _, ?_, ?_⟩
  · rw [tourForAllMut, h1]
    rfl
  · show Edited _ _ _ (players.map Prod.fst)
    rw [h2]
    exact edited_spec edit _ _
  · intro hk ops' outs' s'' hrun
    obtain ⟨g1, g2⟩ := run_from hinv ops' _ (inv_edit hi h3 hk) (fun _ _ => trivial) outs' s'' hrun
    exact ⟨g2, fun op => step_none_iff hinv g1 trivial⟩

/-- C96, geobucket: `forAll` shows the entries held up to the first at which the visitor does not go on. -/
theorem geobucket_forAll (s : Geobucket.State E) (ask : List E → Ans) (rounds : ℕ)
    (hr : s.buckets.length + (Geobucket.entries s).length < rounds) :
    ∃ got a, geoForAll s ask rounds = some (got, a) ∧ Shown (Geobucket.entries s) ask got a := by
  have hb : ∀ b ∈ s.buckets, b.es.length < rounds := by
    intro b hb
    have : b.es.length ≤ (Geobucket.entries s).length := by
      rw [Geobucket.entries, List.flatMap]
      exact (List.sublist_flatten_of_mem (List.mem_map_of_mem hb)).length_le
    omega
  refine ⟨_, _, geoLoop_eq hb rounds 0 [] (Nat.zero_le _) (by omega), ?_⟩
  rw [List.drop_zero]
  exact walk_nil_shown ask _

/-- C96, geobucket: after every history of allowed calls a debug build does the same, whatever the visitor
answers. -/
theorem geobucket_forAll_assertions (c : Geobucket.Conf E) (hs : Geobucket.Sane c) (hc : c.Lawful)
    (ops : List (PQOp E)) (outs : List (Option E)) (s : Geobucket.State E)
    (ha : ∀ op ∈ ops, Geobucket.Allowed c op)
    (h : (Geobucket.impl c).run (Geobucket.impl c).init ops = some (outs, s)) (ask : List E → Ans) (rounds : ℕ) :
    geoForAllD c s ask rounds = lift (geoForAll s ask rounds) := by
  have hv := (Geobucket.geobucket_queries_assertions c hs hc ops outs s ha h).2.2.2
  rw [geoForAllD]
  cases geoForAll s ask rounds with
  | none => rfl
  | some r =>
    rw [lift_some, ok_bind]
    by_cases hr : r.2 = .threw
    · rw [if_pos hr]
    · rw [if_neg hr, hv, ok_bind]

/-! ## Concrete cases -/

/-- A visitor that looks for an entry with this exponent. -/
def seek (x : ℕ) (got : List (ℕ × ℕ)) : Ans := if (got.getLast?.map Prod.fst) = some x then .stop else .go

/-- The hypotheses of `heap_forAll` are met by an empty heap and by one with three entries, with nodes that are
byte offsets. -/
example : NodeConf.Ok ⟨true, 16⟩ ∧ Reps ⟨true, 16⟩ ([] : List (ℕ × ℕ)).length 0 ∧
    Reps ⟨true, 16⟩ [(5, 1), (1, 0), (3, 2)].length 48 := by
  refine ⟨fun _ => ⟨4, by omega, rfl⟩, ?_, ?_⟩ <;> simp [Reps]

#guard heapForAll ⟨true, 16⟩ [] 0 (seek 3) 1 == some ([], .go)
#guard heapForAll ⟨true, 16⟩ [(5, 1), (1, 0), (3, 2)] 48 (seek 1) 4 == some ([(5, 1), (1, 0)], .stop)
#guard heapForAll ⟨false, 12⟩ [(5, 1), (1, 0), (3, 2)] 3 (seek 7) 4 == some ([(5, 1), (1, 0), (3, 2)], .go)

/-- A visitor that adds up to two to the exponents it is shown keeps the order of entries far apart. -/
def bump (got : List (ℕ × ℕ)) : ℕ × ℕ :=
  match got.getLast? with
  | none => (0, 0)
  | some e => (e.1 + min got.length 2, e.2)

/-- The hypothesis on the order in `tourTree_forAll_edit` is met with entries that are changed. -/
example : KeepsOrder (Heap.termConf false).lt [(10, 0), (50, 1), (30, 2)] [(11, 0), (52, 1), (32, 2)] := by
  intro i j a b a' b' h1 h2 h3 h4 h5
  have hi : i < 3 := (List.getElem?_eq_some_iff.mp h1).1
  have hj : j < 3 := (List.getElem?_eq_some_iff.mp h2).1
  simp only [Heap.termConf, decide_eq_false_iff_not] at h5 ⊢
  rcases i with _ | _ | _ | i
  all_goals rcases j with _ | _ | _ | j
  all_goals first
    | omega
    | (cases h1; cases h2; cases h3; cases h4; revert h5; decide)

/-- A history, a visit that edits, and another history. -/
def visited (first : List (PQOp (ℕ × ℕ))) (ask : List (ℕ × ℕ) → Ans) (edit : List (ℕ × ℕ) → ℕ × ℕ)
    (then_ : List (PQOp (ℕ × ℕ))) : Option (List (ℕ × ℕ) × List (Option (ℕ × ℕ))) :=
  match (TourTree.impl (Heap.termConf false)).run TourTree.init first with
  | none => none
  | some (_, s) =>
    match tourForAllMut s ask edit 100 with
    | none => none
    | some (s', got, _) => ((TourTree.impl (Heap.termConf false)).run s' then_).map (fun r => (got, r.1))

#guard visited [.push (10, 0), .push (50, 1), .push (30, 2)] (fun _ => .go) bump [.pop, .pop, .pop] ==
  some ([(10, 0), (50, 1), (30, 2)], [some (52, 1), some (32, 2), some (11, 0)])

#guard visited [.push (10, 0), .push (50, 1), .push (30, 2)] (seek 50) bump [.pop, .pop, .pop] ==
  some ([(10, 0), (50, 1)], [some (52, 1), some (30, 2), some (11, 0)])

-- The hypothesis on the order is needed: the first entry becomes the largest, `pop` returns another one.
#guard visited [.push (10, 0), .push (50, 1), .push (30, 2)] (fun _ => .stop) (fun _ => (99, 0)) [.pop] ==
  some ([(10, 0)], [some (50, 1)])

/-- The hypotheses of `geobucket_forAll_assertions` are met. -/
example (ops : List (PQOp ℕ)) (outs : List (Option ℕ)) (s : Geobucket.State ℕ)
    (ha : ∀ op ∈ ops, Geobucket.Allowed (Geobucket.natConf true false) op)
    (h : (Geobucket.impl (Geobucket.natConf true false)).run (Geobucket.impl (Geobucket.natConf true false)).init ops
      = some (outs, s)) (rounds : ℕ) :
    geoForAllD (Geobucket.natConf true false) s (fun _ => .stop) rounds = lift (geoForAll s (fun _ => .stop) rounds) :=
  geobucket_forAll_assertions _ (Geobucket.natConf_sane _ _) (Geobucket.natConf_lawful _ _) ops outs s ha h _ _

end Verif.Visit
