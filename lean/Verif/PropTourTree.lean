import Verif.TourTreeProofs
import Verif.PropHeap

/-!
# Properties of `mathic::TourTree`: C06, C07
-/

namespace Verif.TourTree

variable {E : Type} {M : Type*} [AddCommMonoid M]

/-- Each call keeps the tournament won by the larger entries and does what the specification asks
for. -/
theorem tourTree_inv (c : PQConf E) (hc : StrictWeak c.lt) (w : E → M) :
    (impl c).InvCorrect (Inv c) (fun x l => x ∈ l) (fun _ => True) c.lt w := by
  refine ⟨?_, ?_, ?_, ?_, ?_, ?_⟩
  · exact ⟨shape_init, fun i h1 h2 => by simp [impl, init, reallocate] at h2⟩
  · rfl
  · intro s hs
    show (s.tree.length == 0) = true ↔ entries s = []
    rw [beq_iff_eq]
    exact nonempty_tree hs.toShape
  · intro s _
    exact (entries_length s).symm
  · intro s op hs hn he
    have h0 : s.tree.length = 0 := (nonempty_tree hs.toShape).mpr he
    have h1 : rd s.tree 1 = none := by
      cases h : rd s.tree 1 with
      | none => rfl
      | some p => have := rd_bounds h; omega
    cases op with
    | push e => exact hn.elim
    | pushRange l => exact hn.elim
    | top => simp [impl, step, top, h1]
    | pop => simp [impl, step, pop, h1]
    | decreaseTop e => simp [impl, step, decreaseTop, h1]
    | clear => exact hn.elim
  · intro s op hs _ hne
    have hmax : ∀ x, top s = some x → IsMax c.lt x (entries s) := by
      intro x hx
      have hent : entAt s.players s.tree 1 = some x := by
        unfold top at hx
        cases hr : rd s.tree 1 with
        | none => simp [hr] at hx
        | some p =>
          cases hq : s.players[p]? with
          | none => simp [hr, hq] at hx
          | some q =>
            simp [hr, hq] at hx
            rw [entAt_of hr hq, hx]
      refine ⟨?_, ?_⟩
      · unfold entAt at hent
        cases hr : rd s.tree 1 with
        | none => simp [hr] at hent
        | some p =>
          rw [hr, Option.bind_some, ← List.getElem?_map] at hent
          exact List.mem_of_getElem? hent
      · intro y hy
        obtain ⟨q, hq, rfl⟩ := List.mem_map.mp hy
        obtain ⟨p, hp⟩ := List.mem_iff_getElem?.mp hq
        have hlr := leaf_range hs.toShape hp
        exact root_max hc hs hent q.2 (by omega) q.1 (entAt_of (hs.leafTree p q hp) hp)
    cases op with
    | push e =>
      obtain ⟨s', h1, _, h3, h4⟩ := push_spec c hs.toShape e
      refine ⟨none, s', by simp [impl, step, h1], h4 hc hs, .push ?_, trivial⟩
      show wsum w (entries s') = wsum w (entries s) + w e
      simp [h3]
    | pushRange l =>
      obtain ⟨s', h1, _, h3, h4⟩ := pushRange_spec c l hs.toShape
      refine ⟨none, s', by simp [impl, step, h1], h4 hc hs, .pushRange ?_, trivial⟩
      show wsum w (entries s') = wsum w (entries s) + wsum w l
      simp [h3]
    | top =>
      obtain ⟨x, _, h0, _⟩ := pop_spec c hs.toShape (hne trivial)
      exact ⟨some x, s, by simp [impl, step, h0], hs, .top (hmax x h0) rfl (hmax x h0).1, h0.symm⟩
    | pop =>
      obtain ⟨x, s', h0, h1, _, h3, h4⟩ := pop_spec c hs.toShape (hne trivial)
      refine ⟨some x, s', by simp [impl, step, h1], h4 hc hs, .pop (hmax x h0) ?_, h0.symm⟩
      show wsum w (entries s') + w x = wsum w (entries s)
      rw [← wsum_perm w h3, wsum_cons, add_comm]
    | decreaseTop e =>
      obtain ⟨x, s', h0, h1, _, ⟨i, hi, h3⟩, h4⟩ := decreaseTop_spec c hs.toShape (hne trivial) e
      have hsum : wsum w (entries s') + w x = wsum w (entries s) + w e := by
        obtain ⟨hil, rfl⟩ := List.getElem?_eq_some_iff.mp hi
        rw [h3]
        exact wsum_set w (entries s) i e hil
      exact ⟨none, s', by simp [impl, step, h1], h4 hc hs, .decreaseTop (hmax x h0) hsum, x, h0, hmax x h0,
        hsum⟩
    | clear =>
      refine ⟨none, clear s, rfl, ?_, .clear, trivial⟩
      exact ⟨⟨rfl, rfl, fun p q h => by simp [clear] at h, fun i _ h => by simp [clear] at h,
        Nat.zero_le _, hs.capPos, hs.pcap⟩, fun i _ h => by simp [clear] at h⟩

/-- C06: on every history of calls the tournament tree is a max priority queue, for any weight. -/
theorem tourTree_correct (c : PQConf E) (hc : StrictWeak c.lt) (w : E → M) :
    (impl c).Correct (fun _ => True) c.lt w :=
  (tourTree_inv c hc w).correct

/-- C06: the entries held are, as a multiset, exactly those pushed and not popped or replaced. -/
theorem tourTree_multiset (c : PQConf E) (hc : StrictWeak c.lt) :
    (impl c).Correct (fun _ => True) c.lt (fun e => ({e} : Multiset E)) :=
  tourTree_correct c hc _

/-- C07: in every state reached with any comparison (even an inconsistent one), `pop` with any
comparison returns and removes exactly one occurrence `x`, and all that it learns from `compare` is about
pairs of the entries that stay: with any other comparison that agrees on those pairs, however it
compares `x`, the result is the same. -/
theorem pop_ignores_removed (c₀ c : PQConf E) (ops : List (PQOp E)) (outs : List (Option E))
    (s : State E) (hrun : (impl c₀).run init ops = some (outs, s)) (hne : entries s ≠ []) :
    ∃ x s', pop c s = some (x, s') ∧ (x :: entries s').Perm (entries s) ∧
      ∀ c' : PQConf E, (∀ a ∈ entries s', ∀ b ∈ entries s', c.lt a b = c'.lt a b) →
        pop c' s = some (x, s') := by
  have hs := shape_run c₀ ops _ outs s shape_init hrun
  obtain ⟨x, s', _, h1, _, h3, _⟩ := pop_spec c hs hne
  exact ⟨x, s', h1, h3, fun c' hc' => pop_congr c c' s s' x h1 hc'⟩

/-! Concrete cases. -/

/-- The hypothesis of `tourTree_multiset` is met by terms ordered by exponent. -/
example : (impl (Heap.termConf false)).Correct (fun _ => True) (Heap.termConf false).lt
    (fun e => ({e} : Multiset (ℕ × ℕ))) :=
  tourTree_multiset _ (Heap.termConf_lawful false).weak

/-- The hypotheses of `pop_ignores_removed` are met: three pushes, then a tree with entries. -/
example : ∃ outs s, (impl (Heap.termConf false)).run init [.push (1, 0), .push (5, 1), .push (3, 2)] =
    some (outs, s) ∧ entries s ≠ [] := by
  obtain ⟨s1, h1, h2, h3, _⟩ := push_spec (Heap.termConf false) shape_init (1, 0)
  obtain ⟨s2, g1, g2, g3, _⟩ := push_spec (Heap.termConf false) h2 (5, 1)
  obtain ⟨s3, f1, f2, f3, _⟩ := push_spec (Heap.termConf false) g2 (3, 2)
  refine ⟨[none, none, none], s3, ?_, by rw [f3]; simp⟩
  simp [PQImpl.run, impl, step, h1, g1, f1]

#guard ((impl (Heap.termConf false)).run init [.push (1, 0), .push (5, 1), .push (3, 2),
    .push (4, 0), .pop, .pushRange [(2, 0), (9, 9), (4, 7)], .decreaseTop (0, 0), .pop, .pop, .pop, .pop,
    .pop, .pop]).map (fun r => (r.1.flatMap Option.toList).map Prod.fst)
  == some [5, 4, 4, 3, 2, 1, 0]

end Verif.TourTree
