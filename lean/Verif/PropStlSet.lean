import Verif.StlSetProofs
import Verif.PropHeap

/-!
# Properties of `mathic::StlSet`: C09
-/

namespace Verif.StlSet

variable {E M : Type*} [AddCommMonoid M]

/-- Each call keeps the set sorted and does what the specification asks for. -/
theorem stlSet_inv (c : PQConf E) (hc : StrictWeak c.lt) (w : E → M) :
    (impl c).InvCorrect (Descending c.lt) (fun x l => x ∈ l) allowed c.lt w := by
  refine ⟨?_, ?_, ?_, ?_, ?_, ?_⟩
  · exact List.Pairwise.nil
  · rfl
  · intro s _
    exact List.isEmpty_iff
  · intro s _
    rfl
  · intro s op _ hn he
    have he : s = [] := he
    subst he
    cases op with
    | push e => exact hn.elim
    | pushRange l => exact hn.elim
    | top => rfl
    | pop => rfl
    | decreaseTop e => rfl
    | clear => exact hn.elim
  · intro s op hs hal hne
    have hpush : ∀ (s : List E) e, Descending c.lt s →
        Descending c.lt (push c s e) ∧ wsum w (push c s e) = wsum w s + w e := by
      intro s e hs
      refine ⟨insert_descending c hc e s hs, ?_⟩
      rw [push, wsum_perm w (insert_perm c e s), wsum_cons, add_comm]
    cases op with
    | push e => exact ⟨none, push c s e, rfl, (hpush s e hs).1, .push (hpush s e hs).2, trivial⟩
    | pushRange l =>
      have : ∀ (l s : List E), Descending c.lt s →
          Descending c.lt (pushRange c s l) ∧ wsum w (pushRange c s l) = wsum w s + wsum w l := by
        intro l
        induction l with
        | nil => intro s hs; exact ⟨hs, by simp [pushRange]⟩
        | cons e l ih =>
          intro s hs
          have h1 := hpush s e hs
          have h2 := ih _ h1.1
          exact ⟨h2.1, by rw [pushRange, h2.2, h1.2, wsum_cons, add_assoc]⟩
      exact ⟨none, pushRange c s l, rfl, (this l s hs).1, .pushRange (this l s hs).2, trivial⟩
    | top =>
      have hne : s ≠ [] := hne trivial
      obtain ⟨x, l, rfl⟩ := List.exists_cons_of_ne_nil hne
      have hs' := List.pairwise_cons.mp hs
      refine ⟨some x, x :: l, rfl, hs, .top ⟨List.mem_cons_self, ?_⟩ rfl List.mem_cons_self, rfl⟩
      intro y hy
      rcases List.mem_cons.mp hy with rfl | hy
      · exact hc.irrefl _
      · exact hs'.1 y hy
    | pop =>
      have hne : s ≠ [] := hne trivial
      obtain ⟨x, l, rfl⟩ := List.exists_cons_of_ne_nil hne
      have hs' := List.pairwise_cons.mp hs
      refine ⟨some x, l, rfl, hs'.2, .pop ⟨List.mem_cons_self, ?_⟩ ?_, rfl⟩
      · intro y hy
        rcases List.mem_cons.mp hy with rfl | hy
        · exact hc.irrefl _
        · exact hs'.1 y hy
      · show wsum w l + w x = wsum w (x :: l)
        rw [wsum_cons, add_comm]
    | decreaseTop e => exact hal.elim
    | clear => exact hal.elim

/-- C09: on every history of pushes and pops the set is a max priority queue. -/
theorem stlSet_correct (c : PQConf E) (hc : StrictWeak c.lt) (w : E → M) :
    (impl c).Correct allowed c.lt w :=
  (stlSet_inv c hc w).correct

/-- C09, as multisets. -/
theorem stlSet_multiset (c : PQConf E) (hc : StrictWeak c.lt) :
    (impl c).Correct allowed c.lt (fun e => ({e} : Multiset E)) :=
  stlSet_correct c hc _

/-- The hypothesis is met by terms ordered by exponent. -/
example : (impl (Heap.termConf false)).Correct allowed (Heap.termConf false).lt
    (fun e => ({e} : Multiset (ℕ × ℕ))) :=
  stlSet_multiset _ (Heap.termConf_lawful false).weak

#guard (show Option (List (Option (ℕ × ℕ)) × List (ℕ × ℕ)) from (impl (Heap.termConf false)).run []
    [.push (1, 0), .pushRange [(5, 1), (3, 2), (5, 2)], .pop, .pop])
  == some ([none, none, some (5, 1), some (5, 2)], [(3, 2), (1, 0)])

end Verif.StlSet
