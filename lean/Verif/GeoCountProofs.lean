import Verif.Geobucket

/-!
# Helper lemmas: `top` and `pop` of a `Geobucket` do not make it hold more entries
-/

namespace Verif.Geobucket

variable {E : Type} {c : Conf E}

theorem maxLoop_count : ∀ (n m it : ℕ) (s : State E) (r : ℕ × State E), maxLoop c n m it s = some r →
    r.2.count ≤ s.count := by
  intro n
  induction n with
  | zero =>
    intro m it s r h
    rw [maxLoop] at h
    cases h
    exact le_refl _
  | succ n ih =>
    intro m it s r h
    rw [maxLoop, Option.bind_eq_bind, Option.bind_eq_some_iff] at h
    obtain ⟨ib, _, h⟩ := h
    split at h
    · exact ih _ _ _ _ h
    · simp only [Option.bind_eq_bind, Option.bind_eq_some_iff] at h
      obtain ⟨mb, _, x, _, y, _, h⟩ := h
      split at h
      · exact ih _ _ _ _ h
      · split at h
        · simp only [Option.bind_eq_some_iff] at h
          obtain ⟨mb, _, ib, _, ib, _, h⟩ := h
          have := ih _ _ _ _ h
          simp only [State.setBucket] at this
          omega
        · exact ih _ _ _ _ h

theorem getMax_count {s : State E} {r : ℕ × State E} (h : getMax c s = some r) : r.2.count ≤ s.count := by
  rw [getMax] at h
  split at h
  · split at h
    · cases h
    · rw [Option.map_eq_some_iff] at h
      obtain ⟨b, _, rfl⟩ := h
      exact le_refl _
  · split at h
    · cases h; exact le_refl _
    · split at h
      · cases h
      · rw [Option.map_eq_some_iff] at h
        obtain ⟨a, h1, rfl⟩ := h
        have := maxLoop_count _ _ _ _ _ h1
        exact this

theorem map_front_count {s s' : State E} {o : Option Front} (h : o.map (fun f => { s with front := f }) = some s') :
    s'.count = s.count := by
  rw [Option.map_eq_some_iff] at h
  obtain ⟨f, _, rfl⟩ := h
  rfl

theorem dedupInto_count {s s' : State E} {b q : ℕ} {x y : E} (h : dedupInto c s b q x y = some s') :
    s'.count ≤ s.count := by
  simp only [dedupInto, Option.bind_eq_bind, Option.bind_eq_some_iff] at h
  obtain ⟨qb, _, qb', _, bb, _, bb', _, h⟩ := h
  cases h
  simp only [State.setBucket]
  omega

theorem decLoop_count (b : ℕ) : ∀ (n p : ℕ) (s s' : State E), decLoop c b n p s = some s' → s'.count ≤ s.count := by
  intro n
  induction n with
  | zero =>
    intro p s s' h
    rw [decLoop] at h
    exact le_of_eq (map_front_count h)
  | succ n ih =>
    intro p s s' h
    simp only [decLoop, Option.bind_eq_bind, Option.bind_eq_some_iff] at h
    obtain ⟨q, _, x, _, y, _, h⟩ := h
    split at h
    · simp only [Option.bind_eq_some_iff] at h
      obtain ⟨f, _, f', _, h⟩ := h
      have := ih _ _ _ h
      exact this
    · split at h
      · exact le_of_eq (map_front_count h)
      · simp only [Option.bind_eq_some_iff] at h
        obtain ⟨s₁, h1, bb, _, h⟩ := h
        have h2 := dedupInto_count h1
        split at h
        · simp only [Option.bind_eq_some_iff] at h
          obtain ⟨f, _, f', _, h⟩ := h
          cases h
          exact h2
        · simp only [Option.bind_eq_some_iff] at h
          obtain ⟨f, _, f', _, h⟩ := h
          exact le_trans (ih _ _ _ h) h2

theorem keyDecreased_count {s s' : State E} {b : ℕ} (h : keyDecreased c s b = some s') : s'.count ≤ s.count := by
  rw [keyDecreased] at h
  split at h
  · split at h
    · cases h
    · split at h
      · exact le_of_eq (map_front_count h)
      · split at h
        · split at h
          · exact decLoop_count _ _ _ _ _ h
          · cases h
        · cases h
  · cases h
    exact le_refl _

theorem top_count {s : State E} {r : E × State E} (h : top c s = some r) : r.2.count ≤ s.count := by
  simp only [top, Option.bind_eq_bind, Option.bind_eq_some_iff] at h
  obtain ⟨m, h1, b, _, x, _, h⟩ := h
  cases h
  exact getMax_count h1

theorem pop_count {s : State E} {r : E × State E} (h : pop c s = some r) : r.2.count ≤ s.count - 1 := by
  simp only [pop, Option.bind_eq_bind, Option.bind_eq_some_iff] at h
  obtain ⟨m, h1, b, _, x, _, b', _, s', h2, h⟩ := h
  cases h
  have h3 := getMax_count h1
  have h4 := keyDecreased_count h2
  simp only at h4
  show s'.count ≤ _
  omega

end Verif.Geobucket
