import Verif.HeapThrowProofs
import Verif.TourTreeThrowProofs

/-!
# Single calls of `HeapThrow` and `TourTreeThrow` in the terms of `QueueThrowSpec`
-/

namespace Verif

theorem isMaxBy_never {E : Type*} {x : E} {l : List E} (h : x ∈ l) :
    IsMaxBy (fun x l => x ∈ l) never x l := ⟨h, fun _ _ => rfl⟩

namespace Heap

variable {E : Type*} {M : Type*} [AddCancelCommMonoid M]

theorem decreaseTopX_nil (c : ConfX E) (n : ℕ) (e : E) : decreaseTopX c n [] e = none := by
  have h1 : moveHoleDownX c n ([] : List E) 1 = some (.on 1 n []) := by
    rw [moveHoleDownX]; simp
  rw [decreaseTopX, h1]
  show moveValueUpX c n [] 1 e = none
  have h2 : climbX c n ([] : List E) 1 e = some (.on (false, 1) n []) := by rw [climbX]; simp
  rw [moveValueUpX_eq, h2]
  simp [wr]

/-- What a call has to do with `top`: `top` and `pop` return it, `decreaseTop` replaces it. -/
def TopRule (w : E → M) (t : List E) : PQOp E → Option E → List E → Prop
  | .pop, o, _ => o = top t
  | .top, o, _ => o = top t
  | .decreaseTop e, _, t' => ∃ x, top t = some x ∧ wsum w t' + w x = wsum w t + w e
  | _, _, _ => True

theorem stepX_undefined (c : ConfX E) (n : ℕ) {op : PQOp E} (h : op.needsTop) :
    stepX c n [] op = none := by
  cases op with
  | push e => exact h.elim
  | pushRange l => exact h.elim
  | top => rfl
  | pop => rfl
  | decreaseTop e => rw [stepX, decreaseTopX_nil]; rfl
  | clear => exact h.elim

theorem stepX_spec {c : ConfX E} {w : E → M} (hw : c.Weight w) {P : E → Prop} (hcl : c.Closed P)
    (n : ℕ) (t : List E) (op : PQOp E) (hne : op.needsTop → t ≠ []) (hP : ∀ a ∈ t, P a)
    (hop : ∀ a ∈ op.pushed, P a) :
    ∃ f, stepX c n t op = some f ∧
      match f with
      | .on o _ t' => (∀ a ∈ t', P a) ∧ PQStep never w t op o t' ∧ TopRule w t op o t'
      | .threw _ t' => (∀ a ∈ t', P a) ∧ LosesOne P w t op t' := by
  have htop : op.needsTop → ∃ x, rd t 1 = some x := by
    intro h
    have h0 := hne h
    have hl : t.length ≠ 0 := fun h => h0 (List.length_eq_zero_iff.mp h)
    exact rd_exists (le_refl 1) (by omega)
  cases op with
  | push e =>
    obtain ⟨f, h1, h2⟩ := pushX_spec hw hcl n t e hP (hop e (by simp [PQOp.pushed]))
    rw [stepX, h1]
    refine ⟨_, rfl, ?_⟩
    cases f with
    | on _ n' t' => exact ⟨h2.1, .push h2.2, trivial⟩
    | threw n' t' =>
      obtain ⟨gP, v, y, hv, hy, g⟩ := h2
      exact ⟨gP, .push v y hv hy g⟩
  | pushRange l =>
    obtain ⟨f, h1, h2⟩ := pushRangeX_spec hw hcl l n t hP hop
    rw [stepX, h1]
    refine ⟨_, rfl, ?_⟩
    cases f with
    | on _ n' t' => exact ⟨h2.1, .pushRange h2.2, trivial⟩
    | threw n' t' =>
      obtain ⟨gP, l₁, e, l₂, v, y, rfl, hv, hy, g⟩ := h2
      exact ⟨gP, .pushRange l₁ e l₂ v y hv hy g⟩
  | top =>
    obtain ⟨x, hx⟩ := htop trivial
    have ht : top t = some x := hx
    rw [stepX, ht]
    exact ⟨_, rfl, hP, .top (isMaxBy_never (rd_mem hx)) rfl (rd_mem hx), ht.symm⟩
  | pop =>
    obtain ⟨x, hx⟩ := htop trivial
    obtain ⟨f, h1, h2⟩ := popX_spec hw hcl n t x hx hP
    rw [stepX, h1]
    refine ⟨_, rfl, ?_⟩
    cases f with
    | on a n' t' =>
      obtain ⟨rfl, g1, g2⟩ := h2
      exact ⟨g1, .pop (isMaxBy_never (rd_mem hx)) g2, hx.symm⟩
    | threw n' t' =>
      obtain ⟨gP, v, y, hv, hy, g⟩ := h2
      exact ⟨gP, .pop x v y (rd_mem hx) hv hy g⟩
  | decreaseTop e =>
    obtain ⟨x, hx⟩ := htop trivial
    obtain ⟨f, h1, h2⟩ := decreaseTopX_spec hw hcl n t e x hx hP (hop e (by simp [PQOp.pushed]))
    rw [stepX, h1]
    refine ⟨_, rfl, ?_⟩
    cases f with
    | on a n' t' =>
      exact ⟨h2.1, .decreaseTop (isMaxBy_never (rd_mem hx)) h2.2, x, hx, h2.2⟩
    | threw n' t' =>
      obtain ⟨gP, v, y, hv, hy, g⟩ := h2
      exact ⟨gP, .decreaseTop x v y (rd_mem hx) hv hy g⟩
  | clear => exact ⟨_, rfl, by simp [clear], .clear, trivial⟩

/-! ## Configurations that never throw -/

section answers
variable {answer : ℕ → E → E → Bool × Bool} {sd : Bool} {dedup : E → E → E}

theorem moveHoleDownX_answers (n : ℕ) (t : List E) (hole : ℕ) (n' : ℕ) (t' : List E) :
    moveHoleDownX (.answering answer sd dedup) n t hole ≠ some (.threw n' t') := by
  fun_induction moveHoleDownX (.answering answer sd dedup) n t hole <;>
    simp_all [ConfX.answering]

theorem climbX_answers (n : ℕ) (t : List E) (pos : ℕ) (v : E) (n' : ℕ) (t' : List E) :
    climbX (.answering answer sd dedup) n t pos v ≠ some (.threw n' t') := by
  fun_induction climbX (.answering answer sd dedup) n t pos v <;> simp_all [ConfX.answering]

theorem mergeUpX_answers (n : ℕ) (t : List E) (o pos : ℕ) (v : E) (n' : ℕ) (t' : List E) :
    mergeUpX (.answering answer sd dedup) n t o pos v ≠ some (.threw n' t') := by
  unfold mergeUpX
  simp only [ConfX.answering]
  split
  · nofun
  · split
    · nofun
    · split
      · nofun
      · split <;> nofun

theorem moveValueUpX_answers (n : ℕ) (t : List E) (o : ℕ) (v : E) (n' : ℕ) (t' : List E) :
    moveValueUpX (.answering answer sd dedup) n t o v ≠ some (.threw n' t') := by
  induction hn : t.length using Nat.strong_induction_on generalizing n t v with
  | _ l ih =>
    rw [moveValueUpX]
    split
    · nofun
    · rename_i h; exact absurd h (climbX_answers _ _ _ _ _ _)
    · split <;> nofun
    · rename_i h
      have hl := climbX_length h
      split
      · nofun
      · rename_i h2; exact absurd h2 (mergeUpX_answers _ _ _ _ _ _ _)
      · rename_i h2
        have hl2 := mergeUpX_length h2
        split
        · nofun
        · exact ih _ (by omega) _ _ _ rfl

theorem decreaseTopX_answers (n : ℕ) (t : List E) (e : E) (n' : ℕ) (t' : List E) :
    decreaseTopX (.answering answer sd dedup) n t e ≠ some (.threw n' t') := by
  unfold decreaseTopX
  split
  · nofun
  · rename_i h; exact absurd h (moveHoleDownX_answers _ _ _ _ _)
  · exact moveValueUpX_answers _ _ _ _ _ _

theorem pushRangeX_answers (l : List E) : ∀ (n : ℕ) (t : List E) (n' : ℕ) (t' : List E),
    pushRangeX (.answering answer sd dedup) n t l ≠ some (.threw n' t') := by
  induction l with
  | nil => intro n t n' t'; nofun
  | cons e l ih =>
    intro n t n' t'
    unfold pushRangeX
    split
    · nofun
    · rename_i h; exact absurd h (moveValueUpX_answers _ _ _ _ _ _)
    · exact ih _ _ _ _

theorem ret_threw {A B : Type*} {x : Option (Flow A E)} {b : B} {n : ℕ} {t : List E}
    (h : x.map (Flow.ret b) = some (.threw n t)) : x = some (.threw n t) := by
  cases x with
  | none => cases h
  | some f =>
    cases f with
    | on a n' t' => cases h
    | threw n' t' => cases h; rfl

/-- Where `compare` and `deduplicate` never throw, no call throws. -/
theorem stepX_answers (n : ℕ) (t : List E) (op : PQOp E) (n' : ℕ) (t' : List E) :
    stepX (.answering answer sd dedup) n t op ≠ some (.threw n' t') := by
  intro h
  cases op with
  | push e => exact moveValueUpX_answers _ _ _ _ _ _ (ret_threw h)
  | pushRange l => exact pushRangeX_answers _ _ _ _ _ (ret_threw h)
  | top =>
    rw [stepX] at h
    cases ht : top t with
    | none => rw [ht] at h; cases h
    | some x => rw [ht] at h; cases h
  | pop =>
    rw [stepX] at h
    cases hp : popX (.answering answer sd dedup) n t with
    | none => rw [hp] at h; cases h
    | some f =>
      rw [hp] at h
      cases f with
      | on a n' t' => cases h
      | threw n₂ t₂ =>
        unfold popX at hp
        split at hp
        · split at hp
          · cases hp
          · exact decreaseTopX_answers _ _ _ _ _ (ret_threw hp)
        · cases hp
  | decreaseTop e => exact decreaseTopX_answers _ _ _ _ _ (ret_threw h)
  | clear => cases h

end answers

end Heap

namespace TourTree

variable {E : Type} {M : Type*} [AddCommMonoid M]

theorem stepX_undefined (cmp : E → E → Cmp) {s : State E} (hs : Shape s) {op : PQOp E}
    (h : op.needsTop) (he : entries s = []) : stepX cmp s op = none := by
  have h1 := top_none hs he
  have ht : top s = none := by simp [top, h1]
  cases op with
  | push e => exact h.elim
  | pushRange l => exact h.elim
  | top => rw [stepX, ht]; rfl
  | pop => rw [stepX, ht]; rfl
  | decreaseTop e =>
    have : decreaseSet s e = none := by simp [decreaseSet, h1]
    rw [stepX, decreaseTopX, this]
    rfl
  | clear => exact h.elim

theorem stepX_spec (w : E → M) {call : (E → E → Cmp) × PQOp E} (hc : OnlyPushThrows call)
    {s : State E} (hs : Shape s) (hne : call.2.needsTop → entries s ≠ []) :
    ∃ o s', stepX call.1 s call.2 = some (o, s') ∧ Shape s' ∧
      BagStep (PushesOnly w) w (entries s) call.2 o (entries s') := by
  obtain ⟨cmp, op⟩ := call
  obtain ⟨hub, hexn⟩ := hc
  simp only at *
  cases op with
  | push e =>
    obtain ⟨s', h1, h2, h3⟩ := pushX_any cmp hub hs e
    have hsum : wsum w (entries s') = wsum w (entries s) + w e := by rw [h3]; simp
    rcases h1 with h1 | h1
    · exact ⟨.ret none, s', by rw [stepX, h1]; rfl, h2, .ret (.push hsum)⟩
    · exact ⟨.threw, s', by rw [stepX, h1]; rfl, h2, .threw (.push hsum)⟩
  | pushRange l =>
    rcases pushRangeX_any cmp hub l hs with ⟨s', h1, h2, h3⟩ | ⟨s', l₁, e, l₂, h1, h2, rfl, h3⟩
    · exact ⟨.ret none, s', by rw [stepX, h1]; rfl, h2, .ret (.pushRange (by rw [h3]; simp))⟩
    · exact ⟨.threw, s', by rw [stepX, h1]; rfl, h2,
        .threw (.pushRange l₁ e l₂ (by rw [h3, wsum_append]))⟩
  | top =>
    obtain ⟨x, _, h0, _⟩ := popX_any hub (hexn trivial) hs (hne trivial)
    exact ⟨.ret (some x), s, by rw [stepX, h0]; rfl, hs,
      .ret (.top (isMaxBy_never (top_mem h0)) rfl (top_mem h0))⟩
  | pop =>
    obtain ⟨x, s', h0, h1, h2, h3⟩ := popX_any hub (hexn trivial) hs (hne trivial)
    refine ⟨.ret (some x), s', by rw [stepX, h0, Option.bind_some, h1]; rfl, h2,
      .ret (.pop (isMaxBy_never (top_mem h0)) ?_)⟩
    rw [← wsum_perm w h3, wsum_cons, add_comm]
  | decreaseTop e =>
    obtain ⟨x, s', h0, h1, h2, i, hi, h3⟩ := decreaseTopX_any hub (hexn trivial) hs (hne trivial) e
    refine ⟨.ret none, s', by rw [stepX, h1]; rfl, h2,
      .ret (.decreaseTop (isMaxBy_never (top_mem h0)) ?_)⟩
    rw [h3]
    exact wsum_replaced w hi e
  | clear => exact ⟨.ret none, clear s, rfl, shape_clear hs, .ret .clear⟩

end TourTree

end Verif
