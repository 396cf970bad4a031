import Verif.Basic

/-!
# Specification of a max priority queue

Independent of any implementation: it talks about the list of entries that a queue reports
(in any order), the calls made and the values returned.

Contents are compared by weights `w : E → M`. When `w e = {e}` (multisets), equal weight means
equal up to order. With deduplication, `w` is any weight that `deduplicate` adds up.
-/

namespace Verif

/-- The calls of the priority queue interface. -/
inductive PQOp (E : Type*) where
  | push (e : E)
  | pushRange (l : List E)
  | top
  | pop
  | decreaseTop (e : E)
  | clear

/-- Calls that the documentation allows on a non-empty queue only. -/
def PQOp.needsTop {E : Type*} : PQOp E → Prop
  | .top => True
  | .pop => True
  | .decreaseTop _ => True
  | _ => False

/-- `x` is in `l` and nothing in `l` is larger. -/
def IsMax {E : Type*} (lt : E → E → Bool) (x : E) (l : List E) : Prop :=
  x ∈ l ∧ ∀ y ∈ l, lt x y = false

/-- `x` is equivalent to an entry of `l`. A queue that merges equal entries while it looks for its
maximum may return an entry that it has only just made. -/
def EquivMem {E : Type*} (lt : E → E → Bool) (x : E) (l : List E) : Prop :=
  ∃ y ∈ l, lt x y = false ∧ lt y x = false

/-- As `IsMax`, for another way to belong to the entries: `Membership.mem` or `EquivMem`. -/
def IsMaxBy {E : Type*} (mem : E → List E → Prop) (lt : E → E → Bool) (x : E) (l : List E) : Prop :=
  mem x l ∧ ∀ y ∈ l, lt x y = false

/-- One call: entries before, the call, the value returned, entries after. -/
inductive PQStepBy {E M : Type*} [AddCommMonoid M] (mem : E → List E → Prop)
    (lt : E → E → Bool) (w : E → M) : List E → PQOp E → Option E → List E → Prop where
  | push {t t' e} (h : wsum w t' = wsum w t + w e) : PQStepBy mem lt w t (.push e) none t'
  | pushRange {t t' l} (h : wsum w t' = wsum w t + wsum w l) :
      PQStepBy mem lt w t (.pushRange l) none t'
  | top {t t' x} (hx : IsMaxBy mem lt x t) (h : wsum w t' = wsum w t) (hmem : x ∈ t') :
      PQStepBy mem lt w t .top (some x) t'
  | pop {t t' x} (hx : IsMaxBy mem lt x t) (h : wsum w t' + w x = wsum w t) :
      PQStepBy mem lt w t .pop (some x) t'
  | decreaseTop {t t' x e} (hx : IsMaxBy mem lt x t) (h : wsum w t' + w x = wsum w t + w e) :
      PQStepBy mem lt w t (.decreaseTop e) none t'
  | clear {t} : PQStepBy mem lt w t .clear none []

/-- One call of a queue that returns entries which it held before the call. -/
abbrev PQStep {E M : Type*} [AddCommMonoid M] (lt : E → E → Bool) (w : E → M) :
    List E → PQOp E → Option E → List E → Prop := PQStepBy (fun x l => x ∈ l) lt w

/-- A history of calls with the values returned. -/
inductive PQTraceBy {E M : Type*} [AddCommMonoid M] (mem : E → List E → Prop)
    (lt : E → E → Bool) (w : E → M) :
    List E → List (PQOp E) → List (Option E) → List E → Prop where
  | nil {t} : PQTraceBy mem lt w t [] [] t
  | cons {t t₁ t₂ op out ops outs} (h : PQStepBy mem lt w t op out t₁)
      (hs : PQTraceBy mem lt w t₁ ops outs t₂) : PQTraceBy mem lt w t (op :: ops) (out :: outs) t₂

/-- A history of a queue that returns entries which it held before the call. -/
abbrev PQTrace {E M : Type*} [AddCommMonoid M] (lt : E → E → Bool) (w : E → M) :
    List E → List (PQOp E) → List (Option E) → List E → Prop := PQTraceBy (fun x l => x ∈ l) lt w

/-- What is pushed by a call that pushes. -/
def PQOp.pushed {E : Type*} : PQOp E → List E
  | .push e => [e]
  | .pushRange l => l
  | .decreaseTop e => [e]
  | _ => []

/-- Sorted so that no entry is followed by a larger one. -/
def Descending {E : Type*} (lt : E → E → Bool) (l : List E) : Prop :=
  l.Pairwise (fun a b => lt a b = false)

/-- For histories of pushes and pops alone: what went in is what came out plus what is held. -/
theorem PQTraceBy.conservation {E M : Type*} [AddCommMonoid M] {mem : E → List E → Prop}
    {lt : E → E → Bool} {w : E → M} {t t' : List E} {ops : List (PQOp E)} {outs : List (Option E)}
    (h : PQTraceBy mem lt w t ops outs t')
    (hops : ∀ op ∈ ops, op ≠ .clear ∧ op ≠ .top ∧ ∀ e, op ≠ .decreaseTop e) :
    wsum w t' + wsum w (outs.flatMap Option.toList) = wsum w t + wsum w (ops.flatMap PQOp.pushed) := by
  induction h with
  | nil => simp
  | @cons t t₁ t₂ op out ops outs hstep hs ih =>
    have ih := ih (fun op hop => hops op (List.mem_cons_of_mem _ hop))
    have hop := hops op List.mem_cons_self
    cases hstep with
    | push h =>
      simp only [List.flatMap_cons, Option.toList_none, List.nil_append, wsum_append, ih, h,
        PQOp.pushed, wsum_cons, wsum_nil, add_zero, add_assoc]
    | pushRange h =>
      simp only [List.flatMap_cons, Option.toList_none, List.nil_append, wsum_append, ih, h,
        PQOp.pushed, add_assoc]
    | pop hx h =>
      simp only [List.flatMap_cons, Option.toList_some, wsum_append, wsum_cons, wsum_nil, add_zero,
        PQOp.pushed, List.nil_append]
      rw [add_left_comm, ih, ← h, add_left_comm, add_comm (wsum w _) (w _), add_assoc]
      rw [add_left_comm]
    | top => exact absurd rfl hop.2.1
    | decreaseTop => exact absurd rfl (hop.2.2 _)
    | clear => exact absurd rfl hop.1

/-- What a client sees of a queue implementation. `step` gives the value returned and the new
state, `none` is undefined behaviour. `entries` is what `forAll` visits. -/
structure PQImpl (E : Type*) where
  State : Type*
  init : State
  step : State → PQOp E → Option (Option E × State)
  entries : State → List E
  top : State → Option E
  empty : State → Bool
  size : State → ℕ

/-- A history of calls; undefined as soon as one call is. -/
def PQImpl.run {E : Type*} (I : PQImpl E) (s : I.State) :
    List (PQOp E) → Option (List (Option E) × I.State)
  | [] => some ([], s)
  | op :: ops =>
    match I.step s op with
    | none => none
    | some (o, s') =>
      match I.run s' ops with
      | none => none
      | some (os, s'') => some (o :: os, s'')

/-- What `top` has to do with a call: `top` and `pop` return it, `decreaseTop` puts the new entry in
its place. -/
def PQImpl.UsesTop {E M : Type*} [AddCommMonoid M] (I : PQImpl E) (mem : E → List E → Prop)
    (lt : E → E → Bool) (w : E → M) (s : I.State) : PQOp E → Option E → I.State → Prop
  | .pop, o, _ => o = I.top s
  | .top, o, _ => o = I.top s
  | .decreaseTop e, _, s' => ∃ x, I.top s = some x ∧ IsMaxBy mem lt x (I.entries s) ∧
      wsum w (I.entries s') + w x = wsum w (I.entries s) + w e
  | _, _, _ => True

/-- The implementation is a priority queue on all histories of allowed calls:
no call is undefined except for those that need a top on an empty queue, each call has the effect
that the specification asks for, `top` is a maximum and the value that the next `pop` or `top`
returns or the next `decreaseTop` replaces, and `empty` and `size` tell the truth. -/
structure PQImpl.CorrectBy {E M : Type*} [AddCommMonoid M] (I : PQImpl E)
    (mem : E → List E → Prop) (allowed : PQOp E → Prop) (lt : E → E → Bool) (w : E → M) : Prop where
  start : I.entries I.init = []
  defined : ∀ ops outs s op, (∀ o ∈ ops, allowed o) → I.run I.init ops = some (outs, s) →
    allowed op → (I.step s op = none ↔ op.needsTop ∧ I.entries s = [])
  trace : ∀ ops outs s, (∀ o ∈ ops, allowed o) → I.run I.init ops = some (outs, s) →
    PQTraceBy mem lt w [] ops outs (I.entries s)
  top_max : ∀ ops outs s, (∀ o ∈ ops, allowed o) → I.run I.init ops = some (outs, s) →
    allowed .pop → I.entries s ≠ [] →
    ∃ x s' s'', I.top s = some x ∧ IsMaxBy mem lt x (I.entries s) ∧ I.step s .pop = some (some x, s') ∧
      (allowed .top → I.step s .top = some (some x, s''))
  decrease_top : ∀ ops outs s e, (∀ o ∈ ops, allowed o) → I.run I.init ops = some (outs, s) →
    allowed (.decreaseTop e) → I.entries s ≠ [] → ∃ x s', I.top s = some x ∧
      IsMaxBy mem lt x (I.entries s) ∧ I.step s (.decreaseTop e) = some (none, s') ∧
      wsum w (I.entries s') + w x = wsum w (I.entries s) + w e
  empty_iff : ∀ ops outs s, (∀ o ∈ ops, allowed o) → I.run I.init ops = some (outs, s) →
    (I.empty s = true ↔ I.entries s = [])
  size_eq : ∀ ops outs s, (∀ o ∈ ops, allowed o) → I.run I.init ops = some (outs, s) →
    I.size s = (I.entries s).length

/-- A correct queue that returns entries which it held before the call. -/
abbrev PQImpl.Correct {E M : Type*} [AddCommMonoid M] (I : PQImpl E)
    (allowed : PQOp E → Prop) (lt : E → E → Bool) (w : E → M) : Prop :=
  I.CorrectBy (fun x l => x ∈ l) allowed lt w

/-- The same in terms of an invariant that each allowed call keeps. -/
structure PQImpl.InvCorrect {E M : Type*} [AddCommMonoid M] (I : PQImpl E) (Inv : I.State → Prop)
    (mem : E → List E → Prop) (allowed : PQOp E → Prop) (lt : E → E → Bool) (w : E → M) : Prop where
  init : Inv I.init
  start : I.entries I.init = []
  empty : ∀ s, Inv s → (I.empty s = true ↔ I.entries s = [])
  size : ∀ s, Inv s → I.size s = (I.entries s).length
  undef : ∀ s op, Inv s → op.needsTop → I.entries s = [] → I.step s op = none
  step : ∀ s op, Inv s → allowed op → (op.needsTop → I.entries s ≠ []) →
    ∃ o s', I.step s op = some (o, s') ∧ Inv s' ∧
      PQStepBy mem lt w (I.entries s) op o (I.entries s') ∧ I.UsesTop mem lt w s op o s'

/-- Correctness from an invariant that each allowed call keeps. -/
theorem PQImpl.InvCorrect.correct {E M : Type*} [AddCommMonoid M] {I : PQImpl E}
    {mem : E → List E → Prop} {allowed : PQOp E → Prop} {lt : E → E → Bool} {w : E → M} {Inv : I.State → Prop}
    (h : I.InvCorrect Inv mem allowed lt w) : I.CorrectBy mem allowed lt w := by
  obtain ⟨hinit, hstart, hempty, hsize, hundef, hdef⟩ := h
  have key : ∀ ops s, Inv s → (∀ o ∈ ops, allowed o) → ∀ outs s', I.run s ops = some (outs, s') →
      Inv s' ∧ PQTraceBy mem lt w (I.entries s) ops outs (I.entries s') := by
    intro ops
    induction ops with
    | nil =>
      intro s hs _ outs s' h
      simp only [run] at h
      cases h
      exact ⟨hs, .nil⟩
    | cons op ops ih =>
      intro s hs hal outs s' h
      simp only [run] at h
      split at h
      · cases h
      · rename_i o s₁ h1
        split at h
        · cases h
        · rename_i os s₂ h2
          cases h
          have hnt : op.needsTop → I.entries s ≠ [] := by
            intro hn he
            rw [hundef s op hs hn he] at h1
            cases h1
          obtain ⟨o', s₁', g1, g2, g3, _⟩ := hdef s op hs (hal op List.mem_cons_self) hnt
          rw [g1] at h1
          cases h1
          obtain ⟨k1, k2⟩ := ih s₁ g2 (fun o ho => hal o (List.mem_cons_of_mem _ ho)) _ _ h2
          exact ⟨k1, .cons g3 k2⟩
  refine ⟨hstart, ?_, ?_, ?_, ?_, ?_, ?_⟩
  · intro ops outs s op hal h ha
    have hs := (key ops _ hinit hal _ _ h).1
    constructor
    · intro hn
      by_contra hcon
      have hnt : op.needsTop → I.entries s ≠ [] := fun h1 h2 => hcon ⟨h1, h2⟩
      obtain ⟨o', s₁', g1, _⟩ := hdef s op hs ha hnt
      rw [g1] at hn
      cases hn
    · intro hn
      exact hundef s op hs hn.1 hn.2
  · intro ops outs s hal h
    have := (key ops _ hinit hal _ _ h).2
    rwa [hstart] at this
  · intro ops outs s hal h ha hne
    have hs := (key ops _ hinit hal _ _ h).1
    obtain ⟨o, s', g1, g2, g3, g4⟩ := hdef s .pop hs ha (fun _ => hne)
    cases g3 with
    | pop hx hw =>
      have e1 := Eq.symm g4
      by_cases hat : allowed .top
      · obtain ⟨o₂, s₂, k1, k2, k3, k4⟩ := hdef s .top hs hat (fun _ => hne)
        rw [show o₂ = _ from k4, e1] at k1
        exact ⟨_, s', s₂, e1, hx, g1, fun _ => k1⟩
      · exact ⟨_, s', s', e1, hx, g1, fun h => absurd h hat⟩
  · intro ops outs s e hal h ha hne
    have hs := (key ops _ hinit hal _ _ h).1
    obtain ⟨o, s', g1, g2, g3, x, g4, g5, g6⟩ := hdef s (.decreaseTop e) hs ha (fun _ => hne)
    cases g3 with
    | decreaseTop => exact ⟨x, s', g4, g5, g1, g6⟩
  · intro ops outs s hal h
    exact hempty s (key ops _ hinit hal _ _ h).1
  · intro ops outs s hal h
    exact hsize s (key ops _ hinit hal _ _ h).1

/-- Popping everything from a queue that holds `t` gives `t` in descending order. -/
theorem PQTrace.drain {E : Type*} {lt : E → E → Bool} {t t' : List E} {n : ℕ}
    {outs : List (Option E)}
    (h : PQTrace lt (fun e => ({e} : Multiset E)) t (List.replicate n .pop) outs t')
    (hn : n = t.length) :
    ∃ l, outs = l.map some ∧ l.Perm t ∧ Descending lt l ∧ t' = [] := by
  induction n generalizing t outs with
  | zero =>
    have ht : t = [] := List.length_eq_zero_iff.mp hn.symm
    cases h
    exact ⟨[], rfl, by rw [ht], .nil, ht⟩
  | succ n ih =>
    rw [List.replicate_succ] at h
    cases h with
    | @cons _ t₁ _ _ _ _ _ hstep hs =>
      cases hstep with
      | @pop _ x hx hw =>
        have hp : (x :: t₁).Perm t := by
          apply perm_of_wsum
          rw [wsum_cons, add_comm]
          exact hw
        obtain ⟨l, h1, h2, h3, h4⟩ := ih hs (by have := hp.length_eq; simp at this; omega)
        refine ⟨x :: l, by rw [h1]; rfl, (h2.cons x).trans hp, ?_, h4⟩
        refine List.pairwise_cons.mpr ⟨?_, h3⟩
        intro y hy
        exact hx.2 y (hp.subset (List.mem_cons_of_mem _ (h2.subset hy)))

end Verif
