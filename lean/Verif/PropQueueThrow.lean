import Verif.QueueThrowProofs

/-!
# Properties of heaps and tournament trees whose comparisons are no order (C81) or throw (C82)
-/

namespace Verif

namespace Heap

variable {E : Type*} {M : Type*} [AddCancelCommMonoid M]

/-- C81 for heaps, for any weight that `deduplicate` adds up: whatever comparisons answer, and even if
the same entries are compared differently each time, a heap holds what was put in and not taken out.
No call is undefined but `top`, `pop` and `decreaseTop` of an empty heap, `pop` takes away the entry
that it returns, which is the one that `top` shows. -/
theorem heap_bag (answer : ℕ → E → E → Bool × Bool) (sd : Bool) (dedup : E → E → E) (w : E → M)
    (hw : sd = true → ∀ n a b, answer n a b = (false, true) → w (dedup a b) = w a + w b) :
    (implX answer sd dedup).Correct (fun _ => True) never w := by
  have hw' : (ConfX.answering answer sd dedup).Weight w := by
    intro hsd n a b d hcmp hd
    have hd : some (dedup a b) = some d := hd
    cases hd
    have hcmp : Ans.val (answer n a b).1 (answer n a b).2 = .val false true := hcmp
    apply hw hsd n
    injection hcmp with h1 h2
    exact Prod.ext h1 h2
  have key : (implX answer sd dedup).InvCorrect (fun _ => True) (fun x l => x ∈ l) (fun _ => True)
      never w := by
    refine ⟨trivial, rfl, ?_, fun _ _ => rfl, ?_, ?_⟩
    · intro s _
      show (s.2.length == 0) = true ↔ s.2 = []
      rw [beq_iff_eq]
      exact List.length_eq_zero_iff
    · intro s op _ hn he
      obtain ⟨n, t⟩ := s
      have he : t = [] := he
      subst he
      show (match stepX _ n [] op with | some (.on o n t) => _ | _ => none) = none
      rw [stepX_undefined _ n hn]
    · intro s op _ _ hne
      obtain ⟨n, t⟩ := s
      obtain ⟨f, h1, h2⟩ := stepX_spec hw' (P := fun _ => True) (fun _ _ _ _ _ _ => trivial) n t op hne
        (fun _ _ => trivial) (fun _ _ => trivial)
      cases f with
      | threw n' t' => exact absurd h1 (stepX_answers _ _ _ _ _)
      | on o n' t' =>
        obtain ⟨_, h3, h4⟩ := h2
        refine ⟨o, (n', t'), ?_, trivial, h3, ?_⟩
        · show (match stepX _ n t op with | some (.on o n t) => _ | _ => none) = _
          rw [h1]
          rfl
        · cases op with
          | push e => trivial
          | pushRange l => trivial
          | top => exact h4
          | pop => exact h4
          | decreaseTop e =>
            obtain ⟨x, hx, hsum⟩ := h4
            exact ⟨x, hx, isMaxBy_never (rd_mem hx), hsum⟩
          | clear => trivial
  exact key.correct

/-- C81 for heaps without deduplication: the entries held are, as a multiset, those put in and not taken
out. -/
theorem heap_bag_multiset (answer : ℕ → E → E → Bool × Bool) (dedup : E → E → E) :
    (implX answer false dedup).Correct (fun _ => True) never (fun e => ({e} : Multiset E)) :=
  heap_bag answer false dedup _ (fun h => by cases h)

/-- C81 for heaps, for pushes and pops: what was pushed is what was popped and what is held. -/
theorem heap_bag_conservation (answer : ℕ → E → E → Bool × Bool) (dedup : E → E → E)
    (ops : List (PQOp E)) (outs : List (Option E)) (n : ℕ) (t : List E)
    (h : (implX answer false dedup).run (0, []) ops = some (outs, (n, t)))
    (hops : ∀ op ∈ ops, op ≠ .clear ∧ op ≠ .top ∧ ∀ e, op ≠ .decreaseTop e) :
    (ops.flatMap PQOp.pushed).Perm (outs.flatMap Option.toList ++ t) := by
  have := ((heap_bag_multiset answer dedup).trace ops outs (n, t) (fun _ _ => trivial) h).conservation
    hops
  apply perm_of_wsum
  rw [wsum_append, add_comm (wsum _ (List.flatMap _ outs))]
  rw [wsum_nil, zero_add] at this
  exact this.symm

/-- C81: the heap with answers that are fixed is the heap of C01, so that C81 also holds for that
one. -/
theorem heap_bag_fixed (c : PQConf E) (w : E → M)
    (hw : c.supportDedup = true → ∀ a b, c.lt a b = false → c.eq a b = true →
      w (c.dedup a b) = w a + w b) :
    (impl c).Correct (fun _ => True) never w := by
  have hw' : (ConfX.ofPure c).Weight w := by
    intro hsd n a b d hcmp hd
    have hd : some (c.dedup a b) = some d := hd
    cases hd
    have hcmp : Ans.val (c.lt a b) (c.eq a b) = .val false true := hcmp
    injection hcmp with h1 h2
    exact hw hsd a b h1 h2
  have key : (impl c).InvCorrect (fun _ => True) (fun x l => x ∈ l) (fun _ => True) never w := by
    refine ⟨trivial, rfl, ?_, fun _ _ => rfl, ?_, ?_⟩
    · intro s _
      show (List.length s == 0) = true ↔ s = []
      rw [beq_iff_eq]
      exact List.length_eq_zero_iff
    · intro t op _ hn he
      have he : t = [] := he
      subst he
      obtain ⟨n', h⟩ := stepX_pure c [] op 0
      rw [stepX_undefined _ 0 hn] at h
      exact Option.map_eq_none_iff.mp h.symm
    · intro t op _ _ hne
      obtain ⟨n', h⟩ := stepX_pure c t op 0
      obtain ⟨f, h1, h2⟩ := stepX_spec hw' (P := fun _ => True) (fun _ _ _ _ _ _ => trivial) 0 t op hne
        (fun _ _ => trivial) (fun _ _ => trivial)
      rw [h] at h1
      obtain ⟨⟨o, t'⟩, h3, rfl⟩ := Option.map_eq_some_iff.mp h1
      obtain ⟨_, h4, h5⟩ := h2
      refine ⟨o, t', h3, trivial, h4, ?_⟩
      cases op with
      | push e => trivial
      | pushRange l => trivial
      | top => exact h5
      | pop => exact h5
      | decreaseTop e =>
        obtain ⟨x, hx, hsum⟩ := h5
        exact ⟨x, hx, isMaxBy_never (rd_mem hx), hsum⟩
      | clear => trivial
  exact key.correct

/-- C82 for heaps, as far as it holds: comparisons and deduplications may throw in any call. No call is
ever undefined but those that need an entry on an empty heap. Calls that return are right about
contents. A call that throws loses at most one entry besides doing what it is asked for, and leaves at
most one entry twice. Missing: no entry is lost or doubled (refuted below). -/
theorem heap_exceptions_partial (c : ConfX E) (w : E → M) (hw : c.Weight w) (P : E → Prop)
    (hcl : c.Closed P) (ops : List (PQOp E)) (hops : ∀ op ∈ ops, ∀ e ∈ op.pushed, P e)
    (seens : List (PQSeen E)) (n : ℕ) (t : List E) (h : runX c 0 [] ops = some (seens, n, t)) :
    BagTrace (LosesOne P w) w [] ops seens t ∧ (∀ e ∈ t, P e) ∧
      ∀ op, (stepX c n t op = none ↔ op.needsTop ∧ t = []) := by
  have key : ∀ (ops : List (PQOp E)) (n₀ : ℕ) (t₀ : List E) (seens : List (PQSeen E)),
      (∀ op ∈ ops, ∀ e ∈ op.pushed, P e) → (∀ e ∈ t₀, P e) →
      runX c n₀ t₀ ops = some (seens, n, t) →
      BagTrace (LosesOne P w) w t₀ ops seens t ∧ ∀ e ∈ t, P e := by
    intro ops
    induction ops with
    | nil =>
      intro n₀ t₀ seens _ hP h
      cases h
      exact ⟨.nil, hP⟩
    | cons op ops ih =>
      intro n₀ t₀ seens hops hP h
      have hnt : op.needsTop → t₀ ≠ [] := by
        rintro hn rfl
        rw [runX, stepX_undefined c n₀ hn] at h
        cases h
      obtain ⟨f, h1, h2⟩ := stepX_spec hw hcl n₀ t₀ op hnt hP (hops op List.mem_cons_self)
      rw [runX, h1] at h
      cases f with
      | on o n' t' =>
        obtain ⟨⟨seens', r⟩, h3, h4⟩ := Option.map_eq_some_iff.mp h
        cases h4
        obtain ⟨k1, k2⟩ := ih n' t' seens' (fun o ho => hops o (List.mem_cons_of_mem _ ho)) h2.1 h3
        exact ⟨.cons (.ret h2.2.1) k1, k2⟩
      | threw n' t' =>
        obtain ⟨⟨seens', r⟩, h3, h4⟩ := Option.map_eq_some_iff.mp h
        cases h4
        obtain ⟨k1, k2⟩ := ih n' t' seens' (fun o ho => hops o (List.mem_cons_of_mem _ ho)) h2.1 h3
        exact ⟨.cons (.threw h2.2) k1, k2⟩
  obtain ⟨k1, k2⟩ := key ops 0 [] seens hops nofun h
  refine ⟨k1, k2, ?_⟩
  intro op
  constructor
  · intro hnone
    by_contra hcon
    have hnt : op.needsTop → t ≠ [] := fun h1 h2 => hcon ⟨h1, h2⟩
    obtain ⟨f, h1, _⟩ := stepX_spec (w := w) hw (P := fun _ => True) (fun _ _ _ _ _ _ => trivial) n t
      op hnt (fun _ _ => trivial) (fun _ _ => trivial)
    rw [hnone] at h1
    cases h1
  · rintro ⟨h1, rfl⟩
    exact stepX_undefined c n h1

/-- C82 for heaps without deduplication: whether a call throws or not, the heap grows by one with each
push and shrinks by one with each pop. -/
theorem heap_exceptions_size (c : ConfX E) (hd : c.supportDedup = false) (n : ℕ) (t : List E)
    (op : PQOp E) (d : ℤ) (hop : op.sizeChange = some d) (f : Flow (Option E) E)
    (h : stepX c n t op = some f) :
    ∃ t', (t'.length : ℤ) = t.length + d ∧ ((∃ o n', f = .on o n' t') ∨ ∃ n', f = .threw n' t') := by
  have hlen : ∀ l : List E, wsum (fun _ => (1 : ℤ)) l = l.length := by
    intro l
    induction l with
    | nil => rfl
    | cons a l ih => rw [wsum_cons, ih, List.length_cons]; push_cast; ring
  have hnt : op.needsTop → t ≠ [] := by
    rintro hn rfl
    rw [stepX_undefined c n hn] at h
    cases h
  obtain ⟨f', h1, h2⟩ := stepX_spec (c := c) (w := fun _ => (1 : ℤ)) (fun h => by rw [hd] at h; cases h)
    (P := fun _ => True) (fun _ _ _ _ _ _ => trivial) n t op hnt (fun _ _ => trivial)
    (fun _ _ => trivial)
  rw [h] at h1
  cases h1
  cases f with
  | on o n' t' =>
    refine ⟨t', ?_, Or.inl ⟨o, n', rfl⟩⟩
    obtain ⟨_, h3, _⟩ := h2
    cases h3 with
    | push g => rw [hlen, hlen] at g; cases hop; exact g
    | pushRange g => cases hop
    | top _ g _ => rw [hlen, hlen] at g; cases hop; omega
    | pop _ g => rw [hlen, hlen] at g; cases hop; omega
    | decreaseTop _ g => rw [hlen, hlen] at g; cases hop; omega
    | clear => cases hop
  | threw n' t' =>
    refine ⟨t', ?_, Or.inr ⟨n', rfl⟩⟩
    obtain ⟨_, h3⟩ := h2
    cases h3 with
    | push v y _ _ g => rw [hlen, hlen] at g; cases hop; omega
    | pushRange l₁ e l₂ v y _ _ g => cases hop
    | pop x v y _ _ _ g => rw [hlen, hlen] at g; cases hop; omega
    | decreaseTop x v y _ _ _ g => rw [hlen, hlen] at g; cases hop; omega

/-! ## Exceptions that do damage -/

/-- Entries that are compared as numbers; comparison number `k` throws. -/
def throwsAt (k : ℕ) : ConfX ℕ where
  cmp n a b := if n = k then .exn else .val (a < b) (a == b)
  supportDedup := false
  dedup a _ := some a

/-- C82 is violated by heaps: a `pop` whose comparison throws after the hole has moved down loses the
entry that was to fill it, and leaves another one twice. -/
theorem heap_exceptions_refuted :
    ¬ ∀ (c : ConfX ℕ) (ops : List (PQOp ℕ)) (seens : List (PQSeen ℕ)) (n : ℕ) (t : List ℕ),
      c.supportDedup = false → runX c 0 [] ops = some (seens, n, t) →
      BagTrace (Clean (fun e => ({e} : Multiset ℕ))) (fun e => ({e} : Multiset ℕ)) [] ops seens t := by
  intro hall
  have h := hall (throwsAt 4) [.push 3, .push 2, .push 1, .push 0, .pop] _ _ _ rfl
    (show _ = some ([.ret none, .ret none, .ret none, .ret none, .threw], 5, [2, 2, 1]) by
      decide +kernel)
  -- the contents before the call that throws
  have before : ∀ t, BagTrace (Clean (fun e => ({e} : Multiset ℕ))) (fun e => ({e} : Multiset ℕ)) []
      [.push 3, .push 2, .push 1, .push 0] [.ret none, .ret none, .ret none, .ret none] t →
      (t : Multiset ℕ) = {3, 2, 1, 0} := by
    intro t ht
    cases ht with | cons h1 ht => cases ht with | cons h2 ht => cases ht with | cons h3 ht =>
    cases ht with | cons h4 ht =>
    cases ht
    cases h1 with | ret h1 => cases h2 with | ret h2 => cases h3 with | ret h3 => cases h4 with | ret h4 =>
    cases h1 with | push h1 => cases h2 with | push h2 => cases h3 with | push h3 => cases h4 with | push h4 =>
    rw [← wsum_singleton, h4, h3, h2, h1]
    rfl
  cases h with | cons h1 h => cases h with | cons h2 h => cases h with | cons h3 h =>
  cases h with | @cons _ t₄ _ _ _ _ _ h4 h => cases h with | cons h5 h =>
  cases h
  have hb := before _ (.cons h1 (.cons h2 (.cons h3 (.cons h4 .nil))))
  cases h5 with
  | threw h5 =>
    cases h5 with
    | nothing h =>
      rw [wsum_singleton, wsum_singleton, hb] at h
      revert h
      decide
    | done h =>
      cases h with
      | pop _ h =>
        rw [wsum_singleton, wsum_singleton, hb] at h
        have h0 := congrArg (Multiset.count 0) h
        have h3 := congrArg (Multiset.count 3) h
        have e1 : Multiset.count 0 (([2, 2, 1] : List ℕ) : Multiset ℕ) = 0 := by decide
        have e2 : Multiset.count 3 (([2, 2, 1] : List ℕ) : Multiset ℕ) = 0 := by decide
        have e3 : Multiset.count 0 ({3, 2, 1, 0} : Multiset ℕ) = 1 := by decide
        have e4 : Multiset.count 3 ({3, 2, 1, 0} : Multiset ℕ) = 1 := by decide
        rw [Multiset.count_add, e1, e3, Multiset.count_singleton] at h0
        rw [Multiset.count_add, e2, e4, Multiset.count_singleton] at h3
        split at h0
        · split at h3 <;> omega
        · omega

/-- After an exception in `push` a heap has lost its order for good: here no later comparison throws,
and `pop` returns 1 while 2 is held. -/
theorem heap_order_refuted :
    runX (throwsAt 0) 0 [] [.push 1, .push 2, .pop] =
      some ([.ret none, .threw, .ret (some 1)], 1, [2]) := by decide +kernel

/-! A heap whose answers depend on time alone: each second comparison says less. -/
#guard (((implX (fun n _ _ => (n % 2 == 0, false)) false (fun a _ => a)).run (0, [])
  [.push 1, .push 2, .push 3, .push 4, .push 5, .decreaseTop 9, .pop, .top, .pop]).map
    (fun r => (r.1, r.2.2))) ==
  some ([none, none, none, none, none, none, some 3, some 9, some 9], [4, 5, 1])

/-! With deduplication of entries that differ: the sum of all entries is kept. -/
#guard (((implX (fun n a b => (n % 3 == 0, a != b)) true (fun a b => a + b)).run (0, [])
  [.push 1, .push 2, .push 3, .push 4, .push 5, .push 6]).map (fun r => (r.1, r.2.2))) ==
  some ([none, none, none, none, none, none], [5, 7, 9])

example : (implX (fun n a b => (n % 3 == 0, a != b)) true (fun a b : ℕ => a + b)).Correct
    (fun _ => True) never (fun e => (e : ℤ)) :=
  heap_bag _ _ _ _ (fun _ _ _ _ _ => by push_cast; rfl)

example : (throwsAt 4).Weight (fun e => ({e} : Multiset ℕ)) ∧ (throwsAt 4).Closed (· < 4) :=
  ⟨nofun, fun _ _ _ ha _ h => by cases h; exact ha⟩

end Heap

namespace TourTree

variable {E : Type} {M : Type*} [AddCommMonoid M]

/-- C81 for tournament trees: whatever comparisons answer, and even if they are others in each call, a
tournament tree holds what was put in and not taken out. -/
theorem tourTree_bag (cs : ℕ → PQConf E) (w : E → M) :
    (implAt cs).Correct (fun _ => True) never w := by
  have key : (implAt cs).InvCorrect (fun s => Shape s.2) (fun x l => x ∈ l) (fun _ => True)
      never w := by
    refine ⟨shape_init, rfl, ?_, fun s _ => (entries_length s.2).symm, ?_, ?_⟩
    · intro s hs
      show (s.2.tree.length == 0) = true ↔ entries s.2 = []
      rw [beq_iff_eq]
      exact nonempty_tree hs
    · intro s op hs hn he
      obtain ⟨k, s⟩ := s
      have h1 : rd s.tree 1 = none := top_none hs he
      cases op with
      | push e => exact hn.elim
      | pushRange l => exact hn.elim
      | top => simp [implAt, step, top, h1]
      | pop => simp [implAt, step, pop, h1]
      | decreaseTop e => simp [implAt, step, decreaseTop, h1]
      | clear => exact hn.elim
    · intro s op hs _ hne
      obtain ⟨k, s⟩ := s
      have hs : Shape s := hs
      cases op with
      | push e =>
        obtain ⟨s', h1, h2, h3, _⟩ := push_spec (cs k) hs e
        refine ⟨none, (k + 1, s'), by simp [implAt, step, h1], h2, .push ?_, trivial⟩
        show wsum w (entries s') = wsum w (entries s) + w e
        simp [h3]
      | pushRange l =>
        obtain ⟨s', h1, h2, h3, _⟩ := pushRange_spec (cs k) l hs
        refine ⟨none, (k + 1, s'), by simp [implAt, step, h1], h2, .pushRange ?_, trivial⟩
        show wsum w (entries s') = wsum w (entries s) + wsum w l
        simp [h3]
      | top =>
        obtain ⟨x, _, h0, _⟩ := pop_spec (cs k) hs (hne trivial)
        exact ⟨some x, (k + 1, s), by simp [implAt, step, h0], hs,
          .top (isMaxBy_never (top_mem h0)) rfl (top_mem h0), h0.symm⟩
      | pop =>
        obtain ⟨x, s', h0, h1, h2, h3, _⟩ := pop_spec (cs k) hs (hne trivial)
        refine ⟨some x, (k + 1, s'), by simp [implAt, step, h1], h2,
          .pop (isMaxBy_never (top_mem h0)) ?_, h0.symm⟩
        show wsum w (entries s') + w x = wsum w (entries s)
        rw [← wsum_perm w h3, wsum_cons, add_comm]
      | decreaseTop e =>
        obtain ⟨x, s', h0, h1, h2, ⟨i, hi, h3⟩, _⟩ := decreaseTop_spec (cs k) hs (hne trivial) e
        have hsum : wsum w (entries s') + w x = wsum w (entries s) + w e := by
          rw [h3]
          exact wsum_replaced w hi e
        exact ⟨none, (k + 1, s'), by simp [implAt, step, h1], h2,
          .decreaseTop (isMaxBy_never (top_mem h0)) hsum, x, h0, isMaxBy_never (top_mem h0), hsum⟩
      | clear => exact ⟨none, (k + 1, clear s), rfl, shape_clear hs, .clear, trivial⟩
  exact key.correct

/-- C81 for tournament trees, for pushes and pops: what was pushed is what was popped and what is
held. -/
theorem tourTree_bag_conservation (cs : ℕ → PQConf E) (ops : List (PQOp E)) (outs : List (Option E))
    (s : ℕ × State E) (h : (implAt cs).run (implAt cs).init ops = some (outs, s))
    (hops : ∀ op ∈ ops, op ≠ .clear ∧ op ≠ .top ∧ ∀ e, op ≠ .decreaseTop e) :
    (ops.flatMap PQOp.pushed).Perm (outs.flatMap Option.toList ++ entries s.2) := by
  have := ((tourTree_bag cs (fun e => ({e} : Multiset E))).trace ops outs s
    (fun _ _ => trivial) h).conservation hops
  apply perm_of_wsum
  rw [wsum_append, add_comm (wsum _ (List.flatMap _ outs))]
  rw [wsum_nil, zero_add] at this
  exact this.symm

/-- C82 for tournament trees, as far as it holds: comparisons of `push` may throw, in each call at
entries of its own. No call is ever undefined but those that need an entry on an empty tree, and
contents are right: a push that throws has put its entry into the tree. Missing: exceptions in `pop` and
`decreaseTop` (refuted below), and comparisons that throw for entries that they have compared in the
same call before. -/
theorem tourTree_exceptions_partial (w : E → M) (calls : List ((E → E → Cmp) × PQOp E))
    (hc : ∀ call ∈ calls, OnlyPushThrows call) (seens : List (PQSeen E)) (s : State E)
    (h : runX init calls = some (seens, s)) :
    BagTrace (PushesOnly w) w [] (calls.map Prod.snd) seens (entries s) ∧
      ∀ call, OnlyPushThrows call →
        (stepX call.1 s call.2 = none ↔ call.2.needsTop ∧ entries s = []) := by
  have key : ∀ (calls : List ((E → E → Cmp) × PQOp E)) (s₀ : State E) (seens : List (PQSeen E)),
      (∀ call ∈ calls, OnlyPushThrows call) → Shape s₀ → runX s₀ calls = some (seens, s) →
      BagTrace (PushesOnly w) w (entries s₀) (calls.map Prod.snd) seens (entries s) ∧ Shape s := by
    intro calls
    induction calls with
    | nil =>
      intro s₀ seens _ hs h
      cases h
      exact ⟨.nil, hs⟩
    | cons call calls ih =>
      intro s₀ seens hc hs h
      have hnt : call.2.needsTop → entries s₀ ≠ [] := by
        intro hn he
        rw [runX, stepX_undefined call.1 hs hn he] at h
        cases h
      obtain ⟨o, s', h1, h2, h3⟩ := stepX_spec w (hc call List.mem_cons_self) hs hnt
      rw [runX, h1] at h
      obtain ⟨⟨seens', r⟩, h4, h5⟩ := Option.map_eq_some_iff.mp h
      cases h5
      obtain ⟨k1, k2⟩ := ih s' seens' (fun o ho => hc o (List.mem_cons_of_mem _ ho)) h2 h4
      exact ⟨.cons h3 k1, k2⟩
  obtain ⟨k1, k2⟩ := key calls init seens hc shape_init h
  refine ⟨k1, ?_⟩
  intro call hcall
  constructor
  · intro hnone
    by_contra hcon
    have hnt : call.2.needsTop → entries s ≠ [] := fun h1 h2 => hcon ⟨h1, h2⟩
    obtain ⟨o, s', h1, _⟩ := stepX_spec w hcall k2 hnt
    rw [hnone] at h1
    cases h1
  · rintro ⟨h1, h2⟩
    exact stepX_undefined call.1 k2 h1 h2

/-! ## Exceptions that do damage -/

/-- Comparison of numbers. -/
def cmpNat (a b : ℕ) : Cmp := .val (a < b)

/-- Comparison of numbers that throws for `p` and `q`. -/
def cmpNatBut (p q a b : ℕ) : Cmp := if a = p ∧ b = q then .exn else cmpNat a b

theorem cmpNat_val (a b : ℕ) : cmpNat a b ≠ .ub ∧ cmpNat a b ≠ .exn := ⟨nofun, nofun⟩

theorem cmpNatBut_ub (p q a b : ℕ) : cmpNatBut p q a b ≠ .ub := by
  unfold cmpNatBut
  split <;> nofun

/-- C82 is violated by tournament trees: after one exception in `pop` the next `pop` of a tree that holds
three entries is undefined, though no comparison throws any more. It uses a player that it has removed
from the vector. -/
theorem tourTree_pop_refuted :
    ∃ (calls : List ((ℕ → ℕ → Cmp) × PQOp ℕ)) (seens : List (PQSeen ℕ)) (s : State ℕ),
      (∀ call ∈ calls, ∀ a b, call.1 a b ≠ .ub) ∧ runX init calls = some (seens, s) ∧
      (∀ e, (cmpNatBut 4 5, PQOp.decreaseTop e) ∉ calls) ∧
      entries s = [4, 5, 2] ∧ stepX cmpNat s .pop = none := by
  obtain ⟨r, hr⟩ : ∃ r, runX init [(cmpNat, .push 4), (cmpNat, .push 2), (cmpNat, .push 6),
      (cmpNat, .push 5), (cmpNatBut 4 5, .pop)] = some r := Option.isSome_iff_exists.mp (by decide +kernel)
  refine ⟨_, r.1, r.2, ?_, hr, ?_, ?_, ?_⟩
  · simp only [List.mem_cons, List.not_mem_nil, or_false]
    rintro call (rfl | rfl | rfl | rfl | rfl) a b
    all_goals first
      | exact (cmpNat_val a b).1
      | exact cmpNatBut_ub 4 5 a b
  · simp
  · have : (runX init [(cmpNat, .push 4), (cmpNat, .push 2), (cmpNat, .push 6), (cmpNat, .push 5),
      (cmpNatBut 4 5, .pop)]).map (fun r => entries r.2) = some [4, 5, 2] := by decide +kernel
    rw [hr] at this
    exact Option.some.inj this
  · have : (runX init [(cmpNat, .push 4), (cmpNat, .push 2), (cmpNat, .push 6), (cmpNat, .push 5),
      (cmpNatBut 4 5, .pop)]).map (fun r => (stepX cmpNat r.2 .pop).isNone) = some true := by
        decide +kernel
    rw [hr] at this
    exact Option.isNone_iff_eq_none.mp (Option.some.inj this)

/-- The same after one exception in `decreaseTop`. -/
theorem tourTree_decreaseTop_refuted :
    ∃ (calls : List ((ℕ → ℕ → Cmp) × PQOp ℕ)) (seens : List (PQSeen ℕ)) (s : State ℕ),
      (∀ call ∈ calls, ∀ a b, call.1 a b ≠ .ub) ∧ runX init calls = some (seens, s) ∧
      (∀ call ∈ calls, call.2 ≠ .pop) ∧
      entries s = [4, 3, 3] ∧ stepX cmpNat s .pop = none := by
  obtain ⟨r, hr⟩ : ∃ r, runX init [(cmpNat, .push 4), (cmpNat, .push 6), (cmpNat, .decreaseTop 3),
      (cmpNat, .push 5), (cmpNatBut 4 3, .decreaseTop 3)] = some r :=
    Option.isSome_iff_exists.mp (by decide +kernel)
  refine ⟨_, r.1, r.2, ?_, hr, ?_, ?_, ?_⟩
  · simp only [List.mem_cons, List.not_mem_nil, or_false]
    rintro call (rfl | rfl | rfl | rfl | rfl) a b
    all_goals first
      | exact (cmpNat_val a b).1
      | exact cmpNatBut_ub 4 3 a b
  · simp
  · have : (runX init [(cmpNat, .push 4), (cmpNat, .push 6), (cmpNat, .decreaseTop 3),
      (cmpNat, .push 5), (cmpNatBut 4 3, .decreaseTop 3)]).map (fun r => entries r.2) =
        some [4, 3, 3] := by decide +kernel
    rw [hr] at this
    exact Option.some.inj this
  · have : (runX init [(cmpNat, .push 4), (cmpNat, .push 6), (cmpNat, .decreaseTop 3),
      (cmpNat, .push 5), (cmpNatBut 4 3, .decreaseTop 3)]).map
        (fun r => (stepX cmpNat r.2 .pop).isNone) = some true := by decide +kernel
    rw [hr] at this
    exact Option.isNone_iff_eq_none.mp (Option.some.inj this)

/-- After an exception in `push` a tournament tree has lost its order: here no later comparison throws,
and `pop` returns 1 while 2 is held. -/
theorem tourTree_order_refuted :
    (runX init [(cmpNat, .push 1), (cmpNatBut 1 2, .push 2), (cmpNat, .pop)]).map
      (fun r => (r.1, entries r.2)) = some ([.ret none, .threw, .ret (some 1)], [2]) := by
  decide +kernel

example : ∀ call ∈ [(cmpNat, .push 1), (cmpNatBut 1 2, .push 2), (cmpNat, PQOp.pop)],
    OnlyPushThrows call := by
  simp only [List.mem_cons, List.not_mem_nil, or_false]
  rintro call (rfl | rfl | rfl)
  · exact ⟨fun a b => (cmpNat_val a b).1, fun _ a b => (cmpNat_val a b).2⟩
  · exact ⟨cmpNatBut_ub 1 2, fun h => h.elim⟩
  · exact ⟨fun a b => (cmpNat_val a b).1, fun _ a b => (cmpNat_val a b).2⟩

/-! Comparisons that say the opposite in each second call. -/
#guard (((implAt (fun k => (⟨fun a b => if k % 2 = 0 then a < b else b < a, fun _ _ => false, false,
    fun a _ => a⟩ : PQConf ℕ))).run (0, init)
  [.push 1, .push 2, .push 3, .push 4, .push 5, .decreaseTop 9, .pop, .top, .pop]).map
    (fun r => (r.1, entries r.2.2))) ==
  some ([none, none, none, none, none, none, some 1, some 9, some 9], [4, 2, 3])

end TourTree

end Verif
