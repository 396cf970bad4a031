import Verif.HeapLogProofs

/-!
# Properties of `mathic::Heap`: C01, C02
-/

namespace Verif.Heap

variable {E M : Type*} [AddCommMonoid M]

/-- Each call on a heap keeps it a heap and does what the specification asks for. -/
theorem heap_inv (c : PQConf E) (hc : c.Lawful) (w : E → M) (hw : c.Weight w) :
    (impl c).InvCorrect (IsHeap c) (fun x l => x ∈ l) (fun _ => True) c.lt w := by
  refine ⟨?_, ?_, ?_, ?_, ?_, ?_⟩
  · exact isHeap_nil
  · rfl
  · intro s _
    show (List.length s == 0) = true ↔ s = []
    rw [beq_iff_eq]
    exact List.length_eq_zero_iff
  · intro s _
    rfl
  · intro s op _ hn he
    have he : s = [] := he
    subst he
    cases op with
    | push e => exact hn.elim
    | pushRange l => exact hn.elim
    | top => rfl
    | pop => rfl
    | decreaseTop e =>
      show (decreaseTop c [] e).map _ = none
      rw [decreaseTop_nil]
      rfl
    | clear => exact hn.elim
  · intro s op hs _ hne
    cases op with
    | push e =>
      obtain ⟨t', h1, h2, h3⟩ := push_gen hc hw hs e
      exact ⟨none, t', by simp [impl, step, h1], h2, .push h3, trivial⟩
    | pushRange l =>
      obtain ⟨t', h1, h2, h3⟩ := pushRange_gen hc hw hs l
      exact ⟨none, t', by simp [impl, step, h1], h2, .pushRange h3, trivial⟩
    | top =>
      have hl : s.length ≠ 0 := fun h0 => hne trivial (List.length_eq_zero_iff.mp h0)
      obtain ⟨x, hx⟩ := rd_exists (t := s) (i := 1) (le_refl _) (by omega)
      refine ⟨some x, s, by simp [impl, step, top, hx], hs, .top ⟨rd_mem hx, ?_⟩ rfl (rd_mem hx),
        hx.symm⟩
      intro y hy
      obtain ⟨i, hi⟩ := mem_rd hy
      exact hs.max hc hx i y hi
    | pop =>
      have hl : s.length ≠ 0 := fun h0 => hne trivial (List.length_eq_zero_iff.mp h0)
      obtain ⟨x, hx⟩ := rd_exists (t := s) (i := 1) (le_refl _) (by omega)
      obtain ⟨t', h1, h2, h3, _⟩ := pop_gen hc hw hs x hx
      refine ⟨some x, t', by simp [impl, step, h1], h2, .pop ⟨rd_mem hx, ?_⟩ h3, hx.symm⟩
      intro y hy
      obtain ⟨i, hi⟩ := mem_rd hy
      exact hs.max hc hx i y hi
    | decreaseTop e =>
      have hl : s.length ≠ 0 := fun h0 => hne trivial (List.length_eq_zero_iff.mp h0)
      obtain ⟨x, hx⟩ := rd_exists (t := s) (i := 1) (le_refl _) (by omega)
      obtain ⟨t', h1, h2, h3⟩ := decreaseTop_gen hc hw hs e x hx
      have hmax : IsMaxBy (fun x l => x ∈ l) c.lt x s := by
        refine ⟨rd_mem hx, ?_⟩
        intro y hy
        obtain ⟨i, hi⟩ := mem_rd hy
        exact hs.max hc hx i y hi
      exact ⟨none, t', by simp [impl, step, h1], h2, .decreaseTop (x := x) hmax h3, x, hx, hmax, h3⟩
    | clear => exact ⟨none, [], rfl, isHeap_nil, .clear, trivial⟩

/-- C01/C02, in terms of any weight: on every history of calls the heap is a max priority queue. -/
theorem heap_correct (c : PQConf E) (hc : c.Lawful) (w : E → M) (hw : c.Weight w) :
    (impl c).Correct (fun _ => True) c.lt w :=
  (heap_inv c hc w hw).correct

/-- C01: without deduplication the entries held are, as a multiset, exactly those pushed and not
yet popped or replaced, on every history. -/
theorem heap_multiset (c : PQConf E) (hc : c.Lawful) (hd : c.supportDedup = false) :
    (impl c).Correct (fun _ => True) c.lt (fun e => ({e} : Multiset E)) :=
  heap_correct c hc _ (fun h => by rw [hd] at h; cases h)

/-- C01, for histories of pushes and pops: pushed = popped + held, as multisets. -/
theorem heap_conservation (c : PQConf E) (hc : c.Lawful) (hd : c.supportDedup = false)
    (ops : List (PQOp E)) (outs : List (Option E)) (t : List E)
    (h : (impl c).run [] ops = some (outs, t))
    (hops : ∀ op ∈ ops, op ≠ .clear ∧ op ≠ .top ∧ ∀ e, op ≠ .decreaseTop e) :
    (ops.flatMap PQOp.pushed).Perm (outs.flatMap Option.toList ++ t) := by
  have := ((heap_multiset c hc hd).trace ops outs t (fun _ _ => trivial) h).conservation hops
  apply perm_of_wsum
  rw [wsum_append, add_comm (wsum _ (List.flatMap _ outs))]
  rw [wsum_nil, zero_add] at this
  exact this.symm

/-- C02: with deduplication, the weight of each class of equal entries is kept: for any weight of
entries that `deduplicate` adds up, the weight held in the class of `x` changes by exactly what is
pushed, popped or replaced. -/
theorem heap_class_weight (c : PQConf E) (hc : c.Lawful) (wt : E → M)
    (hwt : ∀ a b, c.eq a b = true → wt (c.dedup a b) = wt a + wt b) :
    (impl c).Correct (fun _ => True) c.lt (fun e x => if c.eq e x then wt e else 0) := by
  apply heap_correct c hc
  intro _ a b hab
  funext x
  have h1 : c.eq (c.dedup a b) x = c.eq a x := by
    rw [hc.eq_iff, hc.eq_iff, hc.dedup_lt a b x hab, hc.lt_dedup a b x hab]
  have h2 : c.eq b x = c.eq a x := by
    have := hab
    rw [hc.eq_iff] at this ⊢
    rw [hc.eq_iff]
    simp only [Bool.and_eq_true, Bool.not_eq_true'] at this
    have hw := hc.weak
    have e1 : c.lt b x = c.lt a x := by
      cases hx : c.lt a x with
      | true =>
        rcases hw.negTrans a b x hx with h | h
        · rw [this.1] at h; cases h
        · exact h
      | false => exact hw.ge_trans this.2 hx
    have e2 : c.lt x b = c.lt x a := by
      cases hx : c.lt x a with
      | true =>
        rcases hw.negTrans x b a hx with h | h
        · exact h
        · rw [this.2] at h; cases h
      | false => exact hw.ge_trans hx this.1
    rw [e1, e2]
  simp only [Pi.add_apply, h1, h2]
  split
  · exact hwt a b hab
  · simp

/-- C02: `deduplicate` is only called on equal entries: what it does to other pairs of entries
changes nothing in what any call does on any tree. -/
theorem heap_dedup_only_equal (c : PQConf E) (d : E → E → E)
    (hd : ∀ a b, c.eq a b = true → d a b = c.dedup a b) :
    impl { c with dedup := d } = impl c := by
  have hclimb : ∀ t pos v, climb { c with dedup := d } t pos v = climb c t pos v := by
    intro t pos v
    fun_induction climb c t pos v <;> rw [climb] <;> simp_all
  have hhole' : ∀ n t p, t.length - p = n →
      moveHoleDown { c with dedup := d } t p = moveHoleDown c t p := by
    intro n
    induction n using Nat.strong_induction_on with
    | _ n ih =>
      intro t p hn
      rw [moveHoleDown, moveHoleDown]
      split
      · rfl
      · split
        · split
          · dsimp only
            generalize hch : (if c.lt _ _ = true then 2 * p + 1 else 2 * p) = child
            have hch' : 2 * p ≤ child := by split at hch <;> omega
            split
            · rfl
            · split
              · rfl
              · rename_i hw
                have := wr_length hw
                exact ih _ (by omega) _ _ rfl
          · rfl
        · rfl
  have hhole : ∀ t p, moveHoleDown { c with dedup := d } t p = moveHoleDown c t p :=
    fun t p => hhole' _ t p rfl
  have hup : ∀ n t o v, t.length = n →
      moveValueUp { c with dedup := d } t o v = moveValueUp c t o v := by
    intro n
    induction n using Nat.strong_induction_on with
    | _ n ih =>
      intro t o v hn
      rw [moveValueUp_eq, moveValueUp_eq, hclimb]
      cases h : climb c t o v with
      | none => rfl
      | some r =>
        cases r with
        | place t' p => rfl
        | dup t' p =>
          obtain ⟨_, _, _, ⟨u, _, hu, heq⟩, _⟩ := climb_dup h
          have hm : mergeUp { c with dedup := d } t' o p v = mergeUp c t' o p v := by
            simp only [mergeUp, hu, hd u v heq]
          simp only [hm]
          cases h2 : mergeUp c t' o p v with
          | none => rfl
          | some r =>
            have hl1 := mergeUp_length h2
            have hl2 := (climb_length h).2 _ _ rfl
            simp only
            rw [ih r.1.length (by omega) r.1 o r.2 rfl]
  have hpush : ∀ t e, push { c with dedup := d } t e = push c t e :=
    fun t e => hup _ _ _ _ rfl
  have hrange : ∀ l t, pushRange { c with dedup := d } t l = pushRange c t l := by
    intro l
    induction l with
    | nil => intro t; rfl
    | cons e l ih => intro t; simp only [pushRange, hpush, ih]
  have hstep : ∀ t op, step { c with dedup := d } t op = step c t op := by
    intro t op
    cases op with
    | push e => simp only [step, hpush]
    | pushRange l => simp only [step, hrange]
    | top => rfl
    | pop => simp only [step, pop, hhole, hup _ _ _ _ rfl]
    | decreaseTop e => simp only [step, decreaseTop, hhole, hup _ _ _ _ rfl]
    | clear => rfl
  simp only [impl, PQImpl.mk.injEq, heq_eq_eq, true_and, and_true]
  funext t op
  exact hstep t op

/-! A concrete configuration: terms (exponent, coefficient) ordered by exponent, equal exponents
are merged by adding coefficients. -/

/-- Terms ordered by exponent; deduplication adds coefficients. -/
def termConf (dedup : Bool) : PQConf (ℕ × ℕ) where
  lt a b := decide (a.1 < b.1)
  eq a b := decide (a.1 = b.1)
  supportDedup := dedup
  dedup a b := (a.1, a.2 + b.2)

theorem termConf_lawful (dedup : Bool) : (termConf dedup).Lawful where
  weak := {
    irrefl := by simp [termConf]
    trans := by simp only [termConf, decide_eq_true_eq]; omega
    negTrans := by simp only [termConf, decide_eq_true_eq]; omega }
  eq_iff := by
    intro a b
    simp only [termConf]
    rw [← decide_not, ← decide_not, ← Bool.decide_and]
    congr 1
    apply propext
    omega
  dedup_lt := by simp [termConf]
  lt_dedup := by simp [termConf]

/-- The hypotheses of `heap_multiset` are met. -/
example : (impl (termConf false)).Correct (fun _ => True) (termConf false).lt
    (fun e => ({e} : Multiset (ℕ × ℕ))) :=
  heap_multiset _ (termConf_lawful false) rfl

/-- The hypotheses of `heap_class_weight` are met, with deduplication on. -/
example : (impl (termConf true)).Correct (fun _ => True) (termConf true).lt
    (fun e x => if (termConf true).eq e x then e.2 else 0) :=
  heap_class_weight _ (termConf_lawful true) (fun e => e.2) (by simp [termConf])

-- The model computes: equal terms are merged on push and on pop.
#guard (show Option (List (Option (ℕ × ℕ)) × List (ℕ × ℕ)) from (impl (termConf true)).run []
    [.push (1, 1), .push (5, 1), .push (3, 1), .push (5, 2), .push (1, 7), .pop, .push (3, 4), .pop,
      .pop])
  == some ([none, none, none, none, none, some (5, 3), none, some (3, 5), some (1, 8)], [])

end Verif.Heap
