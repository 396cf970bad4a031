import Verif.GeobucketProofs

/-!
# Helper lemmas: only equal entries are deduplicated
-/

namespace Verif.Geobucket

variable {E : Type} {c : Conf E}

/-- The same configuration with another `deduplicate`. -/
def Conf.withDedup (c : Conf E) (d : E → E → E) : Conf E := { c with dedup := d }

variable {d : E → E → E}

theorem merge_dedup (hd : ∀ a b, c.eq a b = true → d a b = c.dedup a b) (l₁ l₂ : List E) :
    merge (c.withDedup d) l₁ l₂ = merge c l₁ l₂ := by
  fun_induction merge c l₁ l₂ <;> rw [merge] <;> simp_all [Conf.withDedup] <;> exact ⟨rfl, rfl⟩

theorem dedupInto_dedup (s : State E) (b q : ℕ) (x y : E) (h : d x y = c.dedup x y) :
    dedupInto (c.withDedup d) s b q x y = dedupInto c s b q x y := by
  unfold dedupInto
  simp only [Conf.withDedup, h]
  rfl

theorem decLoop_dedup (hd : ∀ a b, c.eq a b = true → d a b = c.dedup a b) (b : ℕ) :
    ∀ (n p : ℕ) (s : State E), decLoop (c.withDedup d) b n p s = decLoop c b n p s := by
  intro n
  induction n with
  | zero => intro p s; rfl
  | succ n ih =>
    intro p s
    rw [decLoop, decLoop]
    simp only [ih]
    refine bind_congr fun q => bind_congr fun x => bind_congr fun y => ?_
    by_cases h1 : c.lt x y = true
    · have : (c.withDedup d).lt x y = true := h1
      rw [if_pos h1, if_pos this]
    · have h1' : ¬ (c.withDedup d).lt x y = true := h1
      rw [if_neg h1, if_neg h1']
      by_cases h2 : (!c.supportDedup || !c.eq x y) = true
      · have : (!(c.withDedup d).supportDedup || !(c.withDedup d).eq x y) = true := h2
        rw [if_pos h2, if_pos this]
      · have h2' : ¬ (!(c.withDedup d).supportDedup || !(c.withDedup d).eq x y) = true := h2
        rw [if_neg h2, if_neg h2']
        simp at h2
        rw [dedupInto_dedup _ _ _ _ _ (hd x y h2.2)]

theorem maxLoop_dedup (hd : ∀ a b, c.eq a b = true → d a b = c.dedup a b)
    (hsym : ∀ a b, c.eq a b = c.eq b a) :
    ∀ (n m it : ℕ) (s : State E), maxLoop (c.withDedup d) n m it s = maxLoop c n m it s := by
  intro n
  induction n with
  | zero => intro m it s; rfl
  | succ n ih =>
    intro m it s
    rw [maxLoop, maxLoop]
    simp only [ih]
    refine bind_congr fun ib => ?_
    split
    · rfl
    · refine bind_congr fun mb => bind_congr fun x => bind_congr fun y => ?_
      by_cases h1 : c.lt x y = true
      · have : (c.withDedup d).lt x y = true := h1
        rw [if_pos h1, if_pos this]
      · have h1' : ¬ (c.withDedup d).lt x y = true := h1
        rw [if_neg h1, if_neg h1']
        by_cases h2 : (c.supportDedup && c.eq x y) = true
        · have : ((c.withDedup d).supportDedup && (c.withDedup d).eq x y) = true := h2
          rw [if_pos h2, if_pos this]
          simp at h2
          have : (c.withDedup d).dedup y x = c.dedup y x := hd y x (by rw [hsym]; exact h2.2)
          rw [this]
          rfl
        · have : ¬ ((c.withDedup d).supportDedup && (c.withDedup d).eq x y) = true := h2
          rw [if_neg h2, if_neg this]

theorem getMax_dedup (hd : ∀ a b, c.eq a b = true → d a b = c.dedup a b)
    (hsym : ∀ a b, c.eq a b = c.eq b a) (s : State E) : getMax (c.withDedup d) s = getMax c s := by
  unfold getMax
  simp only [maxLoop_dedup hd hsym]
  rfl

theorem keyDecreased_dedup (hd : ∀ a b, c.eq a b = true → d a b = c.dedup a b) (s : State E) (b : ℕ) :
    keyDecreased (c.withDedup d) s b = keyDecreased c s b := by
  unfold keyDecreased
  simp only [decLoop_dedup hd]
  rfl

theorem incLoop_dedup (bs : List (Bucket E)) (b : ℕ) :
    ∀ (n : ℕ) (f : Front), incLoop (c.withDedup d) bs b n f = incLoop c bs b n f := by
  intro n
  induction n with
  | zero => intro f; rfl
  | succ n ih =>
    intro f
    rw [incLoop, incLoop]
    simp only [ih]
    rfl

theorem keyIncreased_dedup (s : State E) (b : ℕ) :
    keyIncreased (c.withDedup d) s b = keyIncreased c s b := by
  unfold keyIncreased keyIncreasedT
  simp only [incLoop_dedup]
  rfl

theorem frontInsert_dedup (s : State E) (b : ℕ) : frontInsert (c.withDedup d) s b = frontInsert c s b := by
  unfold frontInsert keyIncreasedT
  simp only [incLoop_dedup]
  rfl

theorem mergeToNonEmpty_dedup (hd : ∀ a b, c.eq a b = true → d a b = c.dedup a b) (s : State E) (i : ℕ) (l : List E) :
    mergeToNonEmpty (c.withDedup d) s i l = mergeToNonEmpty c s i l := by
  unfold mergeToNonEmpty mergeRes
  simp only [merge_dedup hd, keyIncreased_dedup]
  rfl

theorem mergeBuckets_dedup (hd : ∀ a b, c.eq a b = true → d a b = c.dedup a b) (s : State E) (i j : ℕ) :
    mergeBuckets (c.withDedup d) s i j = mergeBuckets c s i j := by
  unfold mergeBuckets
  simp only [mergeToNonEmpty_dedup hd]
  rfl

theorem mergeToEmpty_dedup (hd : ∀ a b, c.eq a b = true → d a b = c.dedup a b) (s : State E) (i j : ℕ) (l : List E) :
    mergeToEmpty (c.withDedup d) s i j l = mergeToEmpty c s i j l := by
  unfold mergeToEmpty
  simp only [merge_dedup hd, keyIncreased_dedup]
  rfl

theorem mergeToTmp_dedup (hd : ∀ a b, c.eq a b = true → d a b = c.dedup a b) (s : State E) (i : ℕ) (l : List E) :
    mergeToTmp (c.withDedup d) s i l = mergeToTmp c s i l := by
  unfold mergeToTmp
  simp only [merge_dedup hd]
  rfl

theorem assignNew_dedup (s : State E) (i : ℕ) (l : List E) :
    assignNew (c.withDedup d) s i l = assignNew c s i l := by
  unfold assignNew
  simp only [frontInsert_dedup]

theorem reserveLoop_dedup : ∀ (n i a : ℕ) (s : State E),
    reserveLoop (c.withDedup d) n i a s = reserveLoop c n i a s := by
  intro n
  induction n with
  | zero => intro i a s; rfl
  | succ n ih =>
    intro i a s
    rw [reserveLoop, reserveLoop]
    simp only [ih]
    rfl

theorem cascadeLoop_dedup (hd : ∀ a b, c.eq a b = true → d a b = c.dedup a b) :
    ∀ (n i : ℕ) (l : List E) (s : State E), cascadeLoop (c.withDedup d) n i l s = cascadeLoop c n i l s := by
  intro n
  induction n with
  | zero => intro i l s; rfl
  | succ n ih =>
    intro i l s
    rw [cascadeLoop, cascadeLoop]
    simp only [ih, mergeToNonEmpty_dedup hd, mergeToEmpty_dedup hd, mergeToTmp_dedup hd]

theorem premergeRange_dedup : ∀ (n r i : ℕ) (s : State E),
    premergeRange (c.withDedup d) n r i s = premergeRange c n r i s := by
  intro n
  induction n with
  | zero => intro r i s; rfl
  | succ n ih =>
    intro r i s
    rw [premergeRange, premergeRange]
    simp only [ih]
    rfl

theorem moveLoop_dedup : ∀ (n r : ℕ) (s : State E), moveLoop (c.withDedup d) n r s = moveLoop c n r s := by
  intro n
  induction n with
  | zero => intro r s; rfl
  | succ n ih =>
    intro r s
    rw [moveLoop, moveLoop]
    simp only [ih]
    rfl

theorem growLoop_dedup : ∀ (n a : ℕ) (s : State E), growLoop (c.withDedup d) n a s = growLoop c n a s := by
  intro n
  induction n with
  | zero => intro a s; rfl
  | succ n ih =>
    intro a s
    rw [growLoop, growLoop]
    simp only [ih]
    rfl

theorem insert_dedup (hd : ∀ a b, c.eq a b = true → d a b = c.dedup a b) (s : State E) (i : ℕ) (l : List E) :
    insert (c.withDedup d) s i l = insert c s i l := by
  unfold insert insertPremerge insertNoPremerge premerges
  simp only [premergeRange_dedup, mergeBuckets_dedup hd, moveLoop_dedup, assignNew_dedup, mergeToNonEmpty_dedup hd,
    reserveLoop_dedup, mergeToEmpty_dedup hd, mergeToTmp_dedup hd, cascadeLoop_dedup hd]
  rfl

theorem search_dedup (es : List E) (e : E) : search (c.withDedup d) es e = search c es e := by
  have h1 : ∀ start range, binarySearch (c.withDedup d) es e start range = binarySearch c es e start range := by
    intro start range
    fun_induction binarySearch c es e start range <;> rw [binarySearch] <;> simp_all [Conf.withDedup]
  have h2 : ∀ (es : List E) i, linearSearch (c.withDedup d) e i es = linearSearch c e i es := by
    intro es
    induction es with
    | nil => intro i; rfl
    | cons m es ih =>
      intro i
      rw [linearSearch, linearSearch, ih]
      rfl
  unfold search
  rw [h1, h2]
  rfl

theorem search_dup {es : List E} {e : E} {i : ℕ} (h : search c es e = some (.dup i)) :
    ∃ m, es[i]? = some m ∧ c.eq e m = true := by
  have h1 : ∀ start range, binarySearch c es e start range = some (.dup i) → ∃ m, es[i]? = some m ∧ c.eq e m = true := by
    intro start range
    fun_induction binarySearch c es e start range with
    | case1 => intro h; cases h
    | case2 => intro h; cases h
    | case3 start range hr m hm hlt ih => exact ih
    | case4 start range hr m hm hlt heq ih => exact ih
    | case5 start range hr m hm hlt heq =>
      intro h
      cases h
      simp at heq
      exact ⟨m, hm, heq.2⟩
  have h2 : ∀ (l : List E) k, linearSearch c e k l = .dup i → ∃ m, k ≤ i ∧ l[i - k]? = some m ∧ c.eq e m = true := by
    intro l
    induction l with
    | nil => intro k h; cases h
    | cons m l ih =>
      intro k h
      rw [linearSearch] at h
      split at h
      · cases h
      · split at h
        · rename_i heq
          cases h
          simp at heq
          exact ⟨m, le_refl _, by simp, heq.2⟩
        · obtain ⟨m', k1, k2, k3⟩ := ih (k + 1) h
          refine ⟨m', by omega, ?_, k3⟩
          have : i - k = (i - (k + 1)) + 1 := by omega
          rw [this]
          exact k2
  unfold search at h
  split at h
  · exact h1 _ _ h
  · simp at h
    obtain ⟨m, _, k2, k3⟩ := h2 es 0 h
    exact ⟨m, k2, k3⟩

theorem push_dedup (hd : ∀ a b, c.eq a b = true → d a b = c.dedup a b)
    (hsym : ∀ a b, c.eq a b = c.eq b a) (s : State E) (e : E) : push (c.withDedup d) s e = push c s e := by
  unfold push
  simp only [insert_dedup hd, frontInsert_dedup, search_dedup, keyIncreased_dedup]
  refine bind_congr fun b => ?_
  split
  · rfl
  · split
    · rfl
    · cases hs : search c b.es e with
      | none => rfl
      | some p =>
        cases p with
        | insertAt i => rfl
        | dup i =>
          obtain ⟨m, hm, he⟩ := search_dup hs
          have : (c.withDedup d).dedup m e = c.dedup m e := hd m e (by rw [hsym]; exact he)
          simp only [Option.bind_eq_bind, Option.bind_some, hm, this]
          rfl

theorem step_dedup (hd : ∀ a b, c.eq a b = true → d a b = c.dedup a b)
    (hsym : ∀ a b, c.eq a b = c.eq b a) (s : State E) (op : PQOp E) : step (c.withDedup d) s op = step c s op := by
  cases op with
  | push e => simp only [step, push_dedup hd hsym]
  | pushRange l =>
    simp only [step, pushRange, growLoop_dedup, insert_dedup hd]
    rfl
  | top =>
    simp only [step, top, getMax_dedup hd hsym]
    rfl
  | pop =>
    simp only [step, pop, getMax_dedup hd hsym, keyDecreased_dedup hd]
    rfl
  | decreaseTop e =>
    simp only [step, decreaseTop, pop, getMax_dedup hd hsym, keyDecreased_dedup hd, push_dedup hd hsym]
    rfl
  | clear => rfl

end Verif.Geobucket
