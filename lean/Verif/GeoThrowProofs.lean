import Verif.GeoThrowSpec
import Verif.PropGeobucket

/-!
# Lemmas on pushes that throw: no call looks at the number of entries
-/

namespace Verif.Geobucket

variable {E α β γ δ : Type}

/-- Both are undefined, or both are defined and related. -/
inductive Both (R : α → β → Prop) : Option α → Option β → Prop where
  | none : Both R none none
  | some {a b} (h : R a b) : Both R (some a) (some b)

theorem Both.bind {R : α → β → Prop} {Q : γ → δ → Prop} {x : Option α} {y : Option β} {f : α → Option γ}
    {g : β → Option δ} (h : Both R x y) (h' : ∀ a b, R a b → Both Q (f a) (g b)) : Both Q (x >>= f) (y >>= g) := by
  cases h with
  | none => exact .none
  | some h => exact h' _ _ h

theorem Both.same {Q : γ → δ → Prop} {x : Option α} {f : α → Option γ} {g : α → Option δ}
    (h' : ∀ a, Both Q (f a) (g a)) : Both Q (x >>= f) (x >>= g) := by
  cases x with
  | none => exact .none
  | some a => exact h' a

theorem Both.map {R : α → β → Prop} {Q : γ → δ → Prop} {x : Option α} {y : Option β} {f : α → γ} {g : β → δ}
    (h : Both R x y) (h' : ∀ a b, R a b → Q (f a) (g b)) : Both Q (x.map f) (y.map g) := by
  cases h with
  | none => exact .none
  | some h => exact .some (h' _ _ h)

theorem Both.mapSame {Q : γ → δ → Prop} {x : Option α} {f : α → γ} {g : α → δ} (h' : ∀ a, Q (f a) (g a)) :
    Both Q (x.map f) (x.map g) := by
  cases x with
  | none => exact .none
  | some a => exact .some (h' a)

theorem Both.ite {R : α → β → Prop} {P : Prop} [Decidable P] {x x' : Option α} {y y' : Option β} (h : Both R x y)
    (h' : Both R x' y') : Both R (if P then x else x') (if P then y else y') := by
  by_cases hP : P
  · rw [if_pos hP, if_pos hP]; exact h
  · rw [if_neg hP, if_neg hP]; exact h'

/-- The states differ in the number of entries only, the second has up to `k` more. -/
inductive Like (k : ℕ) : State E → State E → Prop where
  | mk {B n m F} (h : n ≤ m) (h' : m ≤ n + k) : Like k ⟨B, n, F⟩ ⟨B, m, F⟩

/-- As `Like`, with equal first parts. -/
def LikeP (k : ℕ) (a b : α × State E) : Prop := a.1 = b.1 ∧ Like k a.2 b.2

variable {c : Conf E} {k : ℕ} {s s' : State E}

theorem like_sub {B : List (Bucket E)} {n m : ℕ} {F : Front} (h : n ≤ m) (h' : m ≤ n + k) (r : ℕ) :
    Like k ⟨B, n - r, F⟩ ⟨B, m - r, F⟩ := ⟨by omega, by omega⟩

theorem like_add {B : List (Bucket E)} {n m : ℕ} {F : Front} (h : n ≤ m) (h' : m ≤ n + k) (r : ℕ) :
    Like k ⟨B, n + r, F⟩ ⟨B, m + r, F⟩ := ⟨by omega, by omega⟩

theorem keyIncreased_like (h : Like k s s') (b : ℕ) : Both (Like k) (keyIncreased c s b) (keyIncreased c s' b) := by
  obtain ⟨h, h'⟩ := h
  exact .ite (.mapSame fun _ => .mk h h') (.some (.mk h h'))

theorem frontInsert_like (h : Like k s s') (b : ℕ) : Both (Like k) (frontInsert c s b) (frontInsert c s' b) := by
  obtain ⟨h, h'⟩ := h
  exact .ite (.same fun _ => .same fun _ => .same fun _ => .same fun _ => .some (.mk h h')) (.some (.mk h h'))

theorem frontRemove_like (h : Like k s s') (b : ℕ) : Both (Like k) (frontRemove c s b) (frontRemove c s' b) := by
  obtain ⟨h, h'⟩ := h
  exact .ite (.mapSame fun _ => .mk h h') (.some (.mk h h'))

theorem dedupInto_like (h : Like k s s') (b q : ℕ) (x y : E) :
    Both (Like k) (dedupInto c s b q x y) (dedupInto c s' b q x y) := by
  obtain ⟨h, h'⟩ := h
  exact .same fun _ => .same fun _ => .same fun _ => .same fun _ => .some (like_sub h h' 1)

theorem decLoop_like (b : ℕ) : ∀ (n p : ℕ) {s s' : State E}, Like k s s' →
    Both (Like k) (decLoop c b n p s) (decLoop c b n p s') := by
  intro n
  induction n with
  | zero =>
    intro p s s' h
    obtain ⟨h, h'⟩ := h
    exact .mapSame fun _ => .mk h h'
  | succ n ih =>
    intro p s s' h
    obtain ⟨h, h'⟩ := h
    refine .same fun q => .same fun x => .same fun y => .ite (.same fun _ => .same fun _ => ih _ (.mk h h'))
      (.ite (.mapSame fun _ => .mk h h') (.bind (dedupInto_like (.mk h h') _ _ _ _) fun s s' g => ?_))
    obtain ⟨g, g'⟩ := g
    exact .same fun _ => .ite (.same fun _ => .same fun _ => .some (.mk g g'))
      (.same fun _ => .same fun _ => ih _ (.mk g g'))

theorem keyDecreased_like (h : Like k s s') (b : ℕ) : Both (Like k) (keyDecreased c s b) (keyDecreased c s' b) := by
  obtain ⟨h, h'⟩ := h
  rename_i B n m F
  refine .ite ?_ (.some (.mk h h'))
  simp only
  rcases B[b]? with - | bb
  · exact .none
  · refine .ite (.mapSame fun _ => .mk h h') ?_
    rcases F.pos[b]? with - | (- | p | -)
    · exact .none
    · exact .none
    · exact .ite (decLoop_like _ _ _ (.mk h h')) .none
    · exact .none

theorem swapKeys_like (h : Like k s s') (a b : ℕ) : Both (Like k) (swapKeys c s a b) (swapKeys c s' a b) := by
  obtain ⟨h, h'⟩ := h
  exact .ite (.same fun _ => .same fun _ => .same fun _ => .same fun _ => .same fun _ => .same fun _ => .some (.mk h h'))
    (.some (.mk h h'))

theorem maxLoop_like : ∀ (n m it : ℕ) {s s' : State E}, Like k s s' →
    Both (LikeP k) (maxLoop c n m it s) (maxLoop c n m it s') := by
  intro n
  induction n with
  | zero => intro m it s s' h; exact .some ⟨rfl, h⟩
  | succ n ih =>
    intro m it s s' h
    obtain ⟨h, h'⟩ := h
    exact .same fun _ => .ite (ih _ _ (.mk h h')) (.same fun _ => .same fun _ => .same fun _ => .ite (ih _ _ (.mk h h'))
      (.ite (.same fun _ => .same fun _ => .same fun _ => ih _ _ (like_sub h h' 1)) (ih _ _ (.mk h h'))))

theorem getMax_like (h : Like k s s') : Both (LikeP k) (getMax c s) (getMax c s') := by
  obtain ⟨h, h'⟩ := h
  rename_i B n m F
  refine .ite (.ite .none (.mapSame fun _ => ⟨rfl, .mk h h'⟩)) ?_
  simp only
  rcases F.cached with - | b
  · generalize hx : B.findIdx? (fun b => !b.es.isEmpty) = x
    rcases x with - | i
    · simp only
      exact .none
    · simp only
      refine .map (maxLoop_like _ _ _ (.mk h h')) fun a b g => ?_
      obtain ⟨a, sa⟩ := a
      obtain ⟨b, sb⟩ := b
      obtain ⟨g0, g⟩ := g
      cases g0
      obtain ⟨g, g'⟩ := g
      exact ⟨rfl, .mk g g'⟩
  · exact .some ⟨rfl, .mk h h'⟩

theorem addBucket_like (h : Like k s s') : Both (Like k) (addBucket c s) (addBucket c s') := by
  obtain ⟨h, h'⟩ := h
  exact .ite (.mapSame fun _ => .mk h h') (.some (.mk h h'))

theorem mergeToNonEmpty_like (h : Like k s s') (into : ℕ) (l : List E) :
    Both (Like k) (mergeToNonEmpty c s into l) (mergeToNonEmpty c s' into l) := by
  obtain ⟨h, h'⟩ := h
  exact .same fun _ => .same fun _ => .same fun _ => keyIncreased_like (like_sub h h' _) _

theorem mergeBuckets_like (h : Like k s s') (dst src : ℕ) :
    Both (Like k) (mergeBuckets c s dst src) (mergeBuckets c s' dst src) := by
  obtain ⟨h, h'⟩ := h
  refine .same fun _ => .bind (.ite (swapKeys_like (.mk h h') _ _) (.some (.mk h h'))) fun s s' g => ?_
  obtain ⟨g, g'⟩ := g
  refine .same fun _ => .bind (mergeToNonEmpty_like (.mk g g') _ _) fun s s' g => ?_
  obtain ⟨g, g'⟩ := g
  exact .same fun _ => frontRemove_like (.mk g g') _

theorem mergeToEmpty_like (h : Like k s s') (dst src : ℕ) (l : List E) :
    Both (Like k) (mergeToEmpty c s dst src l) (mergeToEmpty c s' dst src l) := by
  obtain ⟨h, h'⟩ := h
  exact .same fun _ => .same fun _ => .same fun _ => .bind (swapKeys_like (like_sub h h' _) _ _)
    fun s s' g => keyIncreased_like g _

theorem moveToEmpty_like (h : Like k s s') (dst src : ℕ) :
    Both (Like k) (moveToEmpty c s dst src) (moveToEmpty c s' dst src) := by
  obtain ⟨h, h'⟩ := h
  exact .same fun _ => .same fun _ => .same fun _ => swapKeys_like (.mk h h') _ _

theorem assignNew_like (h : Like k s s') (b : ℕ) (l : List E) :
    Both (Like k) (assignNew c s b l) (assignNew c s' b l) := by
  obtain ⟨h, h'⟩ := h
  exact .same fun _ => .same fun _ => frontInsert_like (.mk h h') _

theorem reserveLoop_like : ∀ (n i acc : ℕ) {s s' : State E}, Like k s s' →
    Both (Like k) (reserveLoop c n i acc s) (reserveLoop c n i acc s') := by
  intro n
  induction n with
  | zero => intro i acc s s' h; exact .none
  | succ n ih =>
    intro i acc s s' h
    obtain ⟨h, h'⟩ := h
    refine .bind (.ite (addBucket_like (.mk h h')) (.some (.mk h h'))) fun s s' g => ?_
    obtain ⟨g, g'⟩ := g
    exact .same fun _ => .ite (.some (.mk g g')) (ih _ _ (.mk g g'))

theorem mergeToTmp_like (h : Like k s s') (b : ℕ) (l : List E) :
    Both (LikeP k) (mergeToTmp c s b l) (mergeToTmp c s' b l) := by
  obtain ⟨h, h'⟩ := h
  exact .same fun _ => .ite (.bind (frontRemove_like (like_sub h h' _) _) fun s s' g => .some ⟨rfl, g⟩) .none

theorem cascadeLoop_like : ∀ (n b : ℕ) (l : List E) {s s' : State E}, Like k s s' →
    Both (Like k) (cascadeLoop c n b l s) (cascadeLoop c n b l s') := by
  intro n
  induction n with
  | zero => intro b l s s' h; exact .none
  | succ n ih =>
    intro b l s s' h
    obtain ⟨h, h'⟩ := h
    refine .same fun _ => .ite (mergeToNonEmpty_like (.mk h h') _ _) (.same fun _ => .ite
      (mergeToEmpty_like (.mk h h') _ _ _) (.bind (mergeToTmp_like (.mk h h') _ _) fun a b g => ?_))
    obtain ⟨a, sa⟩ := a
    obtain ⟨b, sb⟩ := b
    obtain ⟨g0, g⟩ := g
    cases g0
    exact ih _ _ g

theorem insertNoPremerge_like (h : Like k s s') (b : ℕ) (l : List E) :
    Both (Like k) (insertNoPremerge c s b l) (insertNoPremerge c s' b l) := by
  obtain ⟨h, h'⟩ := h
  refine .same fun _ => .ite (assignNew_like (.mk h h') _ _) (.ite (mergeToNonEmpty_like (.mk h h') _ _)
    (.bind (reserveLoop_like _ _ _ (.mk h h')) fun s s' g => ?_))
  obtain ⟨g, g'⟩ := g
  refine .same fun _ => .ite (mergeToEmpty_like (.mk g g') _ _ _) (.bind (mergeToTmp_like (.mk g g') _ _) fun a b g => ?_)
  obtain ⟨a, sa⟩ := a
  obtain ⟨b, sb⟩ := b
  obtain ⟨g0, g⟩ := g
  cases g0
  obtain ⟨g, g'⟩ := g
  exact cascadeLoop_like _ _ _ (.mk g g')

theorem premergeRange_like : ∀ (n r incoming : ℕ) {s s' : State E}, Like k s s' →
    Both (LikeP k) (premergeRange c n r incoming s) (premergeRange c n r incoming s') := by
  intro n
  induction n with
  | zero => intro r incoming s s' h; exact .none
  | succ n ih =>
    intro r incoming s s' h
    obtain ⟨h, h'⟩ := h
    exact .same fun _ => .ite (.some ⟨rfl, .mk h h'⟩) (.ite (.map (addBucket_like (.mk h h')) fun _ _ g => ⟨rfl, g⟩)
      (ih _ _ (.mk h h')))

theorem moveLoop_like : ∀ (n r : ℕ) {s s' : State E}, Like k s s' →
    Both (Like k) (moveLoop c n r s) (moveLoop c n r s') := by
  intro n
  induction n with
  | zero => intro r s s' h; exact .some h
  | succ n ih => intro r s s' h; exact .bind (moveToEmpty_like h _ _) fun _ _ g => ih _ g

theorem premerges_like (h : Like k s s') (b r : ℕ) : Both (Like k) (premerges c s b r) (premerges c s' b r) := by
  obtain ⟨h, h'⟩ := h
  exact .ite (.same fun _ => .ite (.bind (mergeBuckets_like (.mk h h') _ _) fun _ _ g => moveLoop_like _ _ g)
    (moveLoop_like _ _ (.mk h h'))) (.some (.mk h h'))

theorem insertPremerge_like (h : Like k s s') (b : ℕ) (l : List E) :
    Both (Like k) (insertPremerge c s b l) (insertPremerge c s' b l) := by
  obtain ⟨h, h'⟩ := h
  refine .bind (premergeRange_like _ _ _ (.mk h h')) fun x y g => ?_
  obtain ⟨x, sx⟩ := x
  obtain ⟨y, sy⟩ := y
  obtain ⟨g0, g⟩ := g
  cases g0
  refine .bind (premerges_like g _ _) fun s s' g => ?_
  obtain ⟨g, g'⟩ := g
  exact .same fun _ => .ite (assignNew_like (.mk g g') _ _) (mergeToNonEmpty_like (.mk g g') _ _)

theorem insert_like (h : Like k s s') (b : ℕ) (l : List E) : Both (Like k) (insert c s b l) (insert c s' b l) :=
  .ite (insertPremerge_like h b l) (insertNoPremerge_like h b l)

theorem push_like (h : Like k s s') (e : E) : Both (Like k) (push c s e) (push c s' e) := by
  obtain ⟨h, h'⟩ := h
  refine .same fun b => .ite (insert_like (like_add h h' 1) _ _) (.ite (.same fun _ => frontInsert_like (like_add h h' 1) _)
    (.same fun p => ?_))
  rcases p with i | i
  · exact .ite (.same fun _ => keyIncreased_like (like_add h h' 1) _) (.same fun _ => .some (like_add h h' 1))
  · exact .same fun _ => .same fun _ => .some (.mk (by simpa using h) (by simpa using h'))

theorem growLoop_like : ∀ (n adj : ℕ) {s s' : State E}, Like k s s' →
    Both (Like k) (growLoop c n adj s) (growLoop c n adj s') := by
  intro n
  induction n with
  | zero => intro adj s s' h; exact .none
  | succ n ih =>
    intro adj s s' h
    obtain ⟨h, h'⟩ := h
    refine .ite ?_ (.some (.mk h h'))
    rename_i B a b F
    have hb := addBucket_like (c := c) (Like.mk (B := B) (F := F) h h')
    revert hb
    generalize addBucket c (⟨B, a, F⟩ : State E) = x
    generalize addBucket c (⟨B, b, F⟩ : State E) = y
    intro hb
    cases hb with
    | none => exact .none
    | some g => exact ih _ g

theorem pushRange_like (h : Like k s s') (l : List E) : Both (Like k) (pushRange c s l) (pushRange c s' l) := by
  obtain ⟨h, h'⟩ := h
  refine .bind (growLoop_like _ _ (like_add h h' _)) fun s s' g => ?_
  obtain ⟨g, g'⟩ := g
  exact .same fun _ => insert_like (.mk g g') _ _

theorem pop_like (h : Like k s s') : Both (LikeP k) (pop c s) (pop c s') := by
  refine .bind (getMax_like h) fun a b g => ?_
  obtain ⟨a, sa⟩ := a
  obtain ⟨b, sb⟩ := b
  obtain ⟨g0, g⟩ := g
  cases g0
  obtain ⟨g, g'⟩ := g
  exact .same fun _ => .same fun _ => .same fun _ => .bind (keyDecreased_like (like_sub g g' 1) _)
    fun _ _ g => .some ⟨rfl, g⟩

theorem top_like (h : Like k s s') : Both (LikeP k) (top c s) (top c s') := by
  refine .bind (getMax_like h) fun a b g => ?_
  obtain ⟨a, sa⟩ := a
  obtain ⟨b, sb⟩ := b
  obtain ⟨g0, g⟩ := g
  cases g0
  obtain ⟨g, g'⟩ := g
  exact .same fun _ => .same fun _ => .some ⟨rfl, .mk g g'⟩

theorem decreaseTop_like (h : Like k s s') (e : E) : Both (Like k) (decreaseTop c s e) (decreaseTop c s' e) :=
  .bind (pop_like h) fun _ _ g => push_like g.2 e

/-- A call does the same whatever the number of entries is. -/
theorem step_like (h : Like k s s') (op : PQOp E) : Both (LikeP k) (step c s op) (step c s' op) := by
  cases op with
  | push e => exact .map (push_like h e) fun _ _ g => ⟨rfl, g⟩
  | pushRange l => exact .map (pushRange_like h l) fun _ _ g => ⟨rfl, g⟩
  | top => exact .map (top_like h) fun _ _ g => ⟨congrArg some g.1, g.2⟩
  | pop => exact .map (pop_like h) fun _ _ g => ⟨congrArg some g.1, g.2⟩
  | decreaseTop e => exact .map (decreaseTop_like h e) fun _ _ g => ⟨rfl, g⟩
  | clear =>
    obtain ⟨h, h'⟩ := h
    exact .some ⟨rfl, .mk (Nat.le_refl _) (Nat.zero_le _)⟩

theorem clear_like (h : Like k s s') : Like 0 (clear c s) (clear c s') := by
  obtain ⟨h, h'⟩ := h
  exact .mk (Nat.le_refl _) (Nat.zero_le _)

/-- A history with pushes that threw is the history of the calls that returned, but for the number of entries. -/
theorem runX_like : ∀ (ops : List (XOp E)) (k : ℕ) {s s' t' : State E} {os : List (Option E)}, Like k s s' →
    runX c s' ops = some (os, t') →
    ∃ t, (impl c).run s (XOp.returned ops) = some (XOp.values ops os, t) ∧ Like (XOp.pending k ops) t t' := by
  intro ops
  induction ops with
  | nil =>
    intro k s s' t' os h hr
    simp only [runX, Option.some.injEq, Prod.mk.injEq] at hr
    obtain ⟨rfl, rfl⟩ := hr
    exact ⟨s, rfl, h⟩
  | cons op ops ih =>
    intro k s s' t' os h hr
    simp only [runX] at hr
    split at hr
    · cases hr
    · rename_i o s1' h1
      split at hr
      · cases hr
      · rename_i os1 t1 h2
        simp only [Option.some.injEq, Prod.mk.injEq] at hr
        obtain ⟨rfl, rfl⟩ := hr
        cases op with
        | threw e i =>
          simp only [stepX, pushThrew] at h1
          have : s1' = { s' with count := s'.count + 1 } := by
            split at h1
            · cases h1
            · split at h1
              · cases h1
              · split at h1
                · simp only [Option.map_some, Option.some.injEq, Prod.mk.injEq] at h1
                  exact h1.2.symm
                · cases h1
          subst this
          obtain ⟨g, g'⟩ := h
          exact ih (k + 1) (Like.mk (Nat.le_succ_of_le g) (Nat.succ_le_succ g')) h2
        | call op =>
          have hb := step_like (c := c) h op
          simp only [stepX] at h1
          rw [h1] at hb
          generalize hx : step c s op = x at hb
          cases hb with
          | some g =>
            rename_i a
            obtain ⟨a, s1⟩ := a
            obtain ⟨g0, g⟩ := g
            simp only at g0 g
            subst g0
            have key : ∀ k', Like k' s1 s1' → XOp.pending k (.call op :: ops) = XOp.pending k' ops →
                ∃ t, (impl c).run s (XOp.returned (.call op :: ops)) = some (XOp.values (.call op :: ops) (a :: os1), t) ∧
                  Like (XOp.pending k (.call op :: ops)) t t1 := by
              intro k' hk hp
              obtain ⟨t, ht, hl⟩ := ih k' hk h2
              refine ⟨t, ?_, hp ▸ hl⟩
              have hx' : (impl c).step s op = some (a, s1) := hx
              simp only [XOp.returned, PQImpl.run, XOp.values]
              rw [hx']
              simp only
              rw [ht]
            cases op with
            | clear =>
              simp only [step, Option.some.injEq, Prod.mk.injEq] at hx h1
              refine key 0 ?_ rfl
              rw [← hx.2, ← h1.2]
              exact clear_like h
            | push e => exact key k g rfl
            | pushRange l => exact key k g rfl
            | top => exact key k g rfl
            | pop => exact key k g rfl
            | decreaseTop e => exact key k g rfl

/-! ## The comparisons of the search -/

theorem linearSearchT_pairs (e : E) : ∀ (es : List E) (i : ℕ) (p : E × E), p ∈ (linearSearchT c e i es).2 →
    p.1 = e ∧ p.2 ∈ es := by
  intro es
  induction es with
  | nil => intro i p hp; simp [linearSearchT] at hp
  | cons m es ih =>
    intro i p hp
    simp only [linearSearchT] at hp
    split at hp
    · simp only [List.mem_singleton] at hp; subst hp; simp
    · split at hp
      · simp only [List.mem_singleton] at hp; subst hp; simp
      · simp only [List.mem_cons] at hp
        rcases hp with rfl | hp
        · simp
        · exact ⟨(ih _ p hp).1, List.mem_cons_of_mem _ (ih _ p hp).2⟩

theorem binarySearchT_pairs (e : E) (es : List E) : ∀ (range start : ℕ) (p : E × E),
    p ∈ (binarySearchT c es e start range).2 → p.1 = e ∧ p.2 ∈ es := by
  intro range
  induction range using Nat.strong_induction_on with
  | _ range ih =>
    intro start p hp
    rw [binarySearchT] at hp
    by_cases hr : range = 0
    · rw [dif_pos hr] at hp
      cases hp
    · rw [dif_neg hr] at hp
      rcases hm : es[start + range / 2]? with - | m
      · rw [hm] at hp
        cases hp
      · rw [hm] at hp
        have hmem : m ∈ es := List.mem_of_getElem? hm
        change p ∈ [] ++ ([(e, m)] ++ Prod.snd (if c.lt e m = true then _ else _ : Tr E Place)) at hp
        simp only [List.nil_append, List.cons_append, List.mem_cons] at hp
        rcases hp with rfl | hp
        · exact ⟨rfl, hmem⟩
        · split at hp
          · exact ih _ (by omega) _ p hp
          · split at hp
            · exact ih _ (by omega) _ p hp
            · cases hp

theorem searchT_binary (h : c.binarySearch = true) (es : List E) (e : E) :
    (searchT c es e).2 = (binarySearchT c es e 0 es.length).2 := congrArg Prod.snd (if_pos h)

theorem searchT_linear (h : ¬ c.binarySearch = true) (es : List E) (e : E) :
    (searchT c es e).2 = (linearSearchT c e 0 es).2 := congrArg Prod.snd (if_neg h)

/-- The search compares the new entry with entries of the bucket. -/
theorem searchT_pairs {e : E} {es : List E} {p : E × E} (hp : p ∈ (searchT c es e).2) : p.1 = e ∧ p.2 ∈ es := by
  by_cases hc : c.binarySearch = true
  · rw [searchT_binary hc] at hp
    exact binarySearchT_pairs e es _ _ p hp
  · rw [searchT_linear hc] at hp
    exact linearSearchT_pairs e es _ p hp

theorem searchT_asks (e : E) {es : List E} (h : es ≠ []) : 0 < (searchT c es e).2.length := by
  by_cases hc : c.binarySearch = true
  · rw [searchT_binary hc, binarySearchT]
    have hl : es.length ≠ 0 := fun h0 => h (List.length_eq_zero_iff.mp h0)
    rw [dif_neg hl]
    have hlt : 0 + es.length / 2 < es.length := by omega
    rw [List.getElem?_eq_getElem hlt]
    change 0 < ([] ++ ([(e, _)] ++ Prod.snd (if c.lt e _ = true then _ else _ : Tr E Place))).length
    simp
  · rw [searchT_linear hc]
    cases es with
    | nil => exact absurd rfl h
    | cons m es =>
      simp only [linearSearchT]
      split
      · simp
      · split <;> simp

/-- The comparisons of a push that searches begin with those of the search. -/
theorem pushT_search {s : State E} {e : E} {b : Bucket E} (hb : s.buckets[0]? = some b) (h1 : b.es.length ≠ b.cap)
    (h2 : b.es ≠ []) : ∃ rest, (pushT c s e).2 = (searchT c b.es e).2 ++ rest := by
  unfold pushT pushCounted
  simp only [hb]
  change ∃ rest, ([] ++ Prod.snd (if b.es.length = b.cap then _ else _ : Tr E (State E))) = _
  rw [if_neg h1, if_neg h2]
  change ∃ rest, [] ++ (Tr.bind (searchT c b.es e) _).2 = _
  rw [List.nil_append, Tr.bind]
  split
  · exact ⟨[], by simp⟩
  · exact ⟨_, rfl⟩

end Verif.Geobucket
