import Verif.GeoTrace
import Mathlib.Tactic.SplitIfs

/-!
# Lemmas on the comparisons of the geobucket: the pairs listed are all that a call learns
-/

namespace Verif

/-- `y` is what `x` computes, for every pair of answers that agrees with the one of `c` on the pairs that `x` compares. -/
def Tr.Sim {E α : Type} (c : PQConf E) (lt' eq' : E → E → Bool) (y : Option α) (x : Tr E α) : Prop :=
  (∀ p ∈ x.2, lt' p.1 p.2 = c.lt p.1 p.2 ∧ eq' p.1 p.2 = c.eq p.1 p.2) → y = x.1

namespace Tr

variable {E α β : Type} {c : PQConf E} {lt' eq' : E → E → Bool}

theorem Sim.lift (y : Option α) : Sim c lt' eq' y (Tr.lift y) := fun _ => rfl

theorem Sim.bind {x : Tr E α} {f : α → Tr E β} {y : Option α} {g : α → Option β} (h : Sim c lt' eq' y x)
    (h' : ∀ a, Sim c lt' eq' (g a) (f a)) : Sim c lt' eq' (y >>= g) (x >>= f) := by
  intro hp
  obtain ⟨x1, x2⟩ := x
  cases x1 with
  | none =>
    rw [h hp]
    rfl
  | some a =>
    have h1 : y = some a := h fun p hm => hp p (List.mem_append_left _ hm)
    have h2 : g a = (f a).1 := h' a fun p hm => hp p (List.mem_append_right _ hm)
    rw [h1]
    exact h2

theorem Sim.liftBind {f : α → Tr E β} {y : Option α} {g : α → Option β}
    (h' : ∀ a, Sim c lt' eq' (g a) (f a)) : Sim c lt' eq' (y >>= g) (Tr.lift y >>= f) := Sim.bind (Sim.lift y) h'

theorem Sim.ask {f : Unit → Tr E β} {y : Option β} {a b : E}
    (h : lt' a b = c.lt a b → eq' a b = c.eq a b → Sim c lt' eq' y (f ())) :
    Sim c lt' eq' y (Tr.ask a b >>= f) := by
  intro hp
  have h0 := hp (a, b) List.mem_cons_self
  exact h h0.1 h0.2 fun p hm => hp p (List.mem_cons_of_mem _ hm)

theorem Sim.ite {P : Prop} [Decidable P] {y y' : Option α} {x x' : Tr E α} (h : P → Sim c lt' eq' y x)
    (h' : ¬ P → Sim c lt' eq' y' x') : Sim c lt' eq' (if P then y else y') (if P then x else x') := by
  by_cases hP : P
  · rw [if_pos hP, if_pos hP]; exact h hP
  · rw [if_neg hP, if_neg hP]; exact h' hP

end Tr

end Verif

namespace Verif.Geobucket

open Verif.Tr (lift ask Sim)

variable {E : Type} (c : Conf E) (lt' eq' : E → E → Bool)

/-- The configuration with other answers to comparisons. -/
def Conf.re : Conf E := { c with lt := lt', eq := eq' }

/-- `Sim` for configurations of geobuckets. -/
local notation "S[" y ", " x "]" => Sim c.toPQConf lt' eq' y x

theorem incLoop_sim (bs : List (Bucket E)) (b : ℕ) : ∀ (p : ℕ) (f : Front),
    S[incLoop (c.re lt' eq') bs b p f, incLoopT c bs b p f] := by
  intro p
  induction p with
  | zero => intro f; exact .lift _
  | succ p ih =>
    intro f
    refine .liftBind fun q => .liftBind fun y => .liftBind fun x => .ask fun h1 _ => ?_
    show S[if lt' y x then _ else _, _]
    rw [h1]
    exact .ite (fun _ => .liftBind fun f => .liftBind fun f => ih f) (fun _ => .lift _)

theorem keyIncreasedT_sim (bs : List (Bucket E)) (f : Front) (b : ℕ) :
    S[keyIncreasedT (c.re lt' eq') bs f b, keyIncreasedTT c bs f b] := by
  unfold keyIncreasedT keyIncreasedTT keyIncreasedFrom
  rcases f.pos[b]? with - | (- | p | -)
  · exact .lift _
  · exact .lift _
  · exact .bind (incLoop_sim c lt' eq' bs b p f) fun r => .lift _
  · exact .lift _

theorem map_bind' {α β : Type} (o : Option α) (f : α → β) : o.map f = o >>= fun a => some (f a) := by cases o <;> rfl

theorem keyIncreased_sim (s : State E) (b : ℕ) : S[keyIncreased (c.re lt' eq') s b, keyIncreasedTr c s b] := by
  unfold keyIncreased keyIncreasedTr
  refine .ite (fun _ => ?_) (fun _ => .lift _)
  rw [map_bind']
  exact .bind (keyIncreasedT_sim c lt' eq' _ _ _) fun f => .lift _

theorem frontInsert_sim (s : State E) (b : ℕ) : S[frontInsert (c.re lt' eq') s b, frontInsertTr c s b] := by
  unfold frontInsert frontInsertTr
  exact .ite (fun _ => .liftBind fun f => .liftBind fun f => .liftBind fun f =>
    .bind (keyIncreasedT_sim c lt' eq' _ _ _) fun f => .lift _) (fun _ => .lift _)

theorem decLoop_sim (b : ℕ) : ∀ (n p : ℕ) (s : State E),
    S[decLoop (c.re lt' eq') b n p s, decLoopT c b n p s] := by
  intro n
  induction n with
  | zero => intro p s; exact .lift _
  | succ n ih =>
    intro p s
    refine .liftBind fun q => .liftBind fun x => .liftBind fun y => .ask fun h1 h2 => ?_
    show S[if lt' x y then _ else if !c.supportDedup || !eq' x y then _ else _, _]
    rw [h1, h2]
    refine .ite (fun _ => .liftBind fun f => .liftBind fun f => ih _ _) fun _ => .ite (fun _ => .lift _) fun _ => ?_
    refine .liftBind fun s => ?_
    unfold afterDedup
    rcases hb : s.buckets[b]? with - | bb
    · exact fun _ => rfl
    · by_cases he : bb.es = []
      · intro hp
        show (if bb.es = [] then _ else _) = _
        simp only [Option.bind_eq_bind, Option.bind_some, if_pos he]
        rcases h3 : s.front.setPos b (.slot p) with - | f
        · rfl
        · simp only [Option.bind_some]
          rcases h4 : removeT f b with - | f <;> rfl
      · show S[if bb.es = [] then _ else _, _]
        simp only [Option.bind_eq_bind, Option.bind_some, if_neg he]
        rcases h3 : s.front.wrSlot p q with - | f
        · exact fun _ => rfl
        · simp only [Option.bind_some]
          rcases h4 : f.setPos q (.slot p) with - | f
          · exact fun _ => rfl
          · exact ih _ _

theorem keyDecreased_sim (s : State E) (b : ℕ) : S[keyDecreased (c.re lt' eq') s b, keyDecreasedTr c s b] := by
  unfold keyDecreased keyDecreasedTr
  refine .ite (fun _ => ?_) (fun _ => .lift _)
  rcases s.buckets[b]? with - | bb
  · exact fun _ => rfl
  · refine Sim.liftBind (y := some bb) (g := fun bb => if bb.es = [] then _ else _) fun bb => ?_
    refine .ite (fun _ => .lift _) fun _ => ?_
    unfold keyDecreasedFrom
    rcases s.front.pos[b]? with - | (- | p | -)
    · exact .lift _
    · exact .lift _
    · exact .ite (fun _ => decLoop_sim c lt' eq' _ _ _ _) (fun _ => .lift _)
    · exact .lift _

theorem maxLoop_sim : ∀ (n m it : ℕ) (s : State E),
    S[maxLoop (c.re lt' eq') n m it s, maxLoopT c n m it s] := by
  intro n
  induction n with
  | zero => intro m it s; exact .lift _
  | succ n ih =>
    intro m it s
    refine .liftBind fun ib => .ite (fun _ => ih _ _ _) fun _ => .liftBind fun mb => .liftBind fun x => .liftBind fun y =>
      .ask fun h1 h2 => ?_
    show S[if lt' x y then _ else if c.supportDedup && eq' x y then _ else _, _]
    rw [h1, h2]
    exact .ite (fun _ => ih _ _ _) fun _ => .ite (fun _ => .liftBind fun mb => .liftBind fun ib => .liftBind fun ib =>
      ih _ _ _) fun _ => ih _ _ _

theorem getMax_sim (s : State E) : S[getMax (c.re lt' eq') s, getMaxT c s] := by
  unfold getMax getMaxT
  refine .ite (fun _ => .lift _) fun _ => ?_
  unfold cachedMaxT
  rcases s.front.cached with - | b
  · simp only
    unfold computeMaxT
    generalize s.buckets.findIdx? (fun b => !b.es.isEmpty) = o
    rcases o with - | m
    · exact .lift _
    · simp only [map_bind']
      exact .bind (maxLoop_sim c lt' eq' _ _ _ _) fun r => .lift _
  · exact .lift _

theorem mergeT_sim (l₁ l₂ : List E) :
    (∀ p ∈ (mergeT c l₁ l₂).2, lt' p.1 p.2 = c.lt p.1 p.2 ∧ eq' p.1 p.2 = c.eq p.1 p.2) →
    merge (c.re lt' eq') l₁ l₂ = (mergeT c l₁ l₂).1 := by
  induction l₁, l₂ using mergeT.induct c with
  | case1 l₂ => intro _; rw [mergeT, merge]
  | case2 a l₁ => intro _; rw [mergeT, merge]
  | case3 a l₁ b l₂ h ih =>
    rw [mergeT, merge, if_pos h]
    intro hp
    have h0 := hp (a, b) List.mem_cons_self
    have ih := ih fun p hm => hp p (List.mem_cons_of_mem _ hm)
    have e : (c.re lt' eq').lt a b = true := h0.1.trans h
    simp only [if_pos e, ih]
  | case4 a l₁ b l₂ h h' ih =>
    rw [mergeT, merge, if_neg h, if_pos h']
    intro hp
    have h0 := hp (a, b) List.mem_cons_self
    have ih := ih fun p hm => hp p (List.mem_cons_of_mem _ hm)
    have e : ¬ (c.re lt' eq').lt a b = true := fun e => h (h0.1.symm.trans e)
    have e' : (!(c.re lt' eq').supportDedup || !(c.re lt' eq').eq a b) = true := by
      show (!c.supportDedup || !eq' a b) = true
      rw [h0.2]; exact h'
    simp only [if_neg e, if_pos e', ih]
  | case5 a l₁ b l₂ h h' ih =>
    rw [mergeT, merge, if_neg h, if_neg h']
    intro hp
    have h0 := hp (a, b) List.mem_cons_self
    have ih := ih fun p hm => hp p (List.mem_cons_of_mem _ hm)
    have e : ¬ (c.re lt' eq').lt a b = true := fun e => h (h0.1.symm.trans e)
    have e' : ¬ (!(c.re lt' eq').supportDedup || !(c.re lt' eq').eq a b) = true := by
      show ¬ (!c.supportDedup || !eq' a b) = true
      rw [h0.2]; exact h'
    simp only [if_neg e, if_neg e', ih]
    rfl

theorem merge_sim (l₁ l₂ : List E) : S[some (merge (c.re lt' eq') l₁ l₂), mergeTr c l₁ l₂] :=
  fun hp => congrArg some (mergeT_sim c lt' eq' l₁ l₂ hp)

theorem mergeRes_sim (tmp : ℕ) (es l : List E) : S[mergeRes (c.re lt' eq') tmp es l, mergeResT c tmp es l] := by
  unfold mergeRes mergeResT
  show Sim _ _ _ (match c.storage with | .doubleBuffer => _ | .sameSize => _ | .plain => _) _
  rcases c.storage with - | - | -
  · exact .ite (fun _ => merge_sim c lt' eq' _ _) (fun _ => .lift _)
  · exact merge_sim c lt' eq' _ _
  · exact merge_sim c lt' eq' _ _

theorem mergeToNonEmpty_sim (s : State E) (into : ℕ) (l : List E) :
    S[mergeToNonEmpty (c.re lt' eq') s into l, mergeToNonEmptyT c s into l] :=
  .liftBind fun _ => .bind (mergeRes_sim c lt' eq' _ _ _) fun _ => .liftBind fun _ => keyIncreased_sim c lt' eq' _ _

theorem mergeBuckets_sim (s : State E) (dst src : ℕ) :
    S[mergeBuckets (c.re lt' eq') s dst src, mergeBucketsT c s dst src] :=
  .liftBind fun _ => .liftBind fun _ => .liftBind fun _ => .bind (mergeToNonEmpty_sim c lt' eq' _ _ _) fun _ =>
    .liftBind fun _ => .lift _

theorem mergeToEmpty_sim (s : State E) (dst src : ℕ) (l : List E) :
    S[mergeToEmpty (c.re lt' eq') s dst src l, mergeToEmptyT c s dst src l] :=
  .liftBind fun fb => .liftBind fun tb => Sim.bind (y := some (merge (c.re lt' eq') l fb.es))
    (g := fun r => tb.fill r.1 >>= fun tb => swapKeys (c.re lt' eq')
      { (s.setBucket dst tb).setBucket src fb.clear with count := s.count - r.2 } src dst >>= fun s =>
      keyIncreased (c.re lt' eq') s dst) (merge_sim c lt' eq' _ _) fun _ =>
    .liftBind fun _ => .liftBind fun _ => keyIncreased_sim c lt' eq' _ _

theorem assignNew_sim (s : State E) (b : ℕ) (l : List E) :
    S[assignNew (c.re lt' eq') s b l, assignNewT c s b l] :=
  .liftBind fun _ => .liftBind fun _ => frontInsert_sim c lt' eq' _ _

theorem mergeToTmp_sim (s : State E) (b : ℕ) (l : List E) :
    S[mergeToTmp (c.re lt' eq') s b l, mergeToTmpT c s b l] :=
  .liftBind fun cur => Sim.bind (y := some (merge (c.re lt' eq') l cur.es))
    (g := fun r => if r.1.length ≤ tmpCap s then frontRemove (c.re lt' eq')
      { s.setBucket b cur.clear with count := s.count - r.2 } b >>= fun s => some (r.1, s) else none)
    (merge_sim c lt' eq' _ _) fun _ => .ite (fun _ => .liftBind fun _ => .lift _) (fun _ => .lift _)

theorem cascadeLoop_sim : ∀ (n b : ℕ) (l : List E) (s : State E),
    S[cascadeLoop (c.re lt' eq') n b l s, cascadeLoopT c n b l s] := by
  intro n
  induction n with
  | zero => intro b l s; exact .lift _
  | succ n ih =>
    intro b l s
    exact .liftBind fun cur => .ite (fun _ => mergeToNonEmpty_sim c lt' eq' _ _ _) fun _ => .liftBind fun next =>
      .ite (fun _ => mergeToEmpty_sim c lt' eq' _ _ _ _) fun _ => .bind (mergeToTmp_sim c lt' eq' _ _ _) fun r => ih _ _ _

theorem insertNoPremerge_sim (s : State E) (b : ℕ) (l : List E) :
    S[insertNoPremerge (c.re lt' eq') s b l, insertNoPremergeT c s b l] :=
  .liftBind fun bucket => .ite (fun _ => assignNew_sim c lt' eq' _ _ _) fun _ =>
    .ite (fun _ => mergeToNonEmpty_sim c lt' eq' _ _ _) fun _ =>
    Sim.bind (y := reserveLoop (c.re lt' eq') _ _ _ _) (x := lift (reserveLoop c _ _ _ _))
      (by
        have e : ∀ n i acc (s : State E), reserveLoop (c.re lt' eq') n i acc s = reserveLoop c n i acc s := by
          intro n
          induction n with
          | zero => intro i acc s; rfl
          | succ n ih =>
            intro i acc s
            simp only [reserveLoop, ih]
            rfl
        rw [e]
        exact .lift _)
      fun s => .liftBind fun next => .ite (fun _ => mergeToEmpty_sim c lt' eq' _ _ _ _) fun _ =>
        .bind (mergeToTmp_sim c lt' eq' _ _ _) fun r => cascadeLoop_sim c lt' eq' _ _ _ _

theorem moveLoop_re (n r : ℕ) (s : State E) : moveLoop (c.re lt' eq') n r s = moveLoop c n r s := by
  induction n generalizing r s with
  | zero => rfl
  | succ n ih =>
    simp only [moveLoop, ih]
    rfl

theorem premerges_sim (s : State E) (b r : ℕ) : S[premerges (c.re lt' eq') s b r, premergesT c s b r] := by
  refine .ite (fun _ => .liftBind fun rb => .ite (fun _ => .bind (mergeBuckets_sim c lt' eq' _ _ _) fun s => ?_)
    fun _ => ?_) (fun _ => .lift _)
  · rw [moveLoop_re]; exact .lift _
  · rw [moveLoop_re]; exact .lift _

theorem premergeRange_re (n r incoming : ℕ) (s : State E) :
    premergeRange (c.re lt' eq') n r incoming s = premergeRange c n r incoming s := by
  induction n generalizing r incoming s with
  | zero => rfl
  | succ n ih =>
    simp only [premergeRange, ih]
    rfl

theorem insertPremerge_sim (s : State E) (b : ℕ) (l : List E) :
    S[insertPremerge (c.re lt' eq') s b l, insertPremergeT c s b l] := by
  unfold insertPremerge
  rw [premergeRange_re]
  exact .liftBind fun r => .bind (premerges_sim c lt' eq' _ _ _) fun s => .liftBind fun bucket =>
    .ite (fun _ => assignNew_sim c lt' eq' _ _ _) fun _ => mergeToNonEmpty_sim c lt' eq' _ _ _

theorem insert_sim (s : State E) (b : ℕ) (l : List E) : S[insert (c.re lt' eq') s b l, insertT c s b l] :=
  .ite (fun _ => insertPremerge_sim c lt' eq' s b l) fun _ => insertNoPremerge_sim c lt' eq' s b l

theorem binarySearch_sim (es : List E) (e : E) (start range : ℕ) :
    S[binarySearch (c.re lt' eq') es e start range, binarySearchT c es e start range] := by
  induction range using Nat.strong_induction_on generalizing start with
  | _ range ih =>
    rw [binarySearch, binarySearchT]
    by_cases h0 : range = 0
    · rw [if_pos h0, dif_pos h0]; exact .lift _
    · rw [if_neg h0, dif_neg h0]
      rcases es[start + range / 2]? with - | m
      · exact fun _ => rfl
      · refine Sim.liftBind (y := some m) (g := fun m => if lt' e m then
          binarySearch (c.re lt' eq') es e start (range / 2) else if !c.supportDedup || !eq' e m then
          binarySearch (c.re lt' eq') es e (start + range / 2 + 1) (range - (range / 2 + 1))
          else some (.dup (start + range / 2))) fun m => Sim.ask fun h1 h2 => ?_
        rw [h1, h2]
        exact .ite (fun _ => ih _ (by omega) _) fun _ => .ite (fun _ => ih _ (by omega) _) fun _ => .lift _

theorem linearSearch_sim (e : E) : ∀ (es : List E) (i : ℕ),
    (∀ p ∈ (linearSearchT c e i es).2, lt' p.1 p.2 = c.lt p.1 p.2 ∧ eq' p.1 p.2 = c.eq p.1 p.2) →
    linearSearch (c.re lt' eq') e i es = (linearSearchT c e i es).1 := by
  intro es
  induction es with
  | nil => intro i _; rfl
  | cons m es ih =>
    intro i
    rw [linearSearchT, linearSearch]
    show _ → (if lt' e m then _ else if c.supportDedup && eq' e m then _ else _) = _
    intro hp
    by_cases h1 : c.lt e m = true
    · rw [if_pos h1] at hp ⊢
      rw [(hp (e, m) List.mem_cons_self).1, if_pos h1]
    · rw [if_neg h1] at hp ⊢
      by_cases h2 : (c.supportDedup && c.eq e m) = true
      · rw [if_pos h2] at hp ⊢
        have h0 := hp (e, m) List.mem_cons_self
        rw [h0.1, h0.2, if_neg h1, if_pos h2]
      · rw [if_neg h2] at hp ⊢
        have h0 := hp (e, m) List.mem_cons_self
        rw [h0.1, h0.2, if_neg h1, if_neg h2]
        exact ih _ fun p hm => hp p (List.mem_cons_of_mem _ hm)

theorem search_sim (es : List E) (e : E) : S[search (c.re lt' eq') es e, searchT c es e] :=
  .ite (fun _ => binarySearch_sim c lt' eq' _ _ _ _)
    fun _ hp => congrArg some (linearSearch_sim c lt' eq' e es 0 hp)

theorem push_sim (s : State E) (e : E) : S[push (c.re lt' eq') s e, pushT c s e] := by
  unfold push pushT pushCounted
  refine .liftBind fun b => .ite (fun _ => insert_sim c lt' eq' _ _ _) fun _ => .ite (fun _ => .liftBind fun b =>
    frontInsert_sim c lt' eq' _ _) fun _ => .bind (search_sim c lt' eq' _ _) fun p => ?_
  rcases p with i | i
  · exact .ite (fun _ => .liftBind fun b => keyIncreased_sim c lt' eq' _ _) fun _ => .liftBind fun b => .lift _
  · exact .liftBind fun m => .liftBind fun b => .lift _

theorem growLoop_re (n adj : ℕ) (s : State E) : growLoop (c.re lt' eq') n adj s = growLoop c n adj s := by
  induction n generalizing s with
  | zero => rfl
  | succ n ih =>
    simp only [growLoop, ih]
    rfl

theorem pushRange_sim (s : State E) (l : List E) : S[pushRange (c.re lt' eq') s l, pushRangeT c s l] := by
  unfold pushRange
  simp only [growLoop_re]
  exact .liftBind fun s => .liftBind fun b => insert_sim c lt' eq' _ _ _

theorem pop_sim (s : State E) : S[pop (c.re lt' eq') s, popT c s] :=
  .bind (getMax_sim c lt' eq' s) fun _ => .liftBind fun _ => .liftBind fun _ => .liftBind fun _ =>
    .bind (keyDecreased_sim c lt' eq' _ _) fun _ => .lift _

theorem top_sim (s : State E) : S[top (c.re lt' eq') s, topT c s] :=
  .bind (getMax_sim c lt' eq' s) fun _ => .liftBind fun _ => .liftBind fun _ => .lift _

theorem decreaseTop_sim (s : State E) (e : E) : S[decreaseTop (c.re lt' eq') s e, decreaseTopT c s e] :=
  .bind (pop_sim c lt' eq' s) fun _ => push_sim c lt' eq' _ _

theorem step_sim (s : State E) (op : PQOp E) : S[step (c.re lt' eq') s op, stepT c s op] := by
  cases op with
  | push e => simp only [step, stepT, map_bind']; exact .bind (push_sim c lt' eq' _ _) fun s => .lift _
  | pushRange l => simp only [step, stepT, map_bind']; exact .bind (pushRange_sim c lt' eq' _ _) fun s => .lift _
  | top => simp only [step, stepT, map_bind']; exact .bind (top_sim c lt' eq' _) fun s => .lift _
  | pop => simp only [step, stepT, map_bind']; exact .bind (pop_sim c lt' eq' _) fun s => .lift _
  | decreaseTop e => simp only [step, stepT, map_bind']; exact .bind (decreaseTop_sim c lt' eq' _ _) fun s => .lift _
  | clear => exact .lift _

/-- The two versions of a call do the same. -/
theorem step_eq (s : State E) (op : PQOp E) : step c s op = (stepT c s op).1 :=
  step_sim c c.lt c.eq s op fun _ _ => ⟨rfl, rfl⟩

/-- The two versions of a call do the same, for configurations that agree on the pairs compared. -/
theorem step_agree {c : Conf E} {o : PQConf E} (s : State E) (op : PQOp E) (h : c.toPQConf.Agree o (compared c s op)) :
    step { c with toPQConf := o } s op = step c s op := by
  rw [step_eq c]
  obtain ⟨lt1, eq1, s1, d1⟩ := o
  obtain ⟨hd, hm, h⟩ := h
  simp only at hd hm h
  subst hd hm
  exact step_sim c _ _ s op h

end Verif.Geobucket
