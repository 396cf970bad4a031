import Verif.KDTreeProofs

/-!
# Lemmas on the searches of KD trees
-/

namespace Verif.KDTree

open Verif.DivMask (Ext Bits Mask combineAnd canDivide canDivide_iff maxMask)

variable {T : Type} {c : Conf T} {bits : Bits}

/-! ## The arrays that a search comes to -/

/-- The arrays that a search below a node comes to, in order. -/
def visited (c : Conf T) (k : Kind T) (p : Path) : Node T → List (Path × Arr T)
  | .entries a => [(p, a)]
  | .split mask var exp le gt =>
    match k with
    | .divisors m =>
      if c.useTreeDivMask && !canDivide mask m.mask then []
      else visited c k (p ++ [false]) le ++ if inChild c var exp m.t then visited c k (p ++ [true]) gt else []
    | .multiples m =>
      if c.packed then (if inChild c var exp m.t then [] else visited c k (p ++ [false]) le) ++ visited c k (p ++ [true]) gt
      else visited c k (p ++ [true]) gt ++ (if inChild c var exp m.t then [] else visited c k (p ++ [false]) le)
    | .all => visited c k (p ++ [false]) le ++ visited c k (p ++ [true]) gt

/-- The same for the pointers of a list. -/
def visitedAll (c : Conf T) (k : Kind T) (l : List (Path × Node T)) : List (Path × Arr T) :=
  l.flatMap (fun x => visited c k x.1 x.2)

/-- What one round leaves to do. -/
def Expansion.rest (c : Conf T) (k : Kind T) (e : Expansion T) : List Path :=
  e.leaf.toList ++ (visitedAll c k (e.post ++ e.pre)).map Prod.fst

theorem expandDivisors_visited (m : Ext T) (n : Node T) : ∀ p acc,
    (expandDivisors c m p acc n).post = [] ∧
    (expandDivisors c m p acc n).rest c (.divisors m) =
      (visited c (.divisors m) p n ++ visitedAll c (.divisors m) acc).map Prod.fst := by
  induction n with
  | entries a => intro p acc; exact ⟨rfl, by simp [expandDivisors, Expansion.rest, visited]⟩
  | split mask var exp le gt ih1 _ =>
    intro p acc
    rw [expandDivisors, visited]
    split
    · exact ⟨rfl, by simp [Expansion.rest]⟩
    · refine ⟨(ih1 _ _).1, ?_⟩
      rw [(ih1 _ _).2]
      split <;> simp [visitedAll]

theorem expandMultiplesB_visited (hp : c.packed = false) (m : Ext T) (n : Node T) : ∀ p acc,
    (expandMultiplesB c m p acc n).post = [] ∧
    (expandMultiplesB c m p acc n).rest c (.multiples m) =
      (visited c (.multiples m) p n ++ visitedAll c (.multiples m) acc).map Prod.fst := by
  induction n with
  | entries a => intro p acc; exact ⟨rfl, by simp [expandMultiplesB, Expansion.rest, visited]⟩
  | split mask var exp le gt _ ih2 =>
    intro p acc
    rw [expandMultiplesB, visited]
    refine ⟨(ih2 _ _).1, ?_⟩
    rw [(ih2 _ _).2, hp]
    cases inChild c var exp m.t <;> simp [visitedAll]

theorem expandMultiplesP_visited (hp : c.packed = true) (m : Ext T) (n : Node T) : ∀ p acc,
    (expandMultiplesP c m p acc n).post = [] ∧
    (expandMultiplesP c m p acc n).rest c (.multiples m) =
      (visited c (.multiples m) p n ++ visitedAll c (.multiples m) acc).map Prod.fst := by
  induction n with
  | entries a => intro p acc; exact ⟨rfl, by simp [expandMultiplesP, Expansion.rest, visited]⟩
  | split mask var exp le gt ih1 _ =>
    intro p acc
    rw [expandMultiplesP, visited, hp]
    cases hc : inChild c var exp m.t with
    | true => exact ⟨rfl, by simp [Expansion.rest, visitedAll]⟩
    | false =>
      refine ⟨(ih1 _ _).1, ?_⟩
      simp only [Bool.false_eq_true, if_false]
      rw [(ih1 _ _).2]
      simp [visitedAll]

theorem expandAll_visited (n : Node T) : ∀ p acc,
    [(expandAll p acc n).1] ++ (visitedAll c .all (expandAll p acc n).2).map Prod.fst =
      (visited c .all p n ++ visitedAll c .all acc).map Prod.fst := by
  induction n with
  | entries a => intro p acc; simp [expandAll, visited]
  | split mask var exp le gt ih1 _ =>
    intro p acc
    rw [expandAll, visited, ih1]
    simp [visitedAll]

theorem expand_visited (k : Kind T) (p : Path) (n : Node T) :
    ((expand c p n k).leaf = none → (expand c p n k).post = []) ∧
    (expand c p n k).rest c k = (visited c k p n).map Prod.fst := by
  cases k with
  | divisors m =>
    obtain ⟨h1, h2⟩ := expandDivisors_visited (c := c) m n p []
    exact ⟨fun _ => h1, by rw [expand, h2]; simp [visitedAll]⟩
  | multiples m =>
    rw [expand]
    cases hp : c.packed with
    | true =>
      obtain ⟨h1, h2⟩ := expandMultiplesP_visited hp m n p []
      exact ⟨fun _ => h1, by rw [if_pos rfl, h2]; simp [visitedAll]⟩
    | false =>
      obtain ⟨h1, h2⟩ := expandMultiplesB_visited hp m n p []
      exact ⟨fun _ => h1, by rw [if_neg (by decide), h2]; simp [visitedAll]⟩
  | all =>
    have := expandAll_visited (c := c) n p []
    rw [expand]
    split
    · exact ⟨nofun, by simpa [Expansion.rest, visitedAll] using this⟩
    · exact ⟨nofun, by simpa [Expansion.rest, visitedAll] using this⟩

/-- Act on one array after the other. -/
def foldAct {σ : Type} (act : Path → σ → Option (σ × Flow)) (s : σ) : List Path → Option (σ × Flow)
  | [] => some (s, .go)
  | p :: l =>
    match act p s with
    | none => none
    | some (s', .go) => foldAct act s' l
    | some (s', .stop) => some (s', .stop)
    | some (s', .threw) => some (s', .threw)

/-- The loop acts on the arrays visited, and leaves nothing in `_tmp` unless there is an exception. -/
theorem loop_eq {σ : Type} (k : Kind T) (act : Path → σ → Option (σ × Flow)) : ∀ (n : ℕ) (s : σ)
    (cur : Path × Node T) (stack : List (Path × Node T)), sizes (cur :: stack) = n →
    ∀ s' f, foldAct act s ((visitedAll c k (cur :: stack)).map Prod.fst) = some (s', f) →
    ∃ tmp, loop c k act s cur stack = some (s', f, tmp) ∧ (f ≠ .threw → tmp = []) := by
  intro n
  induction n using Nat.strong_induction_on with
  | _ n ih =>
    intro s cur stack hn s' f hf
    obtain ⟨e1, e2⟩ := expand_visited (c := c) k cur.1 cur.2
    have hsz := expand_sizes c k cur.1 cur.2
    have hvis : (visitedAll c k (cur :: stack)).map Prod.fst =
        (expand c cur.1 cur.2 k).leaf.toList ++
          (visitedAll c k ((expand c cur.1 cur.2 k).post ++ ((expand c cur.1 cur.2 k).pre ++ stack))).map Prod.fst := by
      rw [show visitedAll c k (cur :: stack) = visited c k cur.1 cur.2 ++ visitedAll c k stack by simp [visitedAll],
        List.map_append, ← e2, Expansion.rest]
      simp [visitedAll]
    have hsizes : sizes (cur :: stack) = cur.2.size + sizes stack := by simp [sizes]
    have hlt : sizes ((expand c cur.1 cur.2 k).post ++ ((expand c cur.1 cur.2 k).pre ++ stack)) < n := by
      rw [sizes_append, sizes_append]
      omega
    rw [hvis] at hf
    rw [loop]
    generalize expand c cur.1 cur.2 k = E at *
    rcases E with ⟨pre, leaf, post⟩
    cases leaf with
    | none =>
      simp only at *
      rw [e1 trivial] at hf hlt
      simp only [Option.toList_none, List.nil_append] at hf hlt
      split
      · rename_i h0
        rw [h0] at hf
        simp only [visitedAll, List.flatMap_nil, List.map_nil, foldAct, Option.some.injEq, Prod.mk.injEq] at hf
        exact ⟨[], by rw [hf.1, hf.2], fun _ => rfl⟩
      · rename_i nxt rest h0
        rw [h0] at hf hlt
        exact ih _ hlt s nxt rest rfl s' f hf
    | some p =>
      simp only [Option.toList_some, List.singleton_append, foldAct] at hf ⊢
      cases ha : act p s with
      | none => rw [ha] at hf; cases hf
      | some r =>
        rcases r with ⟨s1, f1⟩
        rw [ha] at hf
        cases f1 with
        | stop =>
          simp only [Option.some.injEq, Prod.mk.injEq] at hf
          exact ⟨[], by simp [hf.1, ← hf.2], fun _ => rfl⟩
        | threw =>
          simp only [Option.some.injEq, Prod.mk.injEq] at hf
          exact ⟨_, by simp only [hf.1, ← hf.2]; rfl, fun h => absurd hf.2.symm h⟩
        | go =>
          simp only at hf ⊢
          split
          · rename_i h0
            rw [h0] at hf
            simp only [visitedAll, List.flatMap_nil, List.map_nil, foldAct, Option.some.injEq, Prod.mk.injEq] at hf
            exact ⟨[], by rw [hf.1, hf.2], fun _ => rfl⟩
          · rename_i nxt rest h0
            rw [h0] at hf hlt
            exact ih _ hlt s1 nxt rest rfl s' f hf

theorem search_eq {σ : Type} {k : Kind T} {act : Path → σ → Option (σ × Flow)} {s s' : σ} {f : Flow} {n : Node T}
    (hf : foldAct act s ((visited c k [] n).map Prod.fst) = some (s', f)) :
    ∃ tmp, search c k act s n [] = some (s', f, tmp) ∧ (f ≠ .threw → tmp = []) :=
  loop_eq k act _ s ([], n) [] rfl s' f (by simpa [visitedAll] using hf)

/-! ## Where the arrays visited are, and what is in them -/

theorem sub_append (n : Node T) : ∀ (p q : Path), n.sub (p ++ q) = (n.sub p).bind (fun x => x.sub q) := by
  induction n with
  | entries a =>
    intro p q
    cases p with
    | nil => rfl
    | cons b p => rfl
  | split mask var exp le gt ih1 ih2 =>
    intro p q
    cases p with
    | nil => rfl
    | cons b p =>
      rw [List.cons_append, Node.sub, Node.sub]
      cases b with
      | true => simpa using ih2 p q
      | false => simpa using ih1 p q

theorem sub_nil (n : Node T) : n.sub [] = some n := by
  cases n <;> rfl

theorem mem_visited_split {k : Kind T} {p : Path} {mask : Mask} {var : ℕ} {exp : ℤ} {le gt : Node T} {x : Path × Arr T}
    (hx : x ∈ visited c k p (.split mask var exp le gt)) :
    x ∈ visited c k (p ++ [false]) le ∨ x ∈ visited c k (p ++ [true]) gt := by
  cases k with
  | divisors m =>
    rw [visited] at hx
    split at hx
    · cases hx
    · rcases List.mem_append.mp hx with hx | hx
      · exact .inl hx
      · split at hx
        · exact .inr hx
        · cases hx
  | multiples m =>
    rw [visited] at hx
    split at hx
    · rcases List.mem_append.mp hx with hx | hx
      · split at hx
        · cases hx
        · exact .inl hx
      · exact .inr hx
    · rcases List.mem_append.mp hx with hx | hx
      · exact .inr hx
      · split at hx
        · cases hx
        · exact .inl hx
  | all =>
    rw [visited] at hx
    exact List.mem_append.mp hx

theorem visited_arrAt {k : Kind T} {root : Node T} (n : Node T) : ∀ (p : Path), root.sub p = some n →
    ∀ x ∈ visited c k p n, root.arrAt x.1 = some x.2 := by
  induction n with
  | entries a =>
    intro p h x hx
    simp only [visited, List.mem_singleton] at hx
    subst hx
    simp only [Node.arrAt, h]
  | split mask var exp le gt ih1 ih2 =>
    intro p h x hx
    have h1 : root.sub (p ++ [false]) = some le := by
      rw [sub_append, h]; simp [Node.sub]
    have h2 : root.sub (p ++ [true]) = some gt := by
      rw [sub_append, h]; simp [Node.sub]
    rcases mem_visited_split hx with hx | hx
    · exact ih1 _ h1 x hx
    · exact ih2 _ h2 x hx

theorem visited_prefix {k : Kind T} (n : Node T) : ∀ (p : Path), ∀ x ∈ visited c k p n, p <+: x.1 := by
  induction n with
  | entries a =>
    intro p x hx
    simp only [visited, List.mem_singleton] at hx
    subst hx
    exact List.prefix_refl _
  | split mask var exp le gt ih1 ih2 =>
    intro p x hx
    rcases mem_visited_split hx with hx | hx
    · exact (List.prefix_append _ _).trans (ih1 _ x hx)
    · exact (List.prefix_append _ _).trans (ih2 _ x hx)

theorem visited_disjoint {k : Kind T} {le gt : Node T} {p : Path} {x y : Path × Arr T}
    (hx : x ∈ visited c k (p ++ [false]) le) (hy : y ∈ visited c k (p ++ [true]) gt) : x.1 ≠ y.1 := by
  intro h
  obtain ⟨q, hq⟩ := visited_prefix _ _ x hx
  obtain ⟨r, hr⟩ := visited_prefix _ _ y hy
  rw [← hq, ← hr] at h
  simp at h

theorem visited_nodup {k : Kind T} (n : Node T) : ∀ (p : Path), ((visited c k p n).map Prod.fst).Nodup := by
  induction n with
  | entries a => intro p; simp [visited]
  | split mask var exp le gt ih1 ih2 =>
    intro p
    have hd1 : ∀ a ∈ (visited c k (p ++ [false]) le).map Prod.fst,
        ∀ b ∈ (visited c k (p ++ [true]) gt).map Prod.fst, a ≠ b := by
      intro a ha b hb
      obtain ⟨x, hx, rfl⟩ := List.mem_map.mp ha
      obtain ⟨y, hy, rfl⟩ := List.mem_map.mp hb
      exact visited_disjoint hx hy
    have hle := ih1 (p ++ [false])
    have hgt := ih2 (p ++ [true])
    have hboth : ((visited c k (p ++ [false]) le ++ visited c k (p ++ [true]) gt).map Prod.fst).Nodup := by
      rw [List.map_append]
      exact List.nodup_append.mpr ⟨hle, hgt, hd1⟩
    have hboth' : ((visited c k (p ++ [true]) gt ++ visited c k (p ++ [false]) le).map Prod.fst).Nodup := by
      rw [List.map_append]
      exact List.nodup_append.mpr ⟨hgt, hle, fun a ha b hb h => hd1 b hb a ha h.symm⟩
    cases k with
    | divisors m =>
      rw [visited]
      split
      · simp
      · split
        · exact hboth
        · simpa using hle
    | multiples m =>
      rw [visited]
      split
      · split
        · simpa using hgt
        · exact hboth
      · split
        · simpa using hgt
        · exact hboth'
    | all =>
      rw [visited]
      exact hboth

theorem visited_wf {k : Kind T} (n : Node T) : ∀ (p : Path), n.WF c bits → ∀ x ∈ visited c k p n, ArrOk c bits x.2 := by
  induction n with
  | entries a =>
    intro p h x hx
    simp only [visited, List.mem_singleton] at hx
    subst hx
    exact h
  | split mask var exp le gt ih1 ih2 =>
    intro p h x hx
    rcases mem_visited_split hx with hx | hx
    · exact ih1 _ h.1 x hx
    · exact ih2 _ h.2.1 x hx

theorem visited_ne {k : Kind T} (n : Node T) : ∀ (p : Path), n.NE → ∀ x ∈ visited c k p n, x.2.es ≠ [] := by
  induction n with
  | entries a =>
    intro p h x hx
    simp only [visited, List.mem_singleton] at hx
    subst hx
    exact h
  | split mask var exp le gt ih1 ih2 =>
    intro p h x hx
    rcases mem_visited_split hx with hx | hx
    · exact ih1 _ h.1 x hx
    · exact ih2 _ h.2 x hx

/-- The entries of a list of arrays. -/
def arrEntries (l : List (Path × Arr T)) : List T := l.flatMap (fun x => x.2.es.map Ext.t)

theorem arrEntries_append (l₁ l₂ : List (Path × Arr T)) : arrEntries (l₁ ++ l₂) = arrEntries l₁ ++ arrEntries l₂ := by
  simp [arrEntries]

theorem arrEntries_nil : arrEntries ([] : List (Path × Arr T)) = [] := rfl

/-- Exponents of divisors are no larger. -/
theorem divides_exponent (hl : c.Lawful) {a b : T} (h : c.dm.divides a b = true) {v : ℕ} (hv : v < c.dm.varCount) :
    c.dm.getExponent a v ≤ c.dm.getExponent b v := hl.masks a b h v hv

theorem filter_nil_of {l : List T} {q : T → Bool} (h : ∀ e ∈ l, q e = false) : l.filter q = [] := by
  rw [List.filter_eq_nil_iff]
  intro e he
  simp [h e he]

theorem visited_divisors (hl : c.Lawful) (hc : Calc c bits) {m : Ext T} (hm : IsExt c bits m) (n : Node T) :
    ∀ (p : Path), n.WF c bits → (arrEntries (visited c (.divisors m) p n)).filter (fun e => c.dm.divides e m.t) =
      n.contents.filter (fun e => c.dm.divides e m.t) := by
  induction n with
  | entries a => intro p _; simp [visited, arrEntries, Node.contents]
  | split mask var exp le gt ih1 ih2 =>
    intro p h
    have hw := h
    obtain ⟨h1, h2, hv, h3, h4, h5⟩ := h
    rw [visited, Node.contents, List.filter_append]
    split
    · rename_i hr
      simp only [Bool.and_eq_true, Bool.not_eq_true'] at hr
      have : ∀ e ∈ le.exts ++ gt.exts, c.dm.divides e.t m.t = false := by
        intro e he
        cases hd : c.dm.divides e.t m.t with
        | false => rfl
        | true =>
          have := mask_keeps hl hc hr.1 hm (wf_exts hw e he) (h5 hr.1 e he) hd
          rw [this] at hr
          exact absurd hr.2 (by decide)
      rw [filter_nil_of (l := le.contents), filter_nil_of (l := gt.contents)]
      · rfl
      · exact forall_contents.mpr (fun e he => this e (List.mem_append_right _ he))
      · exact forall_contents.mpr (fun e he => this e (List.mem_append_left _ he))
    · rw [arrEntries_append, List.filter_append, ih1 _ h1]
      congr 1
      cases hch : inChild c var exp m.t with
      | true => rw [if_pos rfl, ih2 _ h2]
      | false =>
        rw [if_neg (by decide), arrEntries_nil, filter_nil_of (l := gt.contents), List.filter_nil]
        refine forall_contents.mpr (fun e he => ?_)
        cases hd : c.dm.divides e.t m.t with
        | false => rfl
        | true =>
          have := divides_exponent hl hd hv
          have := h4 e he
          have := inChild_false.mp hch
          omega

theorem visited_multiples (hl : c.Lawful) {m : Ext T} (n : Node T) :
    ∀ (p : Path), n.WF c bits → ((arrEntries (visited c (.multiples m) p n)).filter (fun e => c.dm.divides m.t e)).Perm
      (n.contents.filter (fun e => c.dm.divides m.t e)) := by
  induction n with
  | entries a => intro p _; simp [visited, arrEntries, Node.contents]
  | split mask var exp le gt ih1 ih2 =>
    intro p h
    obtain ⟨h1, h2, hv, h3, h4, h5⟩ := h
    have hle : ((arrEntries (if inChild c var exp m.t then [] else visited c (.multiples m) (p ++ [false]) le)).filter
        (fun e => c.dm.divides m.t e)).Perm (le.contents.filter (fun e => c.dm.divides m.t e)) := by
      cases hch : inChild c var exp m.t with
      | false => rw [if_neg (by decide)]; exact ih1 _ h1
      | true =>
        rw [if_pos rfl, arrEntries_nil, filter_nil_of (l := le.contents), List.filter_nil]
        refine forall_contents.mpr (fun e he => ?_)
        cases hd : c.dm.divides m.t e.t with
        | false => rfl
        | true =>
          have := divides_exponent hl hd hv
          have := h3 e he
          have := inChild_true.mp hch
          omega
    rw [visited, Node.contents, List.filter_append]
    split
    · rw [arrEntries_append, List.filter_append]
      exact hle.append (ih2 _ h2)
    · rw [arrEntries_append, List.filter_append]
      exact ((ih2 _ h2).append hle).trans List.perm_append_comm

theorem visited_all (n : Node T) : ∀ (p : Path), arrEntries (visited c .all p n) = n.contents := by
  induction n with
  | entries a => intro p; simp [visited, arrEntries, Node.contents]
  | split mask var exp le gt ih1 ih2 =>
    intro p
    rw [visited, Node.contents, arrEntries_append, ih1, ih2]

/-! ## `findDivisor` -/

theorem fold_findDivisor (hl : c.Lawful) (hc : Calc c bits) {m : Ext T} (hm : IsExt c bits m) {root : Node T} :
    ∀ (l : List (Path × Arr T)), (∀ x ∈ l, root.arrAt x.1 = some x.2) → (∀ x ∈ l, ArrOk c bits x.2) →
    (c.allowRemovals = false → ∀ x ∈ l, x.2.es ≠ []) →
    (∃ p i a e, foldAct (actDivisor c m root) none (l.map Prod.fst) = some (some (p, i), .stop) ∧
      root.arrAt p = some a ∧ a.es[i]? = some e ∧ c.dm.divides e.t m.t = true) ∨
    (foldAct (actDivisor c m root) none (l.map Prod.fst) = some (none, .go) ∧
      ∀ e ∈ arrEntries l, c.dm.divides e m.t = false) := by
  intro l
  induction l with
  | nil => intro _ _ _; exact .inr ⟨rfl, nofun⟩
  | cons x l ih =>
    intro h1 h2 h3
    obtain ⟨r, g1, g2, g3⟩ := arr_findDivisor_ok hl hc (h2 x (by simp)) (fun ha => h3 ha x (by simp)) hm
    have hact : actDivisor c m root x.1 none = (match r with
        | none => some (none, .go)
        | some i => some (some (x.1, i), .stop)) := by
      rw [actDivisor, h1 x (by simp)]
      simp only [g1]
      cases r <;> rfl
    rw [List.map_cons, foldAct, hact]
    cases r with
    | some i =>
      obtain ⟨e, e1, e2⟩ := g2 i rfl
      exact .inl ⟨x.1, i, x.2, e, rfl, h1 x (by simp), e1, e2⟩
    | none =>
      rcases ih (fun y hy => h1 y (List.mem_cons_of_mem _ hy)) (fun y hy => h2 y (List.mem_cons_of_mem _ hy))
        (fun ha y hy => h3 ha y (List.mem_cons_of_mem _ hy)) with h | ⟨e1, e2⟩
      · exact .inl h
      · refine .inr ⟨e1, ?_⟩
        intro e he
        rw [arrEntries, List.flatMap_cons] at he
        rcases List.mem_append.mp he with he | he
        · obtain ⟨y, hy, rfl⟩ := List.mem_map.mp he
          exact g3 rfl y hy
        · exact e2 e he

/-- What holds of a tree at all times. -/
structure Tree.Ok (c : Conf T) (bits : Bits) (t : Tree T) : Prop where
  wf : ∀ n, t.root = some n → n.WF c bits
  ne : c.allowRemovals = false → ∀ n, t.root = some n → n.NE

theorem arrAt_es_contents {n : Node T} : ∀ {p : Path} {a : Arr T}, n.arrAt p = some a → ∀ e ∈ a.es, e ∈ n.exts := by
  induction n with
  | entries b =>
    intro p a h e he
    cases p with
    | nil => cases h; exact he
    | cons _ _ => cases h
  | split mask var exp le gt ih1 ih2 =>
    intro p a h e he
    cases p with
    | nil => cases h
    | cons b p =>
      cases b with
      | true => exact List.mem_append_right _ (ih2 (p := p) h e he)
      | false => exact List.mem_append_left _ (ih1 (p := p) h e he)

theorem deref_mem {t : Tree T} {p : Ptr} {e : T} (h : t.deref p = some e) : e ∈ t.contents := by
  unfold Tree.deref at h
  unfold Tree.contents
  cases hr : t.root with
  | none => rw [hr] at h; cases h
  | some n =>
    rw [hr] at h
    simp only at h ⊢
    cases ha : n.arrAt p.1 with
    | none => rw [ha] at h; cases h
    | some a =>
      rw [ha] at h
      simp only [Option.map_eq_some_iff] at h
      obtain ⟨x, hx, rfl⟩ := h
      rw [contents_exts]
      exact List.mem_map_of_mem (arrAt_es_contents ha x (List.mem_of_getElem? hx))

theorem tree_findDivisor_ok (hl : c.Lawful) (hc : Calc c bits) {m : Ext T} (hm : IsExt c bits m) {t : Tree T}
    (h : t.Ok c bits) (ht : t.tmp = []) :
    (∃ p e, t.findDivisor c m = some (some p, t) ∧ t.deref p = some e ∧ c.dm.divides e m.t = true) ∨
    (t.findDivisor c m = some (none, t) ∧ ∀ e ∈ t.contents, c.dm.divides e m.t = false) := by
  rcases t with ⟨root, tmp⟩
  cases ht
  cases root with
  | none => exact .inr ⟨rfl, nofun⟩
  | some n =>
    have hw := h.wf n rfl
    rcases fold_findDivisor (root := n) hl hc hm (visited c (.divisors m) [] n) (visited_arrAt n [] (sub_nil n))
      (visited_wf n [] hw) (fun ha => visited_ne n [] (h.ne ha n rfl)) with ⟨p, i, a, e, h1, h2, h3, h4⟩ | ⟨h1, h2⟩
    · obtain ⟨tmp, g1, g2⟩ := search_eq h1
      refine .inl ⟨(p, i), e.t, ?_, ?_, h4⟩
      · simp [Tree.findDivisor, g1, g2 (by decide)]
      · simp [Tree.deref, h2, h3]
    · obtain ⟨tmp, g1, g2⟩ := search_eq h1
      refine .inr ⟨?_, ?_⟩
      · simp [Tree.findDivisor, g1, g2 (by decide)]
      · intro e he
        cases hd : c.dm.divides e m.t with
        | false => rfl
        | true =>
          have hmem : e ∈ n.contents.filter (fun e => c.dm.divides e m.t) := List.mem_filter.mpr ⟨he, hd⟩
          rw [← visited_divisors hl hc hm n [] hw] at hmem
          have := h2 e (List.mem_filter.mp hmem).1
          rw [this] at hd; cases hd

/-! ## Enumerations -/

theorem fold_visit {f : List T → Arr T → Option (List T × Flow)} {proceed : List T → Flow} {q : T → Bool}
    {root : Node T} : ∀ (l : List (Path × Arr T)) (got : List T), (∀ x ∈ l, root.arrAt x.1 = some x.2) →
    (∀ x ∈ l, ∀ got, f got x.2 = some (deliver proceed got ((x.2.es.map Ext.t).filter q))) →
    foldAct (actVisit f root) got (l.map Prod.fst) = some (deliver proceed got ((arrEntries l).filter q)) := by
  intro l
  induction l with
  | nil => intro got _ _; rfl
  | cons x l ih =>
    intro got h1 h2
    have hact : actVisit f root x.1 got = some (deliver proceed got ((x.2.es.map Ext.t).filter q)) := by
      rw [actVisit, h1 x (by simp)]
      exact h2 x (by simp) got
    rw [List.map_cons, foldAct, hact, arrEntries, List.flatMap_cons, List.filter_append, deliver_append]
    rcases deliver proceed got ((x.2.es.map Ext.t).filter q) with ⟨g, fl⟩
    cases fl with
    | go => exact ih g (fun y hy => h1 y (List.mem_cons_of_mem _ hy)) (fun y hy => h2 y (List.mem_cons_of_mem _ hy))
    | stop => rfl
    | threw => rfl

/-- An enumeration delivers what it should; the tree stays as it is unless the output throws. -/
theorem enumerate_ok {t : Tree T} (h : t.Ok c bits) (ht : t.tmp = []) {k : Kind T} {proceed : List T → Flow}
    {q : T → Bool} {f : List T → Arr T → Option (List T × Flow)}
    (hf : ∀ a got, ArrOk c bits a → (c.allowRemovals = false → a.es ≠ []) →
      f got a = some (deliver proceed got ((a.es.map Ext.t).filter q)))
    (hv : ∀ n, t.root = some n → ((arrEntries (visited c k [] n)).filter q).Perm (n.contents.filter q)) :
    ∃ got flow t', t.enumerate c k f = some (got, flow, t') ∧ t'.root = t.root ∧
      Delivered (t.contents.filter q) proceed got (decide (flow = .threw)) ∧ (flow ≠ .threw → t' = t) := by
  rcases t with ⟨root, tmp⟩
  cases ht
  cases root with
  | none => exact ⟨[], .go, _, rfl, rfl, delivered_deliver (l' := []) (.refl _) proceed, fun _ => rfl⟩
  | some n =>
    have hfold := fold_visit (f := f) (proceed := proceed) (q := q) (root := n) (visited c k [] n) []
      (visited_arrAt n [] (sub_nil n))
      (fun x hx got => hf x.2 got (visited_wf n [] (h.wf n rfl) x hx) (fun ha => visited_ne n [] (h.ne ha n rfl) x hx))
    have hd := delivered_deliver (hv n rfl) proceed
    generalize deliver proceed [] (List.filter q (arrEntries (visited c k [] n))) = r at hfold hd
    rcases r with ⟨g, fl⟩
    obtain ⟨tmp, g1, g2⟩ := search_eq hfold
    refine ⟨g, fl, ⟨some n, tmp⟩, by simp [Tree.enumerate, g1], rfl, hd, ?_⟩
    intro hne
    rw [g2 hne]

/-! ## `removeMultiples` -/

theorem setArr_exts (n : Node T) : ∀ {p : Path} {a : Arr T}, n.arrAt p = some a →
    ∃ l₁ l₂, n.exts = l₁ ++ a.es ++ l₂ ∧ ∀ a', (n.setArr p a').exts = l₁ ++ a'.es ++ l₂ := by
  induction n with
  | entries b =>
    intro p a h
    cases p with
    | nil => cases h; exact ⟨[], [], by simp [Node.exts], by simp [Node.exts, Node.setArr]⟩
    | cons _ _ => cases h
  | split mask var exp le gt ih1 ih2 =>
    intro p a h
    cases p with
    | nil => cases h
    | cons b p =>
      cases b with
      | true =>
        obtain ⟨l₁, l₂, h1, h2⟩ := ih2 (p := p) h
        exact ⟨le.exts ++ l₁, l₂, by simp [Node.exts, h1], fun a' => by simp [Node.exts, Node.setArr, h2]⟩
      | false =>
        obtain ⟨l₁, l₂, h1, h2⟩ := ih1 (p := p) h
        exact ⟨l₁, l₂ ++ gt.exts, by simp [Node.exts, h1], fun a' => by simp [Node.exts, Node.setArr, h2]⟩

theorem setArr_wf (n : Node T) : ∀ {p : Path} {a a' : Arr T}, n.arrAt p = some a → n.WF c bits → ArrOk c bits a' →
    a'.es ⊆ a.es → (n.setArr p a').WF c bits := by
  induction n with
  | entries b =>
    intro p a a' h _ h2 _
    cases p with
    | nil => exact h2
    | cons _ _ => cases h
  | split mask var exp le gt ih1 ih2 =>
    intro p a a' h hw ha hs
    obtain ⟨h1, h2, hv, h3, h4, h5⟩ := hw
    cases p with
    | nil => cases h
    | cons b p =>
      cases b with
      | true =>
        obtain ⟨l₁, l₂, e1, e2⟩ := setArr_exts gt (p := p) (a := a) h
        have hsub : ∀ e ∈ (gt.setArr p a').exts, e ∈ gt.exts := by
          intro e he
          rw [e2] at he
          rw [e1]
          simp only [List.mem_append] at he ⊢
          rcases he with (he | he) | he
          · exact .inl (.inl he)
          · exact .inl (.inr (hs he))
          · exact .inr he
        refine ⟨h1, ih2 (p := p) h h2 ha hs, hv, h3, fun e he => h4 e (hsub e he), fun hu e he => h5 hu e ?_⟩
        rcases List.mem_append.mp he with he | he
        · exact List.mem_append_left _ he
        · exact List.mem_append_right _ (hsub e he)
      | false =>
        obtain ⟨l₁, l₂, e1, e2⟩ := setArr_exts le (p := p) (a := a) h
        have hsub : ∀ e ∈ (le.setArr p a').exts, e ∈ le.exts := by
          intro e he
          rw [e2] at he
          rw [e1]
          simp only [List.mem_append] at he ⊢
          rcases he with (he | he) | he
          · exact .inl (.inl he)
          · exact .inl (.inr (hs he))
          · exact .inr he
        refine ⟨ih1 (p := p) h h1 ha hs, h2, hv, fun e he => h3 e (hsub e he), h4, fun hu e he => h5 hu e ?_⟩
        rcases List.mem_append.mp he with he | he
        · exact List.mem_append_left _ (hsub e he)
        · exact List.mem_append_right _ he

theorem arrAt_setArr_ne (n : Node T) : ∀ {p q : Path} {a : Arr T}, q ≠ p → (n.setArr p a).arrAt q = n.arrAt q := by
  induction n with
  | entries b =>
    intro p q a h
    cases p with
    | nil =>
      cases q with
      | nil => exact absurd rfl h
      | cons _ _ => rfl
    | cons _ _ => rfl
  | split mask var exp le gt ih1 ih2 =>
    intro p q a h
    cases p with
    | nil => rfl
    | cons b p =>
      cases q with
      | nil => cases b <;> rfl
      | cons b' q =>
        cases b <;> cases b'
        · exact ih1 (p := p) (q := q) (fun h' => h (by rw [h']))
        · rfl
        · rfl
        · exact ih2 (p := p) (q := q) (fun h' => h (by rw [h']))

theorem setArr_same (n : Node T) : ∀ {p : Path} {a : Arr T}, n.arrAt p = some a → n.setArr p a = n := by
  induction n with
  | entries b =>
    intro p a h
    cases p with
    | nil => cases h; rfl
    | cons _ _ => rfl
  | split mask var exp le gt ih1 ih2 =>
    intro p a h
    cases p with
    | nil => rfl
    | cons b p =>
      cases b with
      | true => have := ih2 (p := p) (a := a) h; simp [Node.setArr, this]
      | false => have := ih1 (p := p) (a := a) h; simp [Node.setArr, this]

theorem filter_perm {α : Type} (p : α → Bool) (l : List α) : (l.filter (fun e => !p e) ++ l.filter p).Perm l := by
  have := List.filter_append_perm p l
  exact List.perm_append_comm.trans this

theorem fold_remove (hl : c.Lawful) (hc : Calc c bits) {m : Ext T} (hm : IsExt c bits m) :
    ∀ (l : List (Path × Arr T)) (n : Node T) (out : List T) (k : ℕ), n.WF c bits → (∀ x ∈ l, n.arrAt x.1 = some x.2) →
    (∀ x ∈ l, ArrOk c bits x.2) → (l.map Prod.fst).Nodup →
    ∃ n' rem, foldAct (actRemove c m) (n, out, k) (l.map Prod.fst) = some ((n', out ++ rem, k + rem.length), .go) ∧
      n'.WF c bits ∧ rem = (arrEntries l).filter (fun e => c.dm.divides m.t e) ∧
      (n'.contents ++ rem).Perm n.contents ∧ (rem = [] → n' = n) := by
  intro l
  induction l with
  | nil =>
    intro n out k h _ _ _
    exact ⟨n, [], by simp [foldAct], h, rfl, by simp, fun _ => rfl⟩
  | cons x l ih =>
    intro n out k h h1 h2 h3
    have hx := h1 x (by simp)
    have hok := h2 x (by simp)
    rw [List.map_cons, List.nodup_cons] at h3
    have hd : ∀ e ∈ x.2.es, divides c m e = c.dm.divides m.t e.t := fun e he => divides_eq hl hc hm (hok.exts e he)
    have hact : actRemove c m x.1 (n, out, k) = some ((n.setArr x.1 ⟨x.2.es.filter (fun e => !divides c m e), x.2.mask⟩,
        out ++ (x.2.es.filter (fun e => divides c m e)).map Ext.t,
        k + (x.2.es.filter (fun e => divides c m e)).length), .go) := by
      rw [actRemove]
      simp only [hx]
      rw [removeMultiples_eq m x.2 hok.cap]
    have hok' : ArrOk c bits ⟨x.2.es.filter (fun e => !divides c m e), x.2.mask⟩ :=
      hok.sublist List.filter_sublist
    obtain ⟨n', rem, g1, g2, g3, g4, g5⟩ := ih (n.setArr x.1 ⟨x.2.es.filter (fun e => !divides c m e), x.2.mask⟩)
      (out ++ (x.2.es.filter (fun e => divides c m e)).map Ext.t)
      (k + (x.2.es.filter (fun e => divides c m e)).length)
      (setArr_wf n hx h hok' List.filter_sublist.subset)
      (by
        intro y hy
        rw [arrAt_setArr_ne n (by
          intro heq
          exact h3.1 (by rw [← heq]; exact List.mem_map_of_mem hy))]
        exact h1 y (List.mem_cons_of_mem _ hy))
      (fun y hy => h2 y (List.mem_cons_of_mem _ hy)) h3.2
    refine ⟨n', (x.2.es.filter (fun e => divides c m e)).map Ext.t ++ rem, ?_, g2, ?_, ?_, ?_⟩
    · rw [List.map_cons, foldAct, hact]
      simp only
      rw [g1]
      simp [Nat.add_assoc]
    · rw [arrEntries, List.flatMap_cons, List.filter_append, ← filter_t hd, g3]
      rfl
    · obtain ⟨l₁, l₂, e1, e2⟩ := setArr_exts n hx
      rw [contents_exts n, e1]
      rw [contents_exts (n.setArr _ _), e2] at g4
      have hp : (n'.contents ++ ((x.2.es.filter (fun e => divides c m e)).map Ext.t ++ rem)).Perm
          ((n'.contents ++ rem) ++ (x.2.es.filter (fun e => divides c m e)).map Ext.t) := by
        rw [List.append_assoc]
        exact List.perm_append_comm.append_left _
      refine hp.trans ((g4.append_right _).trans ?_)
      rw [← List.map_append]
      refine List.Perm.map _ ?_
      simp only [List.append_assoc]
      refine List.Perm.append_left _ ?_
      have := (filter_perm (fun e => divides c m e) x.2.es).append_right l₂
      refine List.Perm.trans ?_ this
      rw [List.append_assoc]
      exact List.perm_append_comm.append_left _
    · intro h0
      have h0' := List.append_eq_nil_iff.mp h0
      rw [g5 h0'.2]
      have hno : x.2.es.filter (fun e => divides c m e) = [] := by simpa using h0'.1
      have hall : x.2.es.filter (fun e => !divides c m e) = x.2.es := by
        rw [List.filter_eq_self]
        rw [List.filter_eq_nil_iff] at hno
        intro e he
        simpa using hno e he
      rw [hall]
      exact setArr_same n hx

theorem tree_removeMultiples_ok (hl : c.Lawful) (hc : Calc c bits) {m : Ext T} (hm : IsExt c bits m) {t : Tree T}
    (h : t.Ok c bits) (ha : c.allowRemovals = true) (ht : t.tmp = []) :
    ∃ out t', t.removeMultiples c m = some (out, out.length, t') ∧ t'.Ok c bits ∧ t'.tmp = [] ∧
      out.Perm (t.contents.filter (fun e => c.dm.divides m.t e)) ∧
      t'.contents.Perm (t.contents.filter (fun e => !c.dm.divides m.t e)) ∧ (out = [] → t' = t) := by
  rcases t with ⟨root, tmp⟩
  cases ht
  cases root with
  | none => exact ⟨[], _, rfl, h, rfl, .refl _, .refl _, fun _ => rfl⟩
  | some n =>
    have hw := h.wf n rfl
    obtain ⟨n', rem, g1, g2, g3, g4, g5⟩ := fold_remove hl hc hm (visited c (.multiples m) [] n) n [] 0 hw
      (visited_arrAt n [] (sub_nil n)) (visited_wf n [] hw) (visited_nodup n [])
    obtain ⟨tmp, s1, s2⟩ := search_eq g1
    have hrem : rem.Perm (n.contents.filter (fun e => c.dm.divides m.t e)) := by
      rw [g3]; exact visited_multiples hl n [] hw
    refine ⟨rem, ⟨some n', tmp⟩, by simp [Tree.removeMultiples, s1], ⟨?_, ?_⟩, s2 (by decide), hrem, ?_, ?_⟩
    · rintro _ ⟨⟩; exact g2
    · rw [ha]; nofun
    · have hp := g4.trans (filter_perm (fun e => c.dm.divides m.t e) n.contents).symm
      have := (hrem.append_left n'.contents).symm.trans hp
      exact (List.perm_append_right_iff _).mp this
    · intro h0
      rw [g5 h0, s2 (by decide)]

end Verif.KDTree
