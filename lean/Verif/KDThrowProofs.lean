import Verif.KDAgree

/-!
# Lemmas on what an output object that throws leaves behind in a KD tree
-/

namespace Verif.KDTree

open Verif.DivMask (Ext Bits Mask)

variable {T : Type} {c : Conf T} {bits : Bits}

/-- The pointers of a list point into the tree. -/
def Into (root : Node T) (l : List (Path × Node T)) : Prop := ∀ x ∈ l, root.sub x.1 = some x.2

theorem Into.append {root : Node T} {l₁ l₂ : List (Path × Node T)} (h₁ : Into root l₁) (h₂ : Into root l₂) :
    Into root (l₁ ++ l₂) := by
  intro x hx
  rcases List.mem_append.mp hx with h | h
  · exact h₁ x h
  · exact h₂ x h

theorem Into.cons {root : Node T} {l : List (Path × Node T)} {p : Path} {n : Node T} (h : root.sub p = some n)
    (hl : Into root l) : Into root ((p, n) :: l) := by
  intro x hx
  rcases List.mem_cons.mp hx with rfl | hx
  · exact h
  · exact hl x hx

theorem sub_child {root : Node T} {p : Path} {mask : Mask} {var : ℕ} {exp : ℤ} {le gt : Node T}
    (h : root.sub p = some (.split mask var exp le gt)) :
    root.sub (p ++ [false]) = some le ∧ root.sub (p ++ [true]) = some gt := by
  rw [sub_append, sub_append, h]
  exact ⟨sub_nil le, sub_nil gt⟩

theorem expand_into {root : Node T} (k : Kind T) {p : Path} {n : Node T} (h : root.sub p = some n) :
    Into root (expand c p n k).pre ∧ Into root (expand c p n k).post := by
  have hnil : Into root [] := nofun
  have h1 : ∀ (m : Ext T) (n : Node T) p acc, root.sub p = some n → Into root acc →
      Into root (expandDivisors c m p acc n).pre ∧ Into root (expandDivisors c m p acc n).post := by
    intro m n
    induction n with
    | entries a => intro p acc _ ha; exact ⟨ha, hnil⟩
    | split mask var exp le gt ih1 _ =>
      intro p acc h ha
      rw [expandDivisors]
      split
      · exact ⟨ha, hnil⟩
      · apply ih1 _ _ (sub_child h).1
        split
        · exact ha.cons (sub_child h).2
        · exact ha
  have h2 : ∀ (m : Ext T) (n : Node T) p acc, root.sub p = some n → Into root acc →
      Into root (expandMultiplesB c m p acc n).pre ∧ Into root (expandMultiplesB c m p acc n).post := by
    intro m n
    induction n with
    | entries a => intro p acc _ ha; exact ⟨ha, hnil⟩
    | split mask var exp le gt _ ih2 =>
      intro p acc h ha
      rw [expandMultiplesB]
      apply ih2 _ _ (sub_child h).2
      split
      · exact ha.cons (sub_child h).1
      · exact ha
  have h3 : ∀ (m : Ext T) (n : Node T) p acc, root.sub p = some n → Into root acc →
      Into root (expandMultiplesP c m p acc n).pre ∧ Into root (expandMultiplesP c m p acc n).post := by
    intro m n
    induction n with
    | entries a => intro p acc _ ha; exact ⟨ha, hnil⟩
    | split mask var exp le gt ih1 _ =>
      intro p acc h ha
      rw [expandMultiplesP]
      split
      · exact ⟨ha.cons (sub_child h).2, hnil⟩
      · exact ih1 _ _ (sub_child h).1 (ha.cons (sub_child h).2)
  have h4 : ∀ (n : Node T) p acc, root.sub p = some n → Into root acc → Into root (expandAll p acc n).2 := by
    intro n
    induction n with
    | entries a => intro p acc _ ha; exact ha
    | split mask var exp le gt ih1 _ =>
      intro p acc h ha
      rw [expandAll]
      exact ih1 _ _ (sub_child h).1 (ha.cons (sub_child h).2)
  cases k with
  | divisors m => exact h1 m n p [] h hnil
  | multiples m =>
    rw [expand]
    split
    · exact h3 m n p [] h hnil
    · exact h2 m n p [] h hnil
  | all =>
    rw [expand]
    split
    · exact ⟨hnil, h4 n p [] h hnil⟩
    · exact ⟨h4 n p [] h hnil, hnil⟩

/-- What a search leaves in `_tmp` points into the tree. -/
theorem loop_into {σ : Type} {root : Node T} (k : Kind T) (act : Path → σ → Option (σ × Flow)) : ∀ (n : ℕ) (s : σ)
    (cur : Path × Node T) (stack : List (Path × Node T)), sizes (cur :: stack) = n → Into root (cur :: stack) →
    ∀ s' f tmp, loop c k act s cur stack = some (s', f, tmp) → ∃ l, Into root l ∧ tmp = l.map Prod.fst := by
  intro n
  induction n using Nat.strong_induction_on with
  | _ n ih =>
    intro s cur stack hn hi s' f tmp hloop
    obtain ⟨i1, i2⟩ := expand_into (c := c) k (hi cur (by simp))
    have i3 : Into root stack := fun x hx => hi x (List.mem_cons_of_mem _ hx)
    have hsz := expand_sizes c k cur.1 cur.2
    have hsizes : sizes (cur :: stack) = cur.2.size + sizes stack := by simp [sizes]
    have hlt : sizes ((expand c cur.1 cur.2 k).post ++ ((expand c cur.1 cur.2 k).pre ++ stack)) < n := by
      rw [sizes_append, sizes_append]
      omega
    have hlt' : sizes ((expand c cur.1 cur.2 k).pre ++ stack) < n := by
      rw [sizes_append]
      omega
    rw [loop] at hloop
    have hnil : ∃ l : List (Path × Node T), Into root l ∧ [] = l.map Prod.fst := ⟨[], nofun, rfl⟩
    split at hloop
    · split at hloop
      · cases hloop; exact hnil
      · rename_i nxt rest h0
        rw [h0] at hlt'
        exact ih _ hlt' s nxt rest rfl (h0 ▸ i1.append i3) s' f tmp hloop
    · split at hloop
      · cases hloop
      · cases hloop; exact hnil
      · cases hloop; exact ⟨_, i1.append i3, rfl⟩
      · split at hloop
        · cases hloop; exact hnil
        · rename_i nxt rest h0
          rw [h0] at hlt
          exact ih _ hlt _ nxt rest rfl (h0 ▸ i2.append (i1.append i3)) s' f tmp hloop

theorem mapM_into {root : Node T} {l : List (Path × Node T)} (h : Into root l) :
    (l.map Prod.fst).mapM (fun p => (root.sub p).map (p, ·)) = some l := by
  induction l with
  | nil => rfl
  | cons x l ih =>
    rw [List.map_cons, List.mapM_cons, ih (fun y hy => h y (List.mem_cons_of_mem _ hy)), h x (by simp)]
    rfl

/-- The pointers in `_tmp` point into the tree. -/
def Tree.Usable (t : Tree T) : Prop := ∀ n, t.root = some n → ∃ l, Into n l ∧ t.tmp = l.map Prod.fst

theorem enumerate_usable {t t' : Tree T} (ht : t.tmp = []) {k : Kind T} {f : List T → Arr T → Option (List T × Flow)}
    {got : List T} {flow : Flow} (h : t.enumerate c k f = some (got, flow, t')) : t'.Usable := by
  rcases t with ⟨root, tmp⟩
  cases ht
  cases root with
  | none => cases h; nofun
  | some n =>
    rw [Tree.enumerate] at h
    simp only at h
    split at h
    · cases h
    · rename_i g fl tmp hs
      cases h
      intro n' hn'
      cases hn'
      exact loop_into k _ _ _ ([], n) [] rfl (by intro x hx; cases List.mem_singleton.mp hx; exact sub_nil n) _ _ _ hs

theorem arrAt_wf (n : Node T) : ∀ {p : Path} {a : Arr T}, n.arrAt p = some a → n.WF c bits → ArrOk c bits a := by
  induction n with
  | entries b =>
    intro p a h hw
    cases p with
    | nil => cases h; exact hw
    | cons _ _ => cases h
  | split mask var exp le gt ih1 ih2 =>
    intro p a h hw
    cases p with
    | nil => cases h
    | cons b p =>
      cases b with
      | true => exact ih2 (p := p) h hw.2.1
      | false => exact ih1 (p := p) h hw.1

theorem arrAt_ne (n : Node T) : ∀ {p : Path} {a : Arr T}, n.arrAt p = some a → n.NE → a.es ≠ [] := by
  induction n with
  | entries b =>
    intro p a h hw
    cases p with
    | nil => cases h; exact hw
    | cons _ _ => cases h
  | split mask var exp le gt ih1 ih2 =>
    intro p a h hw
    cases p with
    | nil => cases h
    | cons b p =>
      cases b with
      | true => exact ih2 (p := p) h hw.2
      | false => exact ih1 (p := p) h hw.1

/-- `findDivisor` is exact whatever has been left in `_tmp`. -/
theorem tree_findDivisor_usable (hl : c.Lawful) (hc : Calc c bits) {m : Ext T} (hm : IsExt c bits m) {t : Tree T}
    (h : t.Ok c bits) (ht : t.Usable) :
    (∃ p e t', t.findDivisor c m = some (some p, t') ∧ t'.root = t.root ∧ t'.deref p = some e ∧ c.dm.divides e m.t = true) ∨
    (∃ t', t.findDivisor c m = some (none, t') ∧ t'.root = t.root ∧ ∀ e ∈ t.contents, c.dm.divides e m.t = false) := by
  rcases t with ⟨root, tmp⟩
  cases root with
  | none => exact .inr ⟨_, rfl, rfl, nofun⟩
  | some n =>
    obtain ⟨l, i1, i2⟩ := ht n rfl
    simp only at i2
    subst i2
    have hw := h.wf n rfl
    have hin : Into n (([], n) :: l) := i1.cons (sub_nil n)
    have hwf : ∀ x ∈ visitedAll c (.divisors m) (([], n) :: l), n.arrAt x.1 = some x.2 := by
      intro x hx
      obtain ⟨y, hy, hx⟩ := List.mem_flatMap.mp hx
      exact visited_arrAt y.2 y.1 (hin y hy) x hx
    have harr : ∀ {p a}, n.arrAt p = some a → ArrOk c bits a ∧ (c.allowRemovals = false → a.es ≠ []) :=
      fun {p a} ha => ⟨arrAt_wf n ha hw, fun hr => arrAt_ne n ha (h.ne hr n rfl)⟩
    have hsearch : ∀ s' f, foldAct (actDivisor c m n) none ((visitedAll c (.divisors m) (([], n) :: l)).map Prod.fst) = some (s', f) →
        ∃ tmp, search c (.divisors m) (actDivisor c m n) none n (l.map Prod.fst) = some (s', f, tmp) := by
      intro s' f hf
      obtain ⟨tmp, g, _⟩ := loop_eq _ _ _ none ([], n) l rfl s' f hf
      exact ⟨tmp, by rw [search, mapM_into i1]; exact g⟩
    rcases fold_findDivisor (root := n) hl hc hm (visitedAll c (.divisors m) (([], n) :: l)) hwf
      (fun x hx => (harr (hwf x hx)).1) (fun ha x hx => (harr (hwf x hx)).2 ha) with ⟨p, i, a, e, h1, h2, h3, h4⟩ | ⟨h1, h2⟩
    · obtain ⟨tmp, g1⟩ := hsearch _ _ h1
      refine .inl ⟨(p, i), e.t, ⟨some n, tmp⟩, ?_, rfl, ?_, h4⟩
      · simp [Tree.findDivisor, g1]
      · simp [Tree.deref, h2, h3]
    · obtain ⟨tmp, g1⟩ := hsearch _ _ h1
      refine .inr ⟨⟨some n, tmp⟩, ?_, rfl, ?_⟩
      · simp [Tree.findDivisor, g1]
      · intro e he
        cases hd : c.dm.divides e m.t with
        | false => rfl
        | true =>
          have hmem : e ∈ n.contents.filter (fun e => c.dm.divides e m.t) := List.mem_filter.mpr ⟨he, hd⟩
          rw [← visited_divisors hl hc hm n [] hw] at hmem
          have h5 := (List.mem_filter.mp hmem).1
          have := h2 e (by
            rw [show visitedAll c (.divisors m) (([], n) :: l) = visited c (.divisors m) [] n ++ visitedAll c (.divisors m) l by
              simp [visitedAll], arrEntries_append]
            exact List.mem_append_left _ h5)
          rw [this] at hd; cases hd

/-- The same for the whole call. -/
theorem findDivisor_usable (hl : c.Lawful) {s : State T} (hm : Calc c s.bits) (ht : s.tree.Ok c s.bits)
    (hu : s.tree.Usable) (hc : c.useDivisorCache = true → ∀ p, s.cache = some p → ∃ e, s.tree.deref p = some e) (m : T) :
    ∃ r s', findDivisor c s m = .ok (.entry r, s') ∧ s'.contents = s.contents ∧
      (∀ e, r = some e → e ∈ s.contents ∧ c.dm.divides e m = true) ∧
      (r = none → ∀ e ∈ s.contents, c.dm.divides e m = false) := by
  have hdef : findDivisor c s m = findDivisorTree c s m ∨
      ∃ e, findDivisor c s m = .ok (.entry (some e), s) ∧ e ∈ s.contents ∧ c.dm.divides e m = true := by
    unfold findDivisor
    cases hu : c.useDivisorCache with
    | false => exact .inl rfl
    | true =>
      cases hp : s.cache with
      | none => exact .inl rfl
      | some p =>
        obtain ⟨e, he⟩ := hc hu p hp
        simp only [he]
        split
        · rename_i hd
          exact .inr ⟨e, rfl, deref_mem he, hd⟩
        · exact .inl rfl
  rcases hdef with hd | ⟨e, h1, h2, h3⟩
  · rw [hd]
    unfold findDivisorTree
    have hm' : IsExt c s.bits (ext c s m) := rfl
    rcases tree_findDivisor_usable hl hm hm' ht hu with ⟨p, e, t', h1, h2, h3, h4⟩ | ⟨t', h1, h2, h3⟩
    · rw [h1]
      simp only [h3]
      refine ⟨_, _, rfl, ?_, ?_, nofun⟩
      · simp [State.contents, Tree.contents, h2]
      · intro e' he'
        cases he'
        refine ⟨?_, h4⟩
        have := deref_mem h3
        rw [Tree.contents, h2] at this
        exact this
    · rw [h1]
      refine ⟨_, _, rfl, ?_, nofun, fun _ => h3⟩
      simp [State.contents, Tree.contents, h2]
  · refine ⟨_, _, h1, rfl, ?_, nofun⟩
    intro e' he'
    cases he'
    exact ⟨h2, h3⟩

end Verif.KDTree
