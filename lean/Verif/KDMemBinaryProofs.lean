import Verif.KDMemHeapProofs

/-!
# Lemmas on binary KD trees in memory: searches and insertion
-/

namespace Verif.KDMem

open Verif.DivMask (Ext Bits Mask combineAnd canDivide maxMask)
open Verif.KDTree (Conf Flow Arr Split Kind Node Path lower inChild sortEntries split)

variable {T : Type} {c : Conf T}

theorem sort_length (hl : c.Lawful) (l : List (Ext T)) : (sortEntries c l).length = l.length :=
  (KDTree.sortEntries_perm hl l).length_eq

theorem split_length {α : Type} (hl : c.Lawful) {f : α → T} {l : List α} {extra : Option α} {hint : Option ℕ} {r : Split α}
    (h : split c f l extra hint = some (some r)) : r.le.length + r.gt.length = l.length := by
  by_cases hne : extra.toList ++ l = []
  · have h1 : l = [] := (List.append_eq_nil_iff.mp hne).2
    have h2 : extra = none := by
      cases extra with
      | none => rfl
      | some x => simp at hne
    subst h1 h2
    exfalso
    unfold split at h
    cases hv : c.dm.varCount with
    | zero => rw [hv] at h; cases h
    | succ n => rw [hv] at h; cases h
  · rcases KDTree.split_ok hl f hne hint with ⟨r', h1, h2⟩ | ⟨h1, _⟩
    · rw [h1] at h
      cases h
      have := h2.perm.length_eq
      simpa using this
    · rw [h1] at h; cases h

namespace Binary

/-- A tree in memory; `mk` gives the masks as they are there. -/
def Holds (c : Conf T) (mk : Mask → Mask) (h : Heap (BNode T)) : AT T → Prop
  | .entries x a => get h x = some (.leaf (ofArr c a)) ∧ Fits c a
  | .split x m v e le gt => get h x = some (.interior (mk m) v e (some le.addr) (some gt.addr)) ∧ Holds c mk h le ∧ Holds c mk h gt

/-- The masks of interior nodes: without tree masks there are none. -/
def fin (c : Conf T) (m : Mask) : Mask := if c.useTreeDivMask then m else maxMask

/-- The addresses of the nodes. -/
def addrs : AT T → List Addr
  | .entries x _ => [x]
  | .split x _ _ _ le gt => x :: (addrs le ++ addrs gt)

theorem addr_mem (t : AT T) : t.addr ∈ addrs t := by cases t <;> simp [AT.addr, addrs]

theorem holds_keep {mk : Mask → Mask} {h h' : Heap (BNode T)} : ∀ {t : AT T}, Holds c mk h t →
    (∀ y ∈ addrs t, ∀ n, get h y = some n → get h' y = some n) → Holds c mk h' t := by
  intro t
  induction t with
  | entries x a => intro h1 h2; exact ⟨h2 x (by simp [addrs]) _ h1.1, h1.2⟩
  | split x m v e le gt ih1 ih2 =>
    intro h1 h2
    exact ⟨h2 x (by simp [addrs]) _ h1.1, ih1 h1.2.1 (fun y hy => h2 y (by simp [addrs, hy])),
      ih2 h1.2.2 (fun y hy => h2 y (by simp [addrs, hy]))⟩

theorem holds_live {mk : Mask → Mask} {h : Heap (BNode T)} : ∀ {t : AT T}, Holds c mk h t → ∀ y ∈ addrs t, ∃ n, get h y = some n := by
  intro t
  induction t with
  | entries x a =>
    intro h1 y hy
    simp [addrs] at hy
    exact ⟨_, hy ▸ h1.1⟩
  | split x m v e le gt ih1 ih2 =>
    intro h1 y hy
    simp only [addrs, List.mem_cons, List.mem_append] at hy
    rcases hy with hy | hy | hy
    · exact ⟨_, hy ▸ h1.1⟩
    · exact ih1 h1.2.1 y hy
    · exact ih2 h1.2.2 y hy

theorem setArr_addrs (t : AT T) : ∀ (p : Path) (a : Arr T), addrs (t.setArr p a) = addrs t := by
  induction t with
  | entries x b => intro p a; cases p <;> rfl
  | split x m v e le gt ih1 ih2 =>
    intro p a
    cases p with
    | nil => rfl
    | cons b p => cases b <;> simp [AT.setArr, addrs, ih1, ih2]

/-! ## Searches -/

/-- The shape of a tree in memory, with the addresses given by paths. -/
def Spine (c : Conf T) (h : Heap (BNode T)) (A : Path → Addr) : Node T → Path → Prop
  | .entries _, p => ∃ r, get h (A p) = some (.leaf r)
  | .split m v e le gt, p => get h (A p) = some (.interior (fin c m) v e (some (A (p ++ [false]))) (some (A (p ++ [true])))) ∧
      Spine c h A le (p ++ [false]) ∧ Spine c h A gt (p ++ [true])

theorem spine_of {h : Heap (BNode T)} {A : Path → Addr} : ∀ {t : AT T} {p : Path}, Holds c (fin c) h t →
    (∀ q, A (p ++ q) = t.loc q) → Spine c h A t.erase p := by
  intro t
  induction t with
  | entries x a =>
    intro p h1 h2
    have : A p = x := by simpa [AT.loc] using h2 []
    exact ⟨_, this ▸ h1.1⟩
  | split x m v e le gt ih1 ih2 =>
    intro p h1 h2
    have e0 : A p = x := by simpa [AT.loc] using h2 []
    have e1 : A (p ++ [false]) = le.addr := by rw [h2 [false], AT.loc]; simp [AT.loc_nil]
    have e2 : A (p ++ [true]) = gt.addr := by rw [h2 [true], AT.loc]; simp [AT.loc_nil]
    refine ⟨?_, ih1 h1.2.1 ?_, ih2 h1.2.2 ?_⟩
    · rw [e0, e1, e2]; exact h1.1
    · intro q; rw [List.append_assoc, h2]; simp [AT.loc]
    · intro q; rw [List.append_assoc, h2]; simp [AT.loc]

theorem spine_put {h h' : Heap (BNode T)} {A : Path → Addr} {x : Addr} {r : RArr T} (hp : putArr h x r = some h') :
    ∀ {n : Node T} {p : Path}, Spine c h A n p → Spine c h' A n p := by
  rw [putArr] at hp
  split at hp
  · rename_i r' hg
    obtain ⟨h'', g1, g2, g3⟩ := put_spec hg (.leaf r)
    rw [g1] at hp
    cases hp
    intro n
    induction n with
    | entries a =>
      rintro p ⟨r₀, h1⟩
      by_cases hx : A p = x
      · exact ⟨r, by rw [hx]; exact g2⟩
      · exact ⟨r₀, by rw [g3 _ hx]; exact h1⟩
    | split m v e le gt ih1 ih2 =>
      rintro p ⟨h1, h2, h3⟩
      refine ⟨?_, ih1 h2, ih2 h3⟩
      by_cases hx : A p = x
      · rw [hx, hg] at h1; cases h1
      · rw [g3 _ hx]; exact h1
  · cases hp

theorem expandDivisors_ok {h : Heap (BNode T)} {A : Path → Addr} (m : Ext T) (tmp : List Addr) : ∀ {n : Node T} {p : Path}
    (acc : List (Path × Node T)), Spine c h A n p →
    expandDivisors c m h (A p) (acc.map (fun x => A x.1) ++ tmp) = some ((KDTree.expandDivisors c m p acc n).leaf.map A,
      (KDTree.expandDivisors c m p acc n).pre.map (fun x => A x.1) ++ tmp) := by
  intro n
  induction n with
  | entries a =>
    rintro p acc ⟨r, h1⟩
    rw [expandDivisors, h1]
    rfl
  | split mask v e le gt ih1 ih2 =>
    rintro p acc ⟨h1, h2, h3⟩
    rw [expandDivisors, h1, KDTree.expandDivisors]
    simp only [Option.bind_eq_bind, Option.bind_some]
    have hm : (c.useTreeDivMask && !canDivide (fin c mask) m.mask) = (c.useTreeDivMask && !canDivide mask m.mask) := by
      unfold fin; cases c.useTreeDivMask <;> rfl
    rw [hm]
    split
    · rfl
    · split
      · exact ih1 ((p ++ [true], gt) :: acc) h2
      · exact ih1 acc h2

theorem expandMultiples_ok {h : Heap (BNode T)} {A : Path → Addr} (m : Ext T) (tmp : List Addr) : ∀ {n : Node T} {p : Path}
    (acc : List (Path × Node T)), Spine c h A n p →
    expandMultiples c m h (A p) (acc.map (fun x => A x.1) ++ tmp) = some ((KDTree.expandMultiplesB c m p acc n).leaf.map A,
      (KDTree.expandMultiplesB c m p acc n).pre.map (fun x => A x.1) ++ tmp) := by
  intro n
  induction n with
  | entries a =>
    rintro p acc ⟨r, h1⟩
    rw [expandMultiples, h1]
    rfl
  | split mask v e le gt ih1 ih2 =>
    rintro p acc ⟨h1, h2, h3⟩
    rw [expandMultiples, h1, KDTree.expandMultiplesB]
    simp only [Option.bind_eq_bind, Option.bind_some]
    split
    · exact ih2 ((p ++ [false], le) :: acc) h3
    · exact ih2 acc h3

theorem expandAll_ok {h : Heap (BNode T)} {A : Path → Addr} (tmp : List Addr) : ∀ {n : Node T} {p : Path}
    (acc : List (Path × Node T)), Spine c h A n p →
    expandAll h (A p) (acc.map (fun x => A x.1) ++ tmp) = some (A (KDTree.expandAll p acc n).1,
      (KDTree.expandAll p acc n).2.map (fun x => A x.1) ++ tmp) := by
  intro n
  induction n with
  | entries a =>
    rintro p acc ⟨r, h1⟩
    rw [expandAll, h1]
    rfl
  | split mask v e le gt ih1 ih2 =>
    rintro p acc ⟨h1, h2, h3⟩
    rw [expandAll, h1, KDTree.expandAll]
    simp only [Option.bind_eq_bind, Option.bind_some]
    exact ih1 ((p ++ [true], gt) :: acc) h2

theorem expand_ok (hp : c.packed = false) {h : Heap (BNode T)} {A : Path → Addr} {n : Node T} {p : Path} (k : Kind T)
    (tmp : List Addr) (hs : Spine c h A n p) :
    expand c k h (A p) tmp = some ((KDTree.expand c p n k).leaf.map A, (KDTree.expand c p n k).pre.map (fun x => A x.1) ++ tmp) := by
  cases k with
  | divisors m => exact expandDivisors_ok m tmp [] hs
  | multiples m =>
    rw [KDTree.expand, hp]
    exact expandMultiples_ok m tmp [] hs
  | all =>
    rw [KDTree.expand, hp, expand]
    have := expandAll_ok tmp [] hs
    rw [List.map_nil, List.nil_append] at this
    rw [this]
    rfl

theorem expand_post (hp : c.packed = false) {n : Node T} {p : Path} (k : Kind T) : (KDTree.expand c p n k).post = [] := by
  have h1 : ∀ (m : Ext T) (n : Node T) p acc, (KDTree.expandDivisors c m p acc n).post = [] := by
    intro m n
    induction n with
    | entries a => intro p acc; rfl
    | split mask v e le gt ih1 ih2 => intro p acc; rw [KDTree.expandDivisors]; split <;> [rfl; exact ih1 _ _]
  have h2 : ∀ (m : Ext T) (n : Node T) p acc, (KDTree.expandMultiplesB c m p acc n).post = [] := by
    intro m n
    induction n with
    | entries a => intro p acc; rfl
    | split mask v e le gt ih1 ih2 => intro p acc; rw [KDTree.expandMultiplesB]; exact ih2 _ _
  cases k with
  | divisors m => exact h1 _ _ _ _
  | multiples m => rw [KDTree.expand, hp]; exact h2 _ _ _ _
  | all => rw [KDTree.expand, hp]; rfl

theorem spine_pre (hp : c.packed = false) {h : Heap (BNode T)} {A : Path → Addr} {n : Node T} {p : Path} (k : Kind T)
    (hs : Spine c h A n p) : ∀ x ∈ (KDTree.expand c p n k).pre, Spine c h A x.2 x.1 := by
  have h1 : ∀ (m : Ext T) (n : Node T) p acc, Spine c h A n p → (∀ x ∈ acc, Spine c h A x.2 x.1) →
      ∀ x ∈ (KDTree.expandDivisors c m p acc n).pre, Spine c h A x.2 x.1 := by
    intro m n
    induction n with
    | entries a => intro p acc _ ha; exact ha
    | split mask v e le gt ih1 ih2 =>
      intro p acc hs ha
      rw [KDTree.expandDivisors]
      split
      · exact ha
      · refine ih1 _ _ hs.2.1 ?_
        split
        · rintro x (_ | ⟨_, hx⟩)
          · exact hs.2.2
          · exact ha _ hx
        · exact ha
  have h2 : ∀ (m : Ext T) (n : Node T) p acc, Spine c h A n p → (∀ x ∈ acc, Spine c h A x.2 x.1) →
      ∀ x ∈ (KDTree.expandMultiplesB c m p acc n).pre, Spine c h A x.2 x.1 := by
    intro m n
    induction n with
    | entries a => intro p acc _ ha; exact ha
    | split mask v e le gt ih1 ih2 =>
      intro p acc hs ha
      rw [KDTree.expandMultiplesB]
      refine ih2 _ _ hs.2.2 ?_
      split
      · rintro x (_ | ⟨_, hx⟩)
        · exact hs.2.1
        · exact ha _ hx
      · exact ha
  have h3 : ∀ (n : Node T) p acc, Spine c h A n p → (∀ x ∈ acc, Spine c h A x.2 x.1) →
      ∀ x ∈ (KDTree.expandAll p acc n).2, Spine c h A x.2 x.1 := by
    intro n
    induction n with
    | entries a => intro p acc _ ha; exact ha
    | split mask v e le gt ih1 ih2 =>
      intro p acc hs ha
      rw [KDTree.expandAll]
      refine ih1 _ _ hs.2.1 ?_
      rintro x (_ | ⟨_, hx⟩)
      · exact hs.2.2
      · exact ha _ hx
  cases k with
  | divisors m => exact h1 _ _ _ _ hs nofun
  | multiples m => rw [KDTree.expand, hp]; exact h2 _ _ _ _ hs nofun
  | all => rw [KDTree.expand, hp]; exact h3 _ _ _ hs nofun

/-! ## Arrays -/

theorem loc_mem : ∀ {t : AT T} {p : Path} {a : Arr T}, t.erase.arrAt p = some a → t.loc p ∈ addrs t := by
  intro t
  induction t with
  | entries x b => intro p a h; simp [AT.loc, addrs]
  | split x m v e le gt ih1 ih2 =>
    intro p a h
    cases p with
    | nil => simp [AT.loc, addrs]
    | cons b p =>
      cases b with
      | false => simp only [AT.loc, addrs]; have := ih1 (p := p) (a := a) h; simp [this]
      | true => simp only [AT.loc, addrs]; have := ih2 (p := p) (a := a) h; simp [this]

theorem getArr_ok {h : Heap (BNode T)} : ∀ {t : AT T} {p : Path} {a : Arr T}, Holds c (fin c) h t → t.erase.arrAt p = some a →
    getArr h (t.loc p) = some (ofArr c a) ∧ Fits c a := by
  intro t
  induction t with
  | entries x b =>
    intro p a h1 h2
    cases p with
    | nil =>
      cases h2
      rw [AT.loc, getArr, h1.1]
      exact ⟨rfl, h1.2⟩
    | cons d p => cases h2
  | split x m v e le gt ih1 ih2 =>
    intro p a h1 h2
    cases p with
    | nil => cases h2
    | cons d p =>
      cases d with
      | false => exact ih1 h1.2.1 h2
      | true => exact ih2 h1.2.2 h2

theorem get_loc {h : Heap (BNode T)} {t : AT T} {p : Path} {a : Arr T} (h1 : Holds c (fin c) h t) (h2 : t.erase.arrAt p = some a) :
    get h (t.loc p) = some (.leaf (ofArr c a)) := by
  have := (getArr_ok h1 h2).1
  rw [getArr] at this
  split at this
  · rename_i r hr; cases this; exact hr
  · cases this

theorem holds_set {h h' : Heap (BNode T)} {a' : Arr T} (hf : Fits c a') : ∀ {t : AT T} {p : Path} {a : Arr T},
    Holds c (fin c) h t → (addrs t).Nodup → t.erase.arrAt p = some a → get h' (t.loc p) = some (.leaf (ofArr c a')) →
    (∀ y, y ≠ t.loc p → get h' y = get h y) → Holds c (fin c) h' (t.setArr p a') := by
  intro t
  induction t with
  | entries x b =>
    intro p a h1 hn h2 h3 h4
    cases p with
    | nil => exact ⟨h3, hf⟩
    | cons d p => cases h2
  | split x m v e le gt ih1 ih2 =>
    intro p a h1 hn h2 h3 h4
    rw [addrs, List.nodup_cons, List.nodup_append] at hn
    obtain ⟨n1, n2, n3, n4⟩ := hn
    cases p with
    | nil => cases h2
    | cons d p =>
      cases d with
      | false =>
        have hm := loc_mem (t := le) (p := p) (a := a) h2
        have hk : ∀ y, y ∉ addrs le → ∀ n, get h y = some n → get h' y = some n := by
          intro y hy n hg
          rw [h4 y (fun e => hy (e ▸ hm))]; exact hg
        refine ⟨?_, ih1 h1.2.1 n2 h2 h3 h4, ?_⟩
        · rw [AT.setArr_addr]
          exact hk x (fun hx => n1 (by simp [hx])) _ h1.1
        · exact holds_keep h1.2.2 (fun y hy n hg => hk y (fun hy' => n4 y hy' y hy rfl) n hg)
      | true =>
        have hm := loc_mem (t := gt) (p := p) (a := a) h2
        have hk : ∀ y, y ∉ addrs gt → ∀ n, get h y = some n → get h' y = some n := by
          intro y hy n hg
          rw [h4 y (fun e => hy (e ▸ hm))]; exact hg
        refine ⟨?_, ?_, ih2 h1.2.2 n3 h2 h3 h4⟩
        · rw [AT.setArr_addr]
          exact hk x (fun hx => n1 (by simp [hx])) _ h1.1
        · exact holds_keep h1.2.1 (fun y hy n hg => hk y (fun hy' => n4 y hy y hy' rfl) n hg)

theorem putArr_ok {h : Heap (BNode T)} {t : AT T} {p : Path} {a a' : Arr T} (hm : Mem (Holds c (fin c)) addrs h t)
    (ha : t.erase.arrAt p = some a) (hf : Fits c a') :
    ∃ h', putArr h (t.loc p) (ofArr c a') = some h' ∧ Mem (Holds c (fin c)) addrs h' (t.setArr p a') := by
  have hg := get_loc hm.holds ha
  obtain ⟨h', g1, g2, g3⟩ := put_spec hg (.leaf (ofArr c a'))
  refine ⟨h', by rw [putArr, hg]; exact g1, holds_set hf hm.holds hm.nodup ha g2 g3, by rw [setArr_addrs]; exact hm.nodup, ?_⟩
  intro y n hy
  rw [setArr_addrs]
  by_cases he : y = t.loc p
  · rw [he]; exact loc_mem ha
  · rw [g3 y he] at hy; exact hm.cover y n hy

/-- The entries in memory. -/
theorem live_addrs {h : Heap (BNode T)} : ∀ {t : AT T}, Holds c (fin c) h t →
    (addrs t).flatMap (liveAt slots h) = t.erase.contents := by
  intro t
  induction t with
  | entries x a =>
    intro h1
    simp only [addrs, List.flatMap_cons, List.flatMap_nil, List.append_nil, AT.erase, Node.contents]
    rw [liveAt, h1.1]
    exact raw_live _ _
  | split x m v e le gt ih1 ih2 =>
    intro h1
    simp only [addrs, List.flatMap_cons, List.flatMap_append, AT.erase, Node.contents]
    rw [ih1 h1.2.1, ih2 h1.2.2, liveAt, h1.1]
    rfl

theorem live {h : Heap (BNode T)} {t : AT T} (hm : Mem (Holds c (fin c)) addrs h t) :
    (liveEntries slots h).Perm t.erase.contents := by
  rw [← live_addrs hm.holds]
  exact liveEntries_perm hm.nodup (holds_live hm.holds) hm.cover

/-! ## `insert` -/

/-- `insert` after the walk. -/
def finish (c : Conf T) (x : Ext T) (w : Heap (BNode T) × Addr × Option Addr) : Option (Bool × Heap (BNode T) × Option Addr) := do
  let r ← getArr w.1 w.2.1
  if r.len = c.leafSize then do
    let res ← splitInsert c x w.1 w.2.1 w.2.2
    match res with
    | none => some (true, w.1, none)
    | some (h, i) => some (false, h, if w.2.2 = none then some i else none)
  else do
    let r ← r.insert c x
    let h ← putArr w.1 w.2.1 r
    some (false, h, none)

theorem insert_eq (h : Heap (BNode T)) (root : Addr) (tmp : List Addr) (x : Ext T) :
    insert c ⟨h, some root, tmp⟩ x = ((insertWalk c x h root none).bind (finish c x)).map
      (fun r => (r.1, ⟨r.2.1, some (r.2.2.getD root), tmp⟩)) := by
  rw [insert]
  simp only [Option.bind_eq_bind]
  cases insertWalk c x h root none with
  | none => rfl
  | some w =>
    obtain ⟨h1, leaf, parent⟩ := w
    simp only [Option.bind_some, finish, Option.bind_eq_bind]
    cases getArr h1 leaf with
    | none => rfl
    | some r =>
      simp only [Option.bind_some]
      by_cases hr : r.len = c.leafSize
      · rw [if_pos hr, if_pos hr]
        cases splitInsert c x h1 leaf parent with
        | none => rfl
        | some res =>
          cases res with
          | none => rfl
          | some q =>
            cases parent <;> rfl
      · rw [if_neg hr, if_neg hr]
        cases r.insert c x with
        | none => rfl
        | some r =>
          simp only [Option.bind_some]
          cases putArr h1 leaf r <;> rfl

/-- The place in the parent where a node hangs: `side` is true for the strictly greater child. -/
def Slot (h : Heap (BNode T)) (parent : Option Addr) (hint : Option ℕ) (side : Bool) (old : Addr) : Prop :=
  match parent with
  | none => hint = none
  | some p => ∃ m v e l g, get h p = some (.interior m v e (some l) (some g)) ∧ hint = some v ∧
      (if side then g = old ∧ l ≠ old else l = old)

/-- What the parent is afterwards. -/
def Slot' (h h' : Heap (BNode T)) (parent : Option Addr) (side : Bool) (new : Addr) : Prop :=
  ∀ p m v e l g, parent = some p → get h p = some (.interior m v e (some l) (some g)) →
    get h' p = some (if side then .interior m v e (some l) (some new) else .interior m v e (some new) (some g))

theorem hint_ok {h : Heap (BNode T)} {parent : Option Addr} {hint' : Option ℕ} {side : Bool} {old : Addr}
    (hs : Slot h parent hint' side old) : hint h parent = some hint' := by
  cases parent with
  | none => rw [hint, hs]
  | some p =>
    obtain ⟨m, v, e, l, g, h1, h2, _⟩ := hs
    rw [hint, h1, h2]

theorem slot_same {h h' : Heap (BNode T)} {parent : Option Addr} {hint : Option ℕ} {side : Bool} {old : Addr}
    (hs : Slot h parent hint side old) (hk : ∀ p n, parent = some p → get h p = some n → get h' p = some n) :
    Slot' h h' parent side old := by
  rintro p m v e l g rfl hg
  obtain ⟨m', v', e', l', g', h1, h2, h3⟩ := hs
  rw [h1] at hg
  cases hg
  rw [hk p _ rfl h1]
  cases side with
  | false => simp only [Bool.false_eq_true, if_false] at h3; subst h3; rfl
  | true => simp only [if_true] at h3; rw [h3.1]; rfl

theorem relink_ok {h : Heap (BNode T)} {parent : Option Addr} {hint : Option ℕ} {side : Bool} {old new : Addr}
    (hs : Slot h parent hint side old) : ∃ h', relink h parent old new = some h' ∧ Slot' h h' parent side new ∧
      ∀ y, parent ≠ some y → get h' y = get h y := by
  cases parent with
  | none => exact ⟨h, rfl, nofun, fun _ _ => rfl⟩
  | some p =>
    obtain ⟨m, v, e, l, g, h1, h2, h3⟩ := hs
    cases side with
    | false =>
      simp only [Bool.false_eq_true, if_false] at h3
      obtain ⟨h', g1, g2, g3⟩ := put_spec h1 (.interior m v e (some new) (some g))
      refine ⟨h', ?_, ?_, fun y hy => g3 y (fun e => hy (e ▸ rfl))⟩
      · rw [relink, h1]; simp only; rw [if_pos h3]; exact g1
      · rintro _ m' v' e' l' g' ⟨⟩ hg
        rw [h1] at hg; cases hg
        exact g2
    | true =>
      simp only [if_true] at h3
      obtain ⟨h', g1, g2, g3⟩ := put_spec h1 (.interior m v e (some l) (some new))
      refine ⟨h', ?_, ?_, fun y hy => g3 y (fun e => hy (e ▸ rfl))⟩
      · rw [relink, h1]; simp only; rw [if_neg h3.2]; exact g1
      · rintro _ m' v' e' l' g' ⟨⟩ hg
        rw [h1] at hg; cases hg
        exact g2

/-- What an insertion below `t` leaves. -/
structure Inserted (c : Conf T) (h : Heap (BNode T)) (t : AT T) (parent : Option Addr) (side : Bool) (b : Bool) (n' : Node T)
    (h' : Heap (BNode T)) (t' : AT T) (top : Option Addr) : Prop where
  erase : t'.erase = n'
  holds : Holds c (fin c) h' t'
  nodup : (addrs t').Nodup
  keep : Keep h h' (parent.toList ++ addrs t)
  slot : Slot' h h' parent side t'.addr
  cover : Cover h h' (addrs t')
  fresh : ∀ y ∈ addrs t', y ∈ addrs t ∨ get h y = none
  sub : ∀ y ∈ addrs t, y ∈ addrs t'
  root : parent = none → top.getD t.addr = t'.addr
  noRoot : parent ≠ none → top = none
  loc : b = true → t'.loc = t.loc

theorem take_append_left {α : Type} {l₁ l₂ : List α} : (l₁ ++ l₂).take l₁.length = l₁ := by simp

theorem recalculate_same {a : Arr T} (hf : Fits c a) (l : List (Ext T)) :
    Arr.recalculate c ⟨l, a.mask⟩ = Arr.recalculate c ⟨l, maxMask⟩ := by
  unfold Arr.recalculate
  cases hu : c.useTreeDivMask with
  | false => simp [hf.mask hu]
  | true => rfl

theorem fits_recalculate {l : List (Ext T)} (hlen : l.length ≤ c.leafSize) :
    Fits c (Arr.recalculate c (⟨l, maxMask⟩ : Arr T)) := by
  unfold Arr.recalculate
  cases hu : c.useTreeDivMask with
  | false => exact ⟨hlen, fun _ => rfl⟩
  | true => exact ⟨hlen, fun h => by rw [hu] at h; cases h⟩

theorem fin_lower (x y z : Mask) : fin c (lower c (lower c (lower c maxMask x) y) z) =
    lower c (lower c (lower c maxMask x) y) z := by
  unfold fin lower; cases c.useTreeDivMask <;> rfl

/-- The array that stays in the leaf. -/
theorem left_ok (hl : c.Lawful) {a : Arr T} (hf : Fits c a) {sp : Split (Ext T)}
    (hlen : sp.le.length + sp.gt.length = a.es.length) :
    ∃ r1 r2 r3, (ofArr c a).permute (sp.le ++ sp.gt) = some r1 ∧ r1.popWhile sp.le.length = some r2 ∧ r2.sort c = some r3 ∧
      r3.recalculate c = some (ofArr c (Arr.recalculate c ⟨sortEntries c sp.le, maxMask⟩)) := by
  have hf' : Fits c { a with es := sp.le ++ sp.gt } := ⟨by simp; have := hf.cap; omega, hf.mask⟩
  refine ⟨_, _, ofArr c ⟨sortEntries c sp.le, a.mask⟩, permute_ofArr (by simpa using hlen),
    popWhile_ofArr sp.gt.length hf' (by simp), ?_, ?_⟩
  · rw [sort_ofArr (sort_length hl)]
    simp only [take_append_left]
  · rw [recalculate_ofArr, recalculate_same hf]

theorem splitInsert_ok (hl : c.Lawful) {x : Ext T} {h : Heap (BNode T)} {leaf : Addr} {a : Arr T} {parent : Option Addr}
    {hint : Option ℕ} {side : Bool} {sp : Split (Ext T)} {n' : Node T}
    (hg : get h leaf = some (.leaf (ofArr c a))) (hf : Fits c a) (hs : Slot h parent hint side leaf)
    (hne : parent ≠ some leaf) (hsp : split c Ext.t a.es (some x) hint = some (some sp))
    (hn : KDTree.splitInsertB c x sp = some n') :
    ∃ h' t' top, splitInsert c x h leaf parent = some (some (h', top)) ∧ t'.addr = top ∧
      Inserted c h (.entries leaf a) parent side false n' h' t' (if parent = none then some top else none) := by
  have hlen := split_length hl hsp
  obtain ⟨r1, r2, r3, q1, q2, q3, q4⟩ := left_ok hl hf hlen
  rw [KDTree.splitInsertB] at hn
  cases ho : Arr.ofRange c sp.gt with
  | none => rw [ho] at hn; cases hn
  | some other =>
    rw [ho] at hn
    simp only at hn
    obtain ⟨o1, o2⟩ := ofRange_ofArr (sort_length hl) ho
    generalize hthis : Arr.recalculate c (⟨sortEntries c sp.le, maxMask⟩ : Arr T) = this at hn q4
    have hft : Fits c this := by
      rw [← hthis]
      exact fits_recalculate (by rw [sort_length hl]; have := hf.cap; omega)
    generalize hmask : lower c (lower c (lower c maxMask this.mask) other.mask) x.mask = mask at hn
    have hfin : fin c mask = mask := by rw [← hmask]; exact fin_lower _ _ _
    -- the addresses
    generalize hoa : (alloc h (BNode.leaf (ofArr c other))).2 = oa
    generalize hh1 : (alloc h (BNode.leaf (ofArr c other))).1 = h1
    have a1 : get h1 oa = some (.leaf (ofArr c other)) := by rw [← hh1, ← hoa]; exact alloc_get _ _
    have a2 : ∀ y, y ≠ oa → get h1 y = get h y := by rw [← hh1, ← hoa]; exact fun y hy => alloc_keep _ _ hy
    have a3 : get h oa = none := by rw [← hoa]; exact alloc_fresh _ _
    have hlo : leaf ≠ oa := by rintro rfl; rw [a3] at hg; cases hg
    obtain ⟨h2, b1, b2, b3⟩ := put_spec (h := h1) (a := leaf) (by rw [a2 leaf hlo]; exact hg) (BNode.leaf (ofArr c this))
    generalize hint' : BNode.interior (T := T) (lower c (lower c maxMask this.mask) other.mask) sp.var sp.exp (some leaf) (some oa) = node1
    generalize hia : (alloc h2 node1).2 = ia
    generalize hh3 : (alloc h2 node1).1 = h3
    have c1 : get h3 ia = some node1 := by rw [← hh3, ← hia]; exact alloc_get _ _
    have c2 : ∀ y, y ≠ ia → get h3 y = get h2 y := by rw [← hh3, ← hia]; exact fun y hy => alloc_keep _ _ hy
    have c3 : get h2 ia = none := by rw [← hia]; exact alloc_fresh _ _
    have hli : leaf ≠ ia := by rintro rfl; rw [c3] at b2; cases b2
    have hoi : oa ≠ ia := by rintro rfl; rw [b3 oa (Ne.symm hlo), a1] at c3; cases c3
    have c3' : get h ia = none := by
      rw [← a2 ia (Ne.symm hoi), ← b3 ia (Ne.symm hli)]; exact c3
    -- the parent
    have hpar : ∀ p, parent = some p → p ≠ oa ∧ p ≠ ia ∧ p ≠ leaf ∧ get h3 p = get h p := by
      intro p hp
      have hpl : ∃ n, get h p = some n := by
        rw [hp] at hs
        obtain ⟨m, v, e, l, g, h1, _⟩ := hs
        exact ⟨_, h1⟩
      obtain ⟨n, hpn⟩ := hpl
      have e1 : p ≠ oa := by rintro rfl; rw [a3] at hpn; cases hpn
      have e2 : p ≠ ia := by rintro rfl; rw [c3'] at hpn; cases hpn
      have e3 : p ≠ leaf := by rintro rfl; exact hne hp
      exact ⟨e1, e2, e3, by rw [c2 p e2, b3 p e3, a2 p e1]⟩
    have hs3 : Slot h3 parent hint side leaf := by
      cases parent with
      | none => exact hs
      | some p =>
        obtain ⟨m, v, e, l, g, h1, h2, h3⟩ := hs
        exact ⟨m, v, e, l, g, by rw [(hpar p rfl).2.2.2]; exact h1, h2, h3⟩
    obtain ⟨h4, d1, d2, d3⟩ := relink_ok (new := ia) hs3
    have hia4 : get h4 ia = some node1 := by
      rw [d3 ia (fun e => (hpar ia e).2.1 rfl)]; exact c1
    obtain ⟨h5, e1, e2, e3⟩ := put_spec hia4 (BNode.interior mask sp.var sp.exp (some leaf) (some oa))
    have l5 : get h5 leaf = some (.leaf (ofArr c this)) := by
      rw [e3 leaf hli, d3 leaf hne, c2 leaf hli]; exact b2
    have o5 : get h5 oa = some (.leaf (ofArr c other)) := by
      rw [e3 oa hoi, d3 oa (fun e => (hpar oa e).1 rfl), c2 oa hoi, b3 oa (Ne.symm hlo)]; exact a1
    have other5 : ∀ y, y ≠ leaf → y ≠ oa → y ≠ ia → parent ≠ some y → get h5 y = get h y := by
      intro y h1 h2 h3 h4
      rw [e3 y h3, d3 y h4, c2 y h3, b3 y h1, a2 y h2]
    have hslot5 : Slot' h h5 parent side ia := by
      intro p m v e l g hp hg
      have := hpar p hp
      rw [e3 p this.2.1]
      exact d2 p m v e l g hp (by rw [this.2.2.2]; exact hg)
    -- the common part of the computation
    have hcomp : splitInsert c x h leaf parent = (do
        let r ← getArr h5 (if inChild c sp.var sp.exp x.t then oa else leaf)
        let r ← r.insert c x
        let h ← putArr h5 (if inChild c sp.var sp.exp x.t then oa else leaf) r
        some (some (h, ia))) := by
      rw [splitInsert, hint_ok hs]
      simp only [Option.bind_eq_bind, Option.bind_some]
      have hga : getArr h leaf = some (ofArr c a) := by rw [getArr, hg]
      rw [hga]
      simp only [Option.bind_some]
      rw [view_ofArr]
      simp only [Option.bind_some, hsp, q1, o1, q2, q3, q4]
      have r4m : (ofArr c this).mask = this.mask := rfl
      have rom : (ofArr c other).mask = other.mask := rfl
      rw [hh1, hoa, b1]
      simp only [Option.bind_some, r4m, rom, hint', hh3, hia, d1, hmask, e1]
    rw [hcomp]
    -- what is common to both cases
    have fin_ok : ∀ (h6 : Heap (BNode T)) (ta oa' : Arr T) (changed : Addr), changed = leaf ∨ changed = oa →
        (∀ y, y ≠ changed → get h6 y = get h5 y) → get h6 leaf = some (.leaf (ofArr c ta)) → get h6 oa = some (.leaf (ofArr c oa')) →
        Fits c ta → Fits c oa' → n' = .split mask sp.var sp.exp (.entries ta) (.entries oa') →
        Inserted c h (.entries leaf a) parent side false n' h6
          (.split ia mask sp.var sp.exp (.entries leaf ta) (.entries oa oa')) (if parent = none then some ia else none) := by
      intro h6 ta oa' changed hch hk hgl hgo hf1 hf2 hn'
      have hci : ia ≠ changed := by rcases hch with rfl | rfl <;> [exact Ne.symm hli; exact Ne.symm hoi]
      have hpk : ∀ p, parent = some p → p ≠ changed := by
        intro p hp
        rcases hch with rfl | rfl
        · exact (hpar p hp).2.2.1
        · exact (hpar p hp).1
      refine ⟨?_, ?_, ?_, ?_, ?_, ?_, ?_, ?_, ?_, fun hp => if_neg hp, nofun⟩
      · rw [hn']; rfl
      · refine ⟨?_, ⟨hgl, hf1⟩, ⟨hgo, hf2⟩⟩
        rw [hk ia hci, e2, hfin]; rfl
      · simp only [addrs, List.singleton_append, List.nodup_cons, List.mem_cons, List.not_mem_nil, or_false, not_or, List.nodup_nil, not_false_eq_true, and_true]
        exact ⟨⟨Ne.symm hli, Ne.symm hoi⟩, hlo⟩
      · intro y n hy hgy
        simp only [addrs, List.mem_append, Option.mem_toList, List.mem_singleton, not_or] at hy
        have h1 : y ≠ oa := by rintro rfl; rw [a3] at hgy; cases hgy
        have h2 : y ≠ ia := by rintro rfl; rw [c3'] at hgy; cases hgy
        have h3 : y ≠ changed := by rcases hch with rfl | rfl <;> [exact hy.2; exact h1]
        rw [hk y h3, other5 y hy.2 h1 h2 hy.1]; exact hgy
      · intro p m v e l g hp hg'
        rw [hk p (hpk p hp)]
        exact hslot5 p m v e l g hp hg'
      · intro y n hy
        by_cases h1 : y = leaf
        · right; simp [addrs, h1]
        · by_cases h2 : y = oa
          · right; simp [addrs, h2]
          · by_cases h3 : y = ia
            · right; simp [addrs, h3]
            · left
              by_cases h4 : parent = some y
              · rw [h4] at hs
                obtain ⟨m, v, e, l, g, hh, _⟩ := hs
                exact ⟨_, hh⟩
              · have : y ≠ changed := by rcases hch with rfl | rfl <;> assumption
                rw [hk y this, other5 y h1 h2 h3 h4] at hy
                exact ⟨n, hy⟩
      · intro y hy
        simp only [addrs, List.singleton_append, List.mem_cons, List.not_mem_nil, or_false] at hy
        rcases hy with rfl | rfl | rfl
        · exact .inr c3'
        · exact .inl (by simp [addrs])
        · exact .inr a3
      · intro y hy
        simp only [addrs, List.mem_singleton] at hy
        simp [addrs, hy]
      · intro hp
        rw [if_pos hp]; rfl
    split at hn
    · rename_i hin
      rw [Option.map_eq_some_iff] at hn
      obtain ⟨o', i1, i2⟩ := hn
      obtain ⟨j1, j2⟩ := insert_ofArr o2 i1
      obtain ⟨h6, f1, f2, f3⟩ := put_spec o5 (BNode.leaf (ofArr c o'))
      refine ⟨h6, _, ia, ?_, ?_, fin_ok h6 this o' oa (.inr rfl) f3 ?_ f2 hft j2 i2.symm⟩
      · simp only [hin, if_true, Option.bind_eq_bind]
        rw [getArr, o5]
        simp only [Option.bind_some, j1]
        rw [putArr, o5]
        simp only [f1, Option.bind_some]
      · rfl
      · rw [f3 leaf hlo]; exact l5
    · rename_i hin
      rw [Option.map_eq_some_iff] at hn
      obtain ⟨o', i1, i2⟩ := hn
      obtain ⟨j1, j2⟩ := insert_ofArr hft i1
      obtain ⟨h6, f1, f2, f3⟩ := put_spec l5 (BNode.leaf (ofArr c o'))
      refine ⟨h6, _, ia, ?_, ?_, fin_ok h6 o' other leaf (.inl rfl) f3 f2 ?_ j2 o2 i2.symm⟩
      · simp only [hin, Bool.false_eq_true, if_false, Option.bind_eq_bind]
        rw [getArr, l5]
        simp only [Option.bind_some, j1]
        rw [putArr, l5]
        simp only [f1, Option.bind_some]
      · rfl
      · rw [f3 oa (Ne.symm hlo)]; exact o5

theorem slot_put {h h' : Heap (BNode T)} {parent : Option Addr} {side : Bool} {x new : Addr}
    (hk : ∀ y, y ≠ x → get h' y = get h y) (hne : parent ≠ some x) {h'' : Heap (BNode T)} (hs : Slot' h' h'' parent side new) :
    Slot' h h'' parent side new := by
  intro p m v e l g hp hg
  refine hs p m v e l g hp ?_
  rw [hk p (by rintro rfl; exact hne hp)]; exact hg

theorem insertNode_ok (hl : c.Lawful) (hpk : c.packed = false) {x : Ext T} {b : Bool} : ∀ (t : AT T) {h : Heap (BNode T)}
    {parent : Option Addr} {hint : Option ℕ} {side : Bool} {n' : Node T}, Holds c (fin c) h t → (addrs t).Nodup →
    Slot h parent hint side t.addr → (∀ p, parent = some p → p ∉ addrs t) →
    KDTree.insertNode c x hint t.erase = some (b, n') →
    ∃ h' t' top, (insertWalk c x h t.addr parent).bind (finish c x) = some (b, h', top) ∧
      Inserted c h t parent side b n' h' t' top := by
  intro t
  induction t with
  | entries leaf a =>
    intro h parent hint side n' hh hn hs hpar hi
    have hne : parent ≠ some leaf := by
      rintro rfl
      exact hpar leaf rfl (by simp [addrs])
    have hw : insertWalk c x h leaf parent = some (h, leaf, parent) := by
      rw [insertWalk, hh.1]; rfl
    rw [AT.addr, hw]
    simp only [Option.bind_some, finish]
    have hga : getArr h leaf = some (ofArr c a) := by rw [getArr, hh.1]
    rw [hga]
    simp only [Option.bind_eq_bind, Option.bind_some]
    rw [AT.erase, KDTree.insertNode] at hi
    by_cases hfull : a.es.length = c.leafSize
    · rw [if_pos hfull] at hi
      rw [if_pos (show (ofArr c a).len = c.leafSize from hfull)]
      cases hsp : split c Ext.t a.es (some x) hint with
      | none => rw [hsp] at hi; cases hi
      | some r =>
        cases r with
        | none =>
          rw [hsp] at hi
          cases hi
          have hsi : splitInsert c x h leaf parent = some none := by
            rw [splitInsert, hint_ok hs, hga]
            simp only [Option.bind_eq_bind, Option.bind_some, view_ofArr, hsp]
          rw [hsi]
          exact ⟨h, .entries leaf a, none, rfl, rfl, hh, hn, Keep.refl _ _, slot_same hs (fun _ _ _ hg => hg),
            fun y n hy => .inl ⟨n, hy⟩, fun y hy => .inl hy, fun y hy => hy, fun _ => rfl, fun _ => rfl, fun _ => rfl⟩
        | some sp =>
          rw [hsp] at hi
          simp only [hpk, Bool.false_eq_true, if_false, Option.map_eq_some_iff, Prod.mk.injEq] at hi
          obtain ⟨n, hi1, rfl, rfl⟩ := hi
          obtain ⟨h', t', top, g1, g2, g3⟩ := splitInsert_ok hl hh.1 hh.2 hs hne hsp hi1
          rw [g1]
          exact ⟨h', t', _, rfl, g3⟩
    · rw [if_neg hfull] at hi
      rw [if_neg (show ¬ (ofArr c a).len = c.leafSize from hfull)]
      rw [Option.map_eq_some_iff] at hi
      obtain ⟨a', hi1, hi2⟩ := hi
      cases hi2
      obtain ⟨j1, j2⟩ := insert_ofArr hh.2 hi1
      obtain ⟨h', g1, g2, g3⟩ := put_spec hh.1 (BNode.leaf (ofArr c a'))
      rw [j1]
      simp only [Option.bind_some]
      have hpa : putArr h leaf (ofArr c a') = some h' := by rw [putArr, hh.1]; exact g1
      rw [hpa]
      refine ⟨h', .entries leaf a', none, rfl, rfl, ⟨g2, j2⟩, hn, ?_, ?_, ?_, fun y hy => .inl hy, fun y hy => hy, fun _ => rfl, fun _ => rfl, nofun⟩
      · intro y n hy hg
        simp only [addrs, List.mem_append, List.mem_singleton, not_or] at hy
        rw [g3 y hy.2]; exact hg
      · refine slot_same hs (fun p n hp hg => ?_)
        rw [g3 p (by rintro rfl; exact hne hp)]; exact hg
      · intro y n hy
        by_cases hyl : y = leaf
        · exact .inr (by simp [addrs, hyl])
        · rw [g3 y hyl] at hy; exact .inl ⟨n, hy⟩
  | split nd m v e le gt ih1 ih2 =>
    intro h parent hint side n' hh hn hs hpar hi
    obtain ⟨hg, hle, hgt⟩ := hh
    rw [addrs, List.nodup_cons, List.nodup_append] at hn
    obtain ⟨n1, n2, n3, n4⟩ := hn
    have hne : parent ≠ some nd := by
      rintro rfl
      exact hpar nd rfl (by simp [addrs])
    obtain ⟨h1, p1, p2, p3⟩ := put_spec hg (BNode.interior (lower c (fin c m) x.mask) v e (some le.addr) (some gt.addr))
    have hlow : lower c (fin c m) x.mask = fin c (lower c m x.mask) := by
      unfold lower fin; cases c.useTreeDivMask <;> rfl
    rw [hlow] at p1 p2
    have hw : insertWalk c x h nd parent = insertWalk c x h1 (if inChild c v e x.t then gt.addr else le.addr) (some nd) := by
      conv_lhs => rw [insertWalk, hg]
      simp only [Option.bind_eq_bind, Option.bind_some, hlow, p1]
      split <;> rfl
    rw [AT.addr, hw]
    have hle1 : Holds c (fin c) h1 le := holds_keep hle (fun y hy n hgy => by
      rw [p3 y (by rintro rfl; exact n1 (by simp [hy]))]; exact hgy)
    have hgt1 : Holds c (fin c) h1 gt := holds_keep hgt (fun y hy n hgy => by
      rw [p3 y (by rintro rfl; exact n1 (by simp [hy]))]; exact hgy)
    have hparent : ∀ h2 : Heap (BNode T), (∀ p n, parent = some p → get h1 p = some n → get h2 p = some n) →
        Slot' h h2 parent side nd := by
      intro h2 hk
      refine slot_same hs (fun p n hp hgp => hk p n hp ?_)
      rw [p3 p (by rintro rfl; exact hne hp)]; exact hgp
    have hdisj : le.addr ≠ gt.addr := fun e => n4 _ (addr_mem le) _ (addr_mem gt) e
    rw [AT.erase, KDTree.insertNode] at hi
    by_cases hin : inChild c v e x.t = true
    · rw [if_pos hin, Option.map_eq_some_iff] at hi
      obtain ⟨⟨b', ng⟩, hi1, hi2⟩ := hi
      cases hi2
      rw [if_pos hin]
      obtain ⟨h2, t2, top, r1, r2⟩ := ih2 (h := h1) (parent := some nd) (hint := some v) (side := true) hgt1 n3
        ⟨_, _, _, _, _, p2, rfl, by simp [hdisj]⟩ (by rintro p ⟨⟩ hp; exact n1 (by simp [hp])) hi1
      have hnd2 : get h2 nd = some (.interior (fin c (lower c m x.mask)) v e (some le.addr) (some t2.addr)) :=
        r2.slot nd _ _ _ _ _ rfl p2
      have hle2 : Holds c (fin c) h2 le := holds_keep hle1 (fun y hy n hgy => r2.keep y n (by
        simp only [Option.toList_some, List.singleton_append, List.mem_cons, not_or]
        exact ⟨by rintro rfl; exact n1 (by simp [hy]), fun hy' => n4 y hy y hy' rfl⟩) hgy)
      have hfr : ∀ y ∈ addrs t2, y ∈ addrs gt ∨ get h y = none := by
        intro y hy
        rcases r2.fresh y hy with h' | h'
        · exact .inl h'
        · right
          rw [← p3 y (by rintro rfl; rw [p2] at h'; cases h')]; exact h'
      have hnd_t2 : nd ∉ addrs t2 := by
        intro hy
        rcases hfr nd hy with h' | h'
        · exact n1 (by simp [h'])
        · rw [hg] at h'; cases h'
      refine ⟨h2, .split nd (lower c m x.mask) v e le t2, none, ?_, ?_, ⟨hnd2, hle2, r2.holds⟩, ?_, ?_, ?_, ?_, ?_, ?_, fun _ => rfl, fun _ => rfl, ?_⟩
      · rw [r1]
        rw [r2.noRoot nofun]
      · rw [AT.erase, r2.erase]
      · rw [addrs, List.nodup_cons, List.nodup_append]
        refine ⟨?_, n2, r2.nodup, ?_⟩
        · simp only [List.mem_append, not_or]
          exact ⟨fun hy => n1 (by simp [hy]), hnd_t2⟩
        · rintro y hy _ hy' rfl
          rcases hfr y hy' with h' | h'
          · exact n4 y hy y h' rfl
          · obtain ⟨n, hgy⟩ := holds_live hle y hy
            rw [hgy] at h'; cases h'
      · intro y n hy hgy
        simp only [addrs, List.mem_append, List.mem_cons, not_or] at hy
        refine r2.keep y n ?_ (by rw [p3 y hy.2.1]; exact hgy)
        simp [hy.2.1, hy.2.2.2]
      · refine hparent h2 (fun p n hp hgp => r2.keep p n ?_ hgp)
        have := hpar p hp
        simp only [addrs, List.mem_append, List.mem_cons, not_or] at this
        simp [this.1, this.2.2]
      · intro y n hy
        rcases r2.cover y n hy with ⟨n', h'⟩ | h'
        · by_cases hyn : y = nd
          · right; simp [addrs, hyn]
          · rw [p3 y hyn] at h'; exact .inl ⟨n', h'⟩
        · right; simp [addrs, h']
      · intro y hy
        simp only [addrs, List.mem_append, List.mem_cons] at hy ⊢
        rcases hy with hy | hy | hy
        · exact .inl (.inl hy)
        · exact .inl (.inr (.inl hy))
        · rcases hfr y hy with h' | h'
          · exact .inl (.inr (.inr h'))
          · exact .inr h'
      · intro y hy
        simp only [addrs, List.mem_append, List.mem_cons] at hy ⊢
        rcases hy with hy | hy | hy
        · exact .inl hy
        · exact .inr (.inl hy)
        · exact .inr (.inr (r2.sub y hy))
      · intro hb
        funext q
        cases q with
        | nil => rfl
        | cons d q => cases d <;> simp [AT.loc, r2.loc hb]
    · rw [if_neg hin, Option.map_eq_some_iff] at hi
      obtain ⟨⟨b', ng⟩, hi1, hi2⟩ := hi
      cases hi2
      rw [if_neg hin]
      obtain ⟨h2, t2, top, r1, r2⟩ := ih1 (h := h1) (parent := some nd) (hint := some v) (side := false) hle1 n2
        ⟨_, _, _, _, _, p2, rfl, by simp⟩ (by rintro p ⟨⟩ hp; exact n1 (by simp [hp])) hi1
      have hnd2 : get h2 nd = some (.interior (fin c (lower c m x.mask)) v e (some t2.addr) (some gt.addr)) :=
        r2.slot nd _ _ _ _ _ rfl p2
      have hgt2 : Holds c (fin c) h2 gt := holds_keep hgt1 (fun y hy n hgy => r2.keep y n (by
        simp only [Option.toList_some, List.singleton_append, List.mem_cons, not_or]
        exact ⟨by rintro rfl; exact n1 (by simp [hy]), fun hy' => n4 y hy' y hy rfl⟩) hgy)
      have hfr : ∀ y ∈ addrs t2, y ∈ addrs le ∨ get h y = none := by
        intro y hy
        rcases r2.fresh y hy with h' | h'
        · exact .inl h'
        · right
          rw [← p3 y (by rintro rfl; rw [p2] at h'; cases h')]; exact h'
      have hnd_t2 : nd ∉ addrs t2 := by
        intro hy
        rcases hfr nd hy with h' | h'
        · exact n1 (by simp [h'])
        · rw [hg] at h'; cases h'
      refine ⟨h2, .split nd (lower c m x.mask) v e t2 gt, none, ?_, ?_, ⟨hnd2, r2.holds, hgt2⟩, ?_, ?_, ?_, ?_, ?_, ?_, fun _ => rfl, fun _ => rfl, ?_⟩
      · rw [r1]
        rw [r2.noRoot nofun]
      · rw [AT.erase, r2.erase]
      · rw [addrs, List.nodup_cons, List.nodup_append]
        refine ⟨?_, r2.nodup, n3, ?_⟩
        · simp only [List.mem_append, not_or]
          exact ⟨hnd_t2, fun hy => n1 (by simp [hy])⟩
        · rintro y hy' _ hy rfl
          rcases hfr y hy' with h' | h'
          · exact n4 y h' y hy rfl
          · obtain ⟨n, hgy⟩ := holds_live hgt y hy
            rw [hgy] at h'; cases h'
      · intro y n hy hgy
        simp only [addrs, List.mem_append, List.mem_cons, not_or] at hy
        refine r2.keep y n ?_ (by rw [p3 y hy.2.1]; exact hgy)
        simp [hy.2.1, hy.2.2.1]
      · refine hparent h2 (fun p n hp hgp => r2.keep p n ?_ hgp)
        have := hpar p hp
        simp only [addrs, List.mem_append, List.mem_cons, not_or] at this
        simp [this.1, this.2.1]
      · intro y n hy
        rcases r2.cover y n hy with ⟨n', h'⟩ | h'
        · by_cases hyn : y = nd
          · right; simp [addrs, hyn]
          · rw [p3 y hyn] at h'; exact .inl ⟨n', h'⟩
        · right; simp [addrs, h']
      · intro y hy
        simp only [addrs, List.mem_append, List.mem_cons] at hy ⊢
        rcases hy with hy | hy | hy
        · exact .inl (.inl hy)
        · rcases hfr y hy with h' | h'
          · exact .inl (.inr (.inl h'))
          · exact .inr h'
        · exact .inl (.inr (.inr hy))
      · intro y hy
        simp only [addrs, List.mem_append, List.mem_cons] at hy ⊢
        rcases hy with hy | hy | hy
        · exact .inl hy
        · exact .inr (.inl (r2.sub y hy))
        · exact .inr (.inr hy)
      · intro hb
        funext q
        cases q with
        | nil => rfl
        | cons d q => cases d <;> simp [AT.loc, r2.loc hb]

end Binary

end Verif.KDMem
