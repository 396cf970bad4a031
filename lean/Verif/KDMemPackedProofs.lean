import Verif.KDMemBinaryProofs

/-!
# Lemmas on packed KD trees in memory: searches and arrays
-/

namespace Verif.KDMem.Packed

open Verif.DivMask (Ext Bits Mask combineAnd canDivide maxMask)
open Verif.KDTree (Conf Flow Arr Split Kind Node Path lower inChild sortEntries split)

variable {T : Type} {c : Conf T}

/-! ## Trees in memory -/

/-- The entries of the node that a tree is part of. -/
def base : AT T → Arr T
  | .entries _ a => a
  | .split _ _ _ _ le _ => base le

/-- The children of the node from the place of the tree on; `mk` gives the masks as they are there. -/
def kidsOf (mk : Mask → Option Mask) : AT T → List Child
  | .entries _ _ => []
  | .split _ m v e le gt => ⟨mk m, some v, some e, some gt.addr⟩ :: kidsOf mk le

/-- A node with the children `ks` and then those of the tree, and more memory for children. -/
def cell (c : Conf T) (mk : Mask → Option Mask) (ks : List Child) (t : AT T) (extra : List Child) : PNode T :=
  ⟨ofArr c (base t), ks ++ kidsOf mk t ++ extra, ks.length + (kidsOf mk t).length⟩

/-- The nodes below that of the tree. -/
def Gts (c : Conf T) (mk : Mask → Option Mask) (h : Heap (PNode T)) : AT T → Prop
  | .entries _ a => Fits c a
  | .split x _ _ _ le gt => x = le.addr ∧ (∃ extra, get h gt.addr = some (cell c mk [] gt extra)) ∧ Gts c mk h gt ∧ Gts c mk h le

/-- A tree in memory, after the children `ks` of its node. -/
def At (c : Conf T) (mk : Mask → Option Mask) (h : Heap (PNode T)) (ks : List Child) (t : AT T) : Prop :=
  (∃ extra, get h t.addr = some (cell c mk ks t extra)) ∧ Gts c mk h t

/-- A tree in memory. -/
def Holds (c : Conf T) (mk : Mask → Option Mask) (h : Heap (PNode T)) (t : AT T) : Prop := At c mk h [] t

/-- The masks of children: without tree masks there are none. -/
def fin (c : Conf T) (m : Mask) : Option Mask := if c.useTreeDivMask then some m else none

/-- The addresses of the nodes. -/
def addrs : AT T → List Addr
  | .entries x _ => [x]
  | .split _ _ _ _ le gt => addrs le ++ addrs gt

/-- The addresses of the nodes below. -/
def rest : AT T → List Addr
  | .entries _ _ => []
  | .split _ _ _ _ le gt => rest le ++ addrs gt

theorem addrs_eq {mk : Mask → Option Mask} {h : Heap (PNode T)} : ∀ {t : AT T}, Gts c mk h t → addrs t = t.addr :: rest t := by
  intro t
  induction t with
  | entries x a => intro _; rfl
  | split x m v e le gt ih1 ih2 =>
    intro hg
    rw [addrs, ih1 hg.2.2.2, rest, AT.addr, hg.1]
    rfl

theorem addr_mem {mk : Mask → Option Mask} {h : Heap (PNode T)} {t : AT T} (hg : Gts c mk h t) : t.addr ∈ addrs t := by
  rw [addrs_eq hg]; simp

theorem rest_sub {mk : Mask → Option Mask} {h : Heap (PNode T)} {t : AT T} (hg : Gts c mk h t) : ∀ y ∈ rest t, y ∈ addrs t := by
  intro y hy
  rw [addrs_eq hg]; simp [hy]

theorem gts_keep {mk : Mask → Option Mask} {h h' : Heap (PNode T)} : ∀ {t : AT T}, Gts c mk h t →
    (∀ y ∈ rest t, ∀ n, get h y = some n → get h' y = some n) → Gts c mk h' t := by
  intro t
  induction t with
  | entries x a => intro h1 _; exact h1
  | split x m v e le gt ih1 ih2 =>
    intro h1 h2
    obtain ⟨g1, ⟨extra, g2⟩, g3, g4⟩ := h1
    refine ⟨g1, ⟨extra, h2 _ ?_ _ g2⟩, ih2 g3 (fun y hy => h2 y ?_), ih1 g4 (fun y hy => h2 y ?_)⟩
    · simp [rest, addr_mem g3]
    · simp [rest, rest_sub g3 y hy]
    · simp [rest, hy]

theorem at_keep {mk : Mask → Option Mask} {h h' : Heap (PNode T)} {ks : List Child} {t : AT T} (ha : At c mk h ks t)
    (hk : ∀ y ∈ addrs t, ∀ n, get h y = some n → get h' y = some n) : At c mk h' ks t := by
  obtain ⟨⟨extra, h1⟩, h2⟩ := ha
  exact ⟨⟨extra, hk _ (addr_mem h2) _ h1⟩, gts_keep h2 (fun y hy => hk y (rest_sub h2 y hy))⟩

theorem gts_live {mk : Mask → Option Mask} {h : Heap (PNode T)} : ∀ {t : AT T}, Gts c mk h t → ∀ y ∈ rest t, ∃ n, get h y = some n := by
  intro t
  induction t with
  | entries x a => intro _ y hy; cases hy
  | split x m v e le gt ih1 ih2 =>
    intro h1 y hy
    obtain ⟨g1, ⟨extra, g2⟩, g3, g4⟩ := h1
    rw [rest, List.mem_append, addrs_eq g3, List.mem_cons] at hy
    rcases hy with hy | rfl | hy
    · exact ih1 g4 y hy
    · exact ⟨_, g2⟩
    · exact ih2 g3 y hy

theorem at_live {mk : Mask → Option Mask} {h : Heap (PNode T)} {ks : List Child} {t : AT T} (ha : At c mk h ks t) :
    ∀ y ∈ addrs t, ∃ n, get h y = some n := by
  intro y hy
  rw [addrs_eq ha.2, List.mem_cons] at hy
  rcases hy with rfl | hy
  · obtain ⟨⟨extra, h1⟩, _⟩ := ha
    exact ⟨_, h1⟩
  · exact gts_live ha.2 y hy

theorem base_fits {mk : Mask → Option Mask} {h : Heap (PNode T)} : ∀ {t : AT T}, Gts c mk h t → Fits c (base t) := by
  intro t
  induction t with
  | entries x a => exact id
  | split x m v e le gt ih1 ih2 => intro h1; exact ih1 h1.2.2.2

theorem setArr_addrs (t : AT T) : ∀ (p : Path) (a : Arr T), addrs (t.setArr p a) = addrs t := by
  induction t with
  | entries x b => intro p a; cases p <;> rfl
  | split x m v e le gt ih1 ih2 =>
    intro p a
    cases p with
    | nil => rfl
    | cons b p => cases b <;> simp [AT.setArr, addrs, ih1, ih2]

theorem kids_cell {mk : Mask → Option Mask} (ks : List Child) (t : AT T) (extra : List Child) :
    kids (cell c mk ks t extra) = some (ks ++ kidsOf mk t) := by
  rw [kids, cell]
  simp only
  rw [if_pos (by simp)]
  congr 1
  rw [← List.length_append, List.take_left]

/-! ## Searches -/

/-- The children that a node has in memory, with the addresses given by paths. -/
def skids (c : Conf T) (A : Path → Addr) : Node T → Path → List Child
  | .entries _, _ => []
  | .split m v e le _, p => ⟨fin c m, some v, some e, some (A (p ++ [true]))⟩ :: skids c A le (p ++ [false])

/-- The node at an address has these children. -/
def Has (h : Heap (PNode T)) (x : Addr) (ks : List Child) : Prop :=
  ∃ r extra, get h x = some ⟨r, ks ++ extra, ks.length⟩

/-- The shape of the nodes below. -/
def SG (c : Conf T) (h : Heap (PNode T)) (A : Path → Addr) : Node T → Path → Prop
  | .entries _, _ => True
  | .split _ _ _ le gt, p => A p = A (p ++ [false]) ∧ Has h (A (p ++ [true])) (skids c A gt (p ++ [true])) ∧
      SG c h A gt (p ++ [true]) ∧ SG c h A le (p ++ [false])

/-- The shape of a tree in memory. -/
def Spine (c : Conf T) (h : Heap (PNode T)) (A : Path → Addr) (n : Node T) (p : Path) : Prop :=
  Has h (A p) (skids c A n p) ∧ SG c h A n p

theorem skids_of {A : Path → Addr} : ∀ {t : AT T} {p : Path}, (∀ q, A (p ++ q) = t.loc q) →
    skids c A t.erase p = kidsOf (fin c) t := by
  intro t
  induction t with
  | entries x a => intro p h2; rfl
  | split x m v e le gt ih1 ih2 =>
    intro p h2
    have e2 : A (p ++ [true]) = gt.addr := by rw [h2 [true], AT.loc]; simp [AT.loc_nil]
    rw [AT.erase, skids, kidsOf, e2, ih1]
    intro q; rw [List.append_assoc, h2]; simp [AT.loc]

theorem sg_of {h : Heap (PNode T)} {A : Path → Addr} : ∀ {t : AT T} {p : Path}, Gts c (fin c) h t →
    (∀ q, A (p ++ q) = t.loc q) → SG c h A t.erase p := by
  intro t
  induction t with
  | entries x a => intro p _ _; trivial
  | split x m v e le gt ih1 ih2 =>
    intro p h1 h2
    obtain ⟨g1, ⟨extra, g2⟩, g3, g4⟩ := h1
    have e0 : A p = x := by simpa [AT.loc] using h2 []
    have e1 : A (p ++ [false]) = le.addr := by rw [h2 [false], AT.loc]; simp [AT.loc_nil]
    have e2 : A (p ++ [true]) = gt.addr := by rw [h2 [true], AT.loc]; simp [AT.loc_nil]
    have q1 : ∀ q, A (p ++ [false] ++ q) = le.loc q := by intro q; rw [List.append_assoc, h2]; simp [AT.loc]
    have q2 : ∀ q, A (p ++ [true] ++ q) = gt.loc q := by intro q; rw [List.append_assoc, h2]; simp [AT.loc]
    refine ⟨by rw [e0, e1]; exact g1, ⟨ofArr c (base gt), extra, ?_⟩, ih2 g3 q2, ih1 g4 q1⟩
    rw [e2, skids_of q2, g2, cell]
    simp

theorem spine_of {h : Heap (PNode T)} {t : AT T} (ht : Holds c (fin c) h t) : Spine c h t.loc t.erase [] := by
  obtain ⟨⟨extra, g1⟩, g2⟩ := ht
  refine ⟨⟨ofArr c (base t), extra, ?_⟩, sg_of g2 (fun q => rfl)⟩
  rw [skids_of (fun q => rfl), AT.loc_nil, g1, cell]
  simp

theorem has_put {h h' : Heap (PNode T)} {x y : Addr} {r : RArr T} {ks : List Child} (hp : putArr h x r = some h')
    (hh : Has h y ks) : Has h' y ks := by
  rw [putArr] at hp
  simp only [Option.bind_eq_bind, Option.bind_eq_some_iff] at hp
  obtain ⟨n, hg, hp⟩ := hp
  obtain ⟨h'', g1, g2, g3⟩ := put_spec hg { n with arr := r }
  rw [g1] at hp
  cases hp
  obtain ⟨r₀, extra, h1⟩ := hh
  by_cases hx : y = x
  · rw [hx, hg] at h1
    cases h1
    exact ⟨r, extra, by rw [hx]; exact g2⟩
  · exact ⟨r₀, extra, by rw [g3 _ hx]; exact h1⟩

theorem sg_put {h h' : Heap (PNode T)} {A : Path → Addr} {x : Addr} {r : RArr T} (hp : putArr h x r = some h') :
    ∀ {n : Node T} {p : Path}, SG c h A n p → SG c h' A n p := by
  intro n
  induction n with
  | entries a => intro p _; trivial
  | split m v e le gt ih1 ih2 =>
    rintro p ⟨h1, h2, h3, h4⟩
    exact ⟨h1, has_put hp h2, ih2 h3, ih1 h4⟩

theorem spine_put {h h' : Heap (PNode T)} {A : Path → Addr} {x : Addr} {r : RArr T} (hp : putArr h x r = some h')
    {n : Node T} {p : Path} (hs : Spine c h A n p) : Spine c h' A n p := ⟨has_put hp hs.1, sg_put hp hs.2⟩

theorem scanDivisors_ok {h : Heap (PNode T)} {A : Path → Addr} (m : Ext T) (tmp : List Addr) : ∀ {n : Node T} {p : Path}
    (acc : List (Path × Node T)), SG c h A n p →
    (scanDivisors c m (skids c A n p) (acc.map (fun x => A x.1) ++ tmp)).map (fun r => (if r.1 then some (A p) else none, r.2)) =
      some ((KDTree.expandDivisors c m p acc n).leaf.map A, (KDTree.expandDivisors c m p acc n).pre.map (fun x => A x.1) ++ tmp) := by
  intro n
  induction n with
  | entries a => intro p acc _; rfl
  | split mask v e le gt ih1 ih2 =>
    rintro p acc ⟨h1, h2, h3, h4⟩
    have hm : scanDivisors c m (⟨fin c mask, some v, some e, some (A (p ++ [true]))⟩ :: skids c A le (p ++ [false]))
        (acc.map (fun x => A x.1) ++ tmp) =
        if c.useTreeDivMask && !canDivide mask m.mask then some (false, acc.map (fun x => A x.1) ++ tmp)
        else if inChild c v e m.t then
          scanDivisors c m (skids c A le (p ++ [false])) (A (p ++ [true]) :: (acc.map (fun x => A x.1) ++ tmp))
        else scanDivisors c m (skids c A le (p ++ [false])) (acc.map (fun x => A x.1) ++ tmp) := by
      rw [scanDivisors]
      cases hu : c.useTreeDivMask <;> simp [fin, hu, inKid]
    rw [skids, hm, KDTree.expandDivisors]
    by_cases hr : (c.useTreeDivMask && !canDivide mask m.mask) = true
    · rw [if_pos hr, if_pos hr]; rfl
    · rw [if_neg hr, if_neg hr, h1]
      by_cases hi : inChild c v e m.t = true
      · rw [if_pos hi, if_pos hi]
        exact ih1 ((p ++ [true], gt) :: acc) h4
      · rw [if_neg hi, if_neg hi]
        exact ih1 acc h4

theorem scanMultiples_ok {h : Heap (PNode T)} {A : Path → Addr} (m : Ext T) (tmp : List Addr) : ∀ {n : Node T} {p : Path}
    (acc : List (Path × Node T)), SG c h A n p →
    (scanMultiples c m (skids c A n p) (acc.map (fun x => A x.1) ++ tmp)).map (fun r => (if r.1 then some (A p) else none, r.2)) =
      some ((KDTree.expandMultiplesP c m p acc n).leaf.map A, (KDTree.expandMultiplesP c m p acc n).pre.map (fun x => A x.1) ++ tmp) := by
  intro n
  induction n with
  | entries a => intro p acc _; rfl
  | split mask v e le gt ih1 ih2 =>
    rintro p acc ⟨h1, h2, h3, h4⟩
    rw [skids, scanMultiples, KDTree.expandMultiplesP]
    simp only [Option.bind_eq_bind, Option.bind_some, inKid]
    by_cases hi : inChild c v e m.t = true
    · rw [if_pos hi, if_pos hi]; rfl
    · rw [if_neg hi, if_neg hi, h1]
      exact ih1 ((p ++ [true], gt) :: acc) h4

theorem scanAll_ok {h : Heap (PNode T)} {A : Path → Addr} (tmp : List Addr) : ∀ {n : Node T} {p : Path}
    (acc : List (Path × Node T)), SG c h A n p →
    scanAll (skids c A n p) (acc.map (fun x => A x.1) ++ tmp) = some ((KDTree.expandAll p acc n).2.map (fun x => A x.1) ++ tmp) ∧
      A (KDTree.expandAll p acc n).1 = A p := by
  intro n
  induction n with
  | entries a => intro p acc _; exact ⟨rfl, rfl⟩
  | split mask v e le gt ih1 ih2 =>
    rintro p acc ⟨h1, h2, h3, h4⟩
    rw [skids, scanAll, KDTree.expandAll]
    simp only [Option.bind_eq_bind, Option.bind_some]
    rw [h1]
    exact ih1 ((p ++ [true], gt) :: acc) h4

theorem kids_has {r : RArr T} {ks extra : List Child} : kids (⟨r, ks ++ extra, ks.length⟩ : PNode T) = some ks := by
  rw [kids]
  simp only
  rw [if_pos (by simp), List.take_left]

theorem expand_ok (hp : c.packed = true) {h : Heap (PNode T)} {A : Path → Addr} {n : Node T} {p : Path} (k : Kind T)
    (tmp : List Addr) (hs : Spine c h A n p) :
    expand c k h (A p) tmp = some ((KDTree.expand c p n k).leaf.map A, (KDTree.expand c p n k).pre.map (fun x => A x.1) ++ tmp) := by
  obtain ⟨⟨r, extra, h1⟩, h2⟩ := hs
  rw [expand, h1]
  simp only [Option.bind_eq_bind, Option.bind_some, kids_has]
  cases k with
  | divisors m => exact scanDivisors_ok m tmp [] h2
  | multiples m =>
    rw [KDTree.expand, hp]
    exact scanMultiples_ok m tmp [] h2
  | all =>
    rw [KDTree.expand, hp]
    simp only [if_true, Option.map_some, List.map_nil, List.nil_append]
    rw [(scanAll_ok tmp [] h2).2]

theorem expand_post (hp : c.packed = true) {n : Node T} {p : Path} (m : Ext T) :
    (KDTree.expand c p n (.divisors m)).post = [] ∧ (KDTree.expand c p n (.multiples m)).post = [] := by
  have h1 : ∀ (m : Ext T) (n : Node T) p acc, (KDTree.expandDivisors c m p acc n).post = [] := by
    intro m n
    induction n with
    | entries a => intro p acc; rfl
    | split mask v e le gt ih1 ih2 => intro p acc; rw [KDTree.expandDivisors]; split <;> [rfl; exact ih1 _ _]
  have h2 : ∀ (m : Ext T) (n : Node T) p acc, (KDTree.expandMultiplesP c m p acc n).post = [] := by
    intro m n
    induction n with
    | entries a => intro p acc; rfl
    | split mask v e le gt ih1 ih2 => intro p acc; rw [KDTree.expandMultiplesP]; split <;> [rfl; exact ih1 _ _]
  refine ⟨h1 _ _ _ _, ?_⟩
  rw [KDTree.expand, hp]; exact h2 _ _ _ _

theorem post_ok (hp : c.packed = true) {h : Heap (PNode T)} {A : Path → Addr} {n : Node T} {p : Path} (k : Kind T)
    (tmp : List Addr) (hs : Spine c h A n p) :
    post c k h (A p) tmp = some ((KDTree.expand c p n k).post.map (fun x => A x.1) ++ tmp) := by
  cases k with
  | divisors m => rw [(expand_post hp m).1]; rfl
  | multiples m => rw [(expand_post hp m).2]; rfl
  | all =>
    obtain ⟨⟨r, extra, h1⟩, h2⟩ := hs
    rw [post]
    simp only [h1, Option.bind_eq_bind, Option.bind_some, kids_has]
    rw [KDTree.expand, hp]
    exact (scanAll_ok tmp [] h2).1

theorem spine_all {h : Heap (PNode T)} {A : Path → Addr} : ∀ (n : Node T) p acc, SG c h A n p → (∀ x ∈ acc, Spine c h A x.2 x.1) →
    ∀ x ∈ (KDTree.expandAll p acc n).2, Spine c h A x.2 x.1 := by
  intro n
  induction n with
  | entries a => intro p acc _ ha; exact ha
  | split mask v e le gt ih1 ih2 =>
    intro p acc hs ha
    rw [KDTree.expandAll]
    refine ih1 _ _ hs.2.2.2 ?_
    rintro x (_ | ⟨_, hx⟩)
    · exact ⟨hs.2.1, hs.2.2.1⟩
    · exact ha _ hx

theorem spine_pre (hp : c.packed = true) {h : Heap (PNode T)} {A : Path → Addr} {n : Node T} {p : Path} (k : Kind T)
    (hs : Spine c h A n p) : ∀ x ∈ (KDTree.expand c p n k).pre, Spine c h A x.2 x.1 := by
  have h1 : ∀ (m : Ext T) (n : Node T) p acc, SG c h A n p → (∀ x ∈ acc, Spine c h A x.2 x.1) →
      ∀ x ∈ (KDTree.expandDivisors c m p acc n).pre, Spine c h A x.2 x.1 := by
    intro m n
    induction n with
    | entries a => intro p acc _ ha; exact ha
    | split mask v e le gt ih1 ih2 =>
      intro p acc hs ha
      rw [KDTree.expandDivisors]
      split
      · exact ha
      · refine ih1 _ _ hs.2.2.2 ?_
        split
        · rintro x (_ | ⟨_, hx⟩)
          · exact ⟨hs.2.1, hs.2.2.1⟩
          · exact ha _ hx
        · exact ha
  have h2 : ∀ (m : Ext T) (n : Node T) p acc, SG c h A n p → (∀ x ∈ acc, Spine c h A x.2 x.1) →
      ∀ x ∈ (KDTree.expandMultiplesP c m p acc n).pre, Spine c h A x.2 x.1 := by
    intro m n
    induction n with
    | entries a => intro p acc _ ha; exact ha
    | split mask v e le gt ih1 ih2 =>
      intro p acc hs ha
      have ha' : ∀ x ∈ (p ++ [true], gt) :: acc, Spine c h A x.2 x.1 := by
        rintro x (_ | ⟨_, hx⟩)
        · exact ⟨hs.2.1, hs.2.2.1⟩
        · exact ha _ hx
      rw [KDTree.expandMultiplesP]
      split
      · exact ha'
      · exact ih1 _ _ hs.2.2.2 ha'
  cases k with
  | divisors m => exact h1 _ _ _ _ hs.2 nofun
  | multiples m => rw [KDTree.expand, hp]; exact h2 _ _ _ _ hs.2 nofun
  | all => rw [KDTree.expand, hp]; exact nofun

theorem spine_post (hp : c.packed = true) {h : Heap (PNode T)} {A : Path → Addr} {n : Node T} {p : Path} (k : Kind T)
    (hs : Spine c h A n p) : ∀ x ∈ (KDTree.expand c p n k).post, Spine c h A x.2 x.1 := by
  cases k with
  | divisors m => rw [(expand_post hp m).1]; exact nofun
  | multiples m => rw [(expand_post hp m).2]; exact nofun
  | all => rw [KDTree.expand, hp]; exact spine_all _ _ _ hs.2 nofun

/-! ## Arrays -/

theorem loc_mem {mk : Mask → Option Mask} {h : Heap (PNode T)} : ∀ {t : AT T} {p : Path} {a : Arr T}, Gts c mk h t →
    t.erase.arrAt p = some a → t.loc p ∈ addrs t := by
  intro t
  induction t with
  | entries x b => intro p a _ h; simp [AT.loc, addrs]
  | split x m v e le gt ih1 ih2 =>
    intro p a hg h
    cases p with
    | nil => cases h
    | cons b p =>
      cases b with
      | false => simp only [AT.loc, addrs]; have := ih1 (p := p) (a := a) hg.2.2.2 h; simp [this]
      | true => simp only [AT.loc, addrs]; have := ih2 (p := p) (a := a) hg.2.2.1 h; simp [this]

theorem at_le {mk : Mask → Option Mask} {h : Heap (PNode T)} {ks : List Child} {x : Addr} {m : Mask} {v : ℕ} {e : ℤ} {le gt : AT T}
    (ha : At c mk h ks (.split x m v e le gt)) : At c mk h (ks ++ [⟨mk m, some v, some e, some gt.addr⟩]) le := by
  obtain ⟨⟨extra, h1⟩, g1, g2, g3, g4⟩ := ha
  refine ⟨⟨extra, ?_⟩, g4⟩
  rw [← g1]
  rw [AT.addr] at h1
  rw [h1]
  simp [cell, base, kidsOf, Nat.add_assoc, Nat.add_comm]

theorem at_gt {mk : Mask → Option Mask} {h : Heap (PNode T)} {ks : List Child} {x : Addr} {m : Mask} {v : ℕ} {e : ℤ} {le gt : AT T}
    (ha : At c mk h ks (.split x m v e le gt)) : At c mk h [] gt := ⟨ha.2.2.1, ha.2.2.2.1⟩

theorem at_split {mk : Mask → Option Mask} {h : Heap (PNode T)} {ks : List Child} {x : Addr} {m : Mask} {v : ℕ} {e : ℤ} {le gt : AT T}
    (hx : x = le.addr) (h1 : At c mk h (ks ++ [⟨mk m, some v, some e, some gt.addr⟩]) le) (h2 : At c mk h [] gt) :
    At c mk h ks (.split x m v e le gt) := by
  obtain ⟨⟨extra, g1⟩, g2⟩ := h1
  refine ⟨⟨extra, ?_⟩, hx, h2.1, h2.2, g2⟩
  rw [AT.addr, hx, g1]
  simp [cell, base, kidsOf, Nat.add_assoc, Nat.add_comm]

theorem get_loc {mk : Mask → Option Mask} {h : Heap (PNode T)} : ∀ {t : AT T} {ks : List Child} {p : Path} {a : Arr T}, At c mk h ks t →
    t.erase.arrAt p = some a → ∃ ch n, get h (t.loc p) = some ⟨ofArr c a, ch, n⟩ ∧ Fits c a := by
  intro t
  induction t with
  | entries x b =>
    intro ks p a h1 h2
    cases p with
    | nil =>
      cases h2
      obtain ⟨⟨extra, g1⟩, g2⟩ := h1
      exact ⟨_, _, g1, g2⟩
    | cons d p => cases h2
  | split x m v e le gt ih1 ih2 =>
    intro ks p a h1 h2
    cases p with
    | nil => cases h2
    | cons d p =>
      cases d with
      | false => exact ih1 (at_le h1) h2
      | true => exact ih2 (at_gt h1) h2

theorem getArr_ok {h : Heap (PNode T)} {t : AT T} {p : Path} {a : Arr T} (h1 : Holds c (fin c) h t)
    (h2 : t.erase.arrAt p = some a) : getArr h (t.loc p) = some (ofArr c a) ∧ Fits c a := by
  obtain ⟨ch, n, g1, g2⟩ := get_loc h1 h2
  rw [getArr, g1]
  exact ⟨rfl, g2⟩

theorem at_set {h h' : Heap (PNode T)} {a a' : Arr T} (hf : Fits c a') : ∀ {t : AT T} {ks : List Child} {p : Path} {n : PNode T},
    At c (fin c) h ks t → (addrs t).Nodup → t.erase.arrAt p = some a → get h (t.loc p) = some n →
    get h' (t.loc p) = some { n with arr := ofArr c a' } →
    (∀ y, y ≠ t.loc p → get h' y = get h y) → At c (fin c) h' ks (t.setArr p a') := by
  intro t
  induction t with
  | entries x b =>
    intro ks p n h1 hn h2 h3 h4 h5
    cases p with
    | nil =>
      obtain ⟨⟨extra, g1⟩, g2⟩ := h1
      rw [AT.addr] at g1
      rw [AT.loc] at h3 h4
      rw [g1] at h3
      cases h3
      exact ⟨⟨extra, h4⟩, hf⟩
    | cons d p => cases h2
  | split x m v e le gt ih1 ih2 =>
    intro ks p n h1 hn h2 h3 h4 h5
    rw [addrs, List.nodup_append] at hn
    obtain ⟨n2, n3, n4⟩ := hn
    have hg1 := at_le h1
    have hg2 := at_gt h1
    cases p with
    | nil => cases h2
    | cons d p =>
      cases d with
      | false =>
        have hm := loc_mem (t := le) (p := p) (a := a) hg1.2 h2
        refine at_split ?_ (ih1 hg1 n2 h2 h3 h4 h5) ?_
        · rw [AT.setArr_addr]; exact h1.2.1
        · refine at_keep hg2 (fun y hy n hg => ?_)
          rw [h5 y (by rintro rfl; exact n4 _ hm _ hy rfl)]; exact hg
      | true =>
        have hm := loc_mem (t := gt) (p := p) (a := a) hg2.2 h2
        refine at_split h1.2.1 ?_ (ih2 hg2 n3 h2 h3 h4 h5)
        rw [AT.setArr_addr]
        refine at_keep hg1 (fun y hy n hg => ?_)
        rw [h5 y (by rintro rfl; exact n4 _ hy _ hm rfl)]; exact hg

theorem putArr_ok {h : Heap (PNode T)} {t : AT T} {p : Path} {a a' : Arr T} (hm : Mem (Holds c (fin c)) addrs h t)
    (ha : t.erase.arrAt p = some a) (hf : Fits c a') :
    ∃ h', putArr h (t.loc p) (ofArr c a') = some h' ∧ Mem (Holds c (fin c)) addrs h' (t.setArr p a') := by
  obtain ⟨ch, n, hg, _⟩ := get_loc hm.holds ha
  obtain ⟨h', g1, g2, g3⟩ := put_spec hg ⟨ofArr c a', ch, n⟩
  refine ⟨h', ?_, at_set hf hm.holds hm.nodup ha hg g2 g3, by rw [setArr_addrs]; exact hm.nodup, ?_⟩
  · rw [putArr, hg]; exact g1
  intro y n hy
  rw [setArr_addrs]
  by_cases he : y = t.loc p
  · rw [he]; exact loc_mem hm.holds.2 ha
  · rw [g3 y he] at hy; exact hm.cover y n hy

/-- The entries in memory. -/
theorem live_at {mk : Mask → Option Mask} {h : Heap (PNode T)} : ∀ {t : AT T} {ks : List Child}, At c mk h ks t →
    (addrs t).flatMap (liveAt slots h) = t.erase.contents := by
  intro t
  induction t with
  | entries x a =>
    intro ks h1
    obtain ⟨⟨extra, g1⟩, g2⟩ := h1
    simp only [addrs, List.flatMap_cons, List.flatMap_nil, List.append_nil, AT.erase, Node.contents]
    rw [AT.addr] at g1
    rw [liveAt, g1]
    exact raw_live _ _
  | split x m v e le gt ih1 ih2 =>
    intro ks h1
    simp only [addrs, List.flatMap_append, AT.erase, Node.contents]
    rw [ih1 (at_le h1), ih2 (at_gt h1)]

theorem live {h : Heap (PNode T)} {t : AT T} (hm : Mem (Holds c (fin c)) addrs h t) :
    (liveEntries slots h).Perm t.erase.contents := by
  rw [← live_at hm.holds]
  exact liveEntries_perm hm.nodup (at_live hm.holds) hm.cover

/-! ## `removeElement` -/

theorem elementWalk_ok {h : Heap (PNode T)} {m : T} {b : Bool} : ∀ {t : AT T} {ks : List Child} {n' : Node T}, At c (fin c) h ks t →
    KDTree.removeElementNode c m t.erase = some (b, n') →
    ∃ p a a', elementWalk c m h t.addr ks.length = some (t.loc p) ∧ t.erase.arrAt p = some a ∧ a.removeElement c m = some (b, a') ∧
      n' = t.erase.setArr p a' := by
  intro t
  induction t with
  | entries x a =>
    intro ks n' h1 h2
    obtain ⟨⟨extra, g1⟩, g2⟩ := h1
    rw [AT.erase, KDTree.removeElementNode, Option.map_eq_some_iff] at h2
    obtain ⟨⟨b', a'⟩, h2, h3⟩ := h2
    cases h3
    refine ⟨[], a, a', ?_, rfl, h2, rfl⟩
    rw [elementWalk, g1]
    simp [cell, kidsOf, AT.loc, AT.addr]
  | split x mask v e le gt ih1 ih2 =>
    intro ks n' h1 h2
    have hg1 := at_le h1
    have hg2 := at_gt h1
    obtain ⟨⟨extra, g1⟩, g2⟩ := h1
    have hw : elementWalk c m h (AT.split x mask v e le gt).addr ks.length =
        if inChild c v e m then elementWalk c m h gt.addr 0 else elementWalk c m h x (ks.length + 1) := by
      conv_lhs => rw [elementWalk, g1]
      simp only [Option.bind_eq_bind, Option.bind_some, cell]
      rw [if_neg (by simp [kidsOf])]
      rw [List.append_assoc, List.getElem?_append_right (le_refl _)]
      simp only [Nat.sub_self, kidsOf, List.cons_append, List.getElem?_cons_zero, Option.bind_some, inKid]
      rfl
    rw [hw]
    rw [AT.erase, KDTree.removeElementNode] at h2
    by_cases hi : inChild c v e m = true
    · rw [if_pos hi, Option.map_eq_some_iff] at h2
      obtain ⟨⟨b', n''⟩, h2, h3⟩ := h2
      cases h3
      obtain ⟨p, a, a', q1, q2, q3, q4⟩ := ih2 hg2 h2
      refine ⟨true :: p, a, a', ?_, q2, q3, ?_⟩
      · rw [if_pos hi]; exact q1
      · rw [q4]; rfl
    · rw [if_neg hi, Option.map_eq_some_iff] at h2
      obtain ⟨⟨b', n''⟩, h2, h3⟩ := h2
      cases h3
      obtain ⟨p, a, a', q1, q2, q3, q4⟩ := ih1 hg1 h2
      refine ⟨false :: p, a, a', ?_, q2, q3, ?_⟩
      · rw [if_neg hi, g2.1]
        rw [List.length_append] at q1
        exact q1
      · rw [q4]; rfl

theorem removeElement_ok {h : Heap (PNode T)} {t : AT T} {m : T} {b : Bool} {n' : Node T} (hm : Mem (Holds c (fin c)) addrs h t)
    (hr : KDTree.removeElementNode c m t.erase = some (b, n')) :
    ∃ h' t', removeElement c ⟨h, some t.addr, []⟩ m = some (b, ⟨h', some t'.addr, []⟩) ∧ Mem (Holds c (fin c)) addrs h' t' ∧
      t'.erase = n' ∧ t'.loc = t.loc := by
  obtain ⟨p, a, a', q1, q2, q3, q4⟩ := elementWalk_ok hm.holds hr
  obtain ⟨g1, g2⟩ := getArr_ok hm.holds q2
  obtain ⟨r1, r2⟩ := removeElement_ofArr g2 q3
  obtain ⟨h', w1, w2⟩ := putArr_ok hm q2 r2
  refine ⟨h', t.setArr p a', ?_, w2, ?_, AT.setArr_loc _ _ _⟩
  · rw [List.length_nil] at q1
    simp only [removeElement, q1, g1, r1, w1, Option.bind_eq_bind, Option.bind_some, AT.setArr_addr]
  · rw [AT.setArr_erase, q4]

end Verif.KDMem.Packed
