import Verif.KDMemArrProofs
import Verif.KDTreeSpec

/-!
# Lemmas on the memory of KD trees: the arena, and trees with addresses
-/

namespace Verif.KDMem

open Verif.DivMask (Ext Bits Mask combineAnd canDivide maxMask)
open Verif.KDTree (Conf Flow Arr Split Kind Node Path lower inChild)

variable {T N : Type} {c : Conf T}

/-! ## The arena -/

/-- Nothing changes but at the addresses `S`, and in memory not yet used. -/
def Keep (h h' : Heap N) (S : List Addr) : Prop := ∀ y n, y ∉ S → get h y = some n → get h' y = some n

/-- All memory that is new is at the addresses `S`. -/
def Cover (h h' : Heap N) (S : List Addr) : Prop := ∀ y n, get h' y = some n → (∃ n', get h y = some n') ∨ y ∈ S

theorem Keep.refl (h : Heap N) (S : List Addr) : Keep h h S := fun _ _ _ hg => hg

theorem Keep.trans {h h' h'' : Heap N} {S : List Addr} (h1 : Keep h h' S) (h2 : Keep h' h'' S) : Keep h h'' S :=
  fun y n hy hg => h2 y n hy (h1 y n hy hg)

theorem Keep.mono {h h' : Heap N} {S S' : List Addr} (h1 : Keep h h' S) (hs : ∀ y ∈ S, y ∈ S') : Keep h h' S' :=
  fun y n hy hg => h1 y n (fun hy' => hy (hs y hy')) hg

theorem put_spec {h : Heap N} {a : Addr} {m : N} (hg : get h a = some m) (n : N) :
    ∃ h', put h a n = some h' ∧ get h' a = some n ∧ ∀ y, y ≠ a → get h' y = get h y := by
  have hlt : a < h.length := by
    rw [get] at hg
    by_contra hge
    rw [List.getElem?_eq_none (Nat.le_of_not_lt hge)] at hg
    cases hg
  refine ⟨h.set a (some n), ?_, ?_, ?_⟩
  · rw [put]
    rw [get] at hg
    split at hg
    · rfl
    · cases hg
  · rw [get, List.getElem?_set_self hlt]
  · intro y hy
    rw [get, get, List.getElem?_set_ne (Ne.symm hy)]

theorem alloc_get (h : Heap N) (n : N) : get (alloc h n).1 (alloc h n).2 = some n := by
  simp [alloc, get]

theorem alloc_keep (h : Heap N) (n : N) {y : Addr} (hy : y ≠ (alloc h n).2) : get (alloc h n).1 y = get h y := by
  simp only [alloc] at *
  rw [get, get]
  by_cases hlt : y < h.length
  · rw [List.getElem?_append_left hlt]
  · have hne : y ≠ h.length := hy
    have h1 : h.length ≤ y := Nat.le_of_not_lt hlt
    have h2 : h.length + 1 ≤ y := Nat.lt_of_le_of_ne h1 (Ne.symm hne)
    rw [List.getElem?_eq_none (by simpa using h2), List.getElem?_eq_none h1]

theorem alloc_fresh (h : Heap N) (n : N) : get h (alloc h n).2 = none := by
  simp [alloc, get]

/-- The entries at an address. -/
def liveAt (slots : N → Slots T) (h : Heap N) (y : Addr) : List T :=
  ((get h y).elim [] slots).flatMap (fun s => (s.map Ext.t).toList)

theorem liveEntries_range (slots : N → Slots T) (h : Heap N) :
    liveEntries slots h = (List.range h.length).flatMap (liveAt slots h) := by
  have : h = (List.range h.length).map (fun y => get h y) := by
    apply List.ext_getElem?
    intro i
    rw [List.getElem?_map]
    by_cases hi : i < h.length
    · rw [List.getElem?_range hi]
      simp only [Option.map_some]
      rw [get, List.getElem?_eq_getElem hi]
      cases h[i] <;> rfl
    · rw [List.getElem?_eq_none (by omega), List.getElem?_eq_none (by simp; omega)]
      rfl
  rw [liveEntries]
  conv_lhs => rw [this]
  rw [List.flatMap_map]
  rfl

theorem get_lt {h : Heap N} {y : Addr} {n : N} (hg : get h y = some n) : y < h.length := by
  rw [get] at hg
  by_contra hge
  rw [List.getElem?_eq_none (Nat.le_of_not_lt hge)] at hg
  cases hg

theorem liveEntries_perm {slots : N → Slots T} {h : Heap N} {L : List Addr} (hn : L.Nodup)
    (hlive : ∀ y ∈ L, ∃ n, get h y = some n) (hcov : ∀ y n, get h y = some n → y ∈ L) :
    (liveEntries slots h).Perm (L.flatMap (liveAt slots h)) := by
  rw [liveEntries_range]
  have hp : (List.range h.length).Perm (L ++ (List.range h.length).filter (fun y => decide (y ∉ L))) := by
    rw [List.perm_ext_iff_of_nodup List.nodup_range]
    · intro y
      simp only [List.mem_range, List.mem_append, List.mem_filter, decide_eq_true_eq]
      constructor
      · intro hy
        by_cases h1 : y ∈ L
        · exact .inl h1
        · exact .inr ⟨hy, h1⟩
      · rintro (h1 | h1)
        · obtain ⟨n, hg⟩ := hlive y h1
          exact get_lt hg
        · exact h1.1
    · rw [List.nodup_append]
      refine ⟨hn, List.nodup_range.filter _, ?_⟩
      intro a ha b hb hab
      subst hab
      simp at hb
      exact hb.2 ha
  refine (hp.flatMap_right _).trans ?_
  rw [List.flatMap_append]
  have : ((List.range h.length).filter (fun y => decide (y ∉ L))).flatMap (liveAt slots h) = [] := by
    rw [List.flatMap_eq_nil_iff]
    intro y hy
    simp only [List.mem_filter, decide_eq_true_eq] at hy
    rw [liveAt]
    cases hg : get h y with
    | none => rfl
    | some n => exact absurd (hcov y n hg) hy.2
  rw [this, List.append_nil]

theorem freeAll_ok {slots : N → Slots T} {h : Heap N} (hd : ∀ y n, get h y = some n → ∀ s ∈ slots n, s = none) :
    ∃ h', freeAll slots h = some h' ∧ ∀ y, get h' y = none := by
  have : liveEntries slots h = [] := by
    rw [liveEntries_range, List.flatMap_eq_nil_iff]
    intro y _
    rw [liveAt]
    cases hg : get h y with
    | none => rfl
    | some n =>
      show (slots n).flatMap _ = []
      rw [List.flatMap_eq_nil_iff]
      intro s hs
      rw [hd y n hg s hs]
      rfl
  refine ⟨h.map (fun _ => none), by rw [freeAll, this]; rfl, ?_⟩
  intro y
  rw [get, List.getElem?_map]
  cases h[y]? <;> rfl

theorem raw_live (l : List (Ext T)) (k : ℕ) :
    (raw l k).flatMap (fun s => (s.map Ext.t).toList) = l.map Ext.t := by
  rw [raw, List.flatMap_append]
  have : (List.replicate k (none : Option (Ext T))).flatMap (fun s => (s.map Ext.t).toList) = [] := by
    rw [List.flatMap_eq_nil_iff]
    intro s hs
    rw [(List.mem_replicate.mp hs).2]
    rfl
  rw [this, List.append_nil]
  induction l with
  | nil => rfl
  | cons e l ih => simp only [List.map_cons, List.flatMap_cons, ih]; rfl

theorem raw_nil_none (k : ℕ) : ∀ s ∈ raw ([] : List (Ext T)) k, s = none := by
  intro s hs
  simp [raw] at hs
  exact hs.2

/-! ## Trees with addresses -/

/-- A tree with the address of each node. In a packed tree the address of a `split` is that of the node that it is a part
of. -/
inductive AT (T : Type) where
  | entries (x : Addr) (a : Arr T)
  | split (x : Addr) (mask : Mask) (var : ℕ) (exp : ℤ) (le gt : AT T)

namespace AT

/-- Where it is. -/
def addr : AT T → Addr
  | .entries x _ => x
  | .split x .. => x

/-- Without addresses. -/
def erase : AT T → Node T
  | .entries _ a => .entries a
  | .split _ m v e le gt => .split m v e le.erase gt.erase

/-- Where the node is that a path leads to. -/
def loc : AT T → Path → Addr
  | .entries x _, _ => x
  | .split x .., [] => x
  | .split _ _ _ _ le gt, b :: p => if b then gt.loc p else le.loc p

/-- Write the array at a path. -/
def setArr : AT T → Path → Arr T → AT T
  | .entries x _, [], a => .entries x a
  | .split x m v e le gt, b :: p, a => if b then .split x m v e le (gt.setArr p a) else .split x m v e (le.setArr p a) gt
  | n, _, _ => n

theorem loc_nil (t : AT T) : t.loc [] = t.addr := by cases t <;> rfl

theorem setArr_erase (t : AT T) : ∀ (p : Path) (a : Arr T), (t.setArr p a).erase = t.erase.setArr p a := by
  induction t with
  | entries x b =>
    intro p a
    cases p <;> rfl
  | split x m v e le gt ih1 ih2 =>
    intro p a
    cases p with
    | nil => rfl
    | cons b p =>
      cases b
      · simp [setArr, erase, Node.setArr, ih1]
      · simp [setArr, erase, Node.setArr, ih2]

theorem setArr_addr (t : AT T) (p : Path) (a : Arr T) : (t.setArr p a).addr = t.addr := by
  cases t with
  | entries x b => cases p <;> rfl
  | split x m v e le gt =>
    cases p with
    | nil => rfl
    | cons b p => cases b <;> rfl

theorem setArr_loc (t : AT T) : ∀ (p : Path) (a : Arr T), (t.setArr p a).loc = t.loc := by
  induction t with
  | entries x b =>
    intro p a
    cases p <;> rfl
  | split x m v e le gt ih1 ih2 =>
    intro p a
    cases p with
    | nil => rfl
    | cons b p =>
      funext q
      cases q with
      | nil => cases b <;> rfl
      | cons d q => cases b <;> cases d <;> simp [setArr, loc, ih1, ih2]

/-- The number of nodes. -/
def size : AT T → ℕ
  | .entries .. => 1
  | .split _ _ _ _ le gt => le.size + gt.size + 1

end AT

/-- All masks of splits are computed from below. -/
def Masked (c : Conf T) : Node T → Prop
  | .entries _ => True
  | .split m _ _ le gt => m = lower c (lower c maxMask le.mask) gt.mask ∧ Masked c le ∧ Masked c gt

theorem build_masked {bits : Bits} : ∀ (k : ℕ) (l : List T) (hint : Option ℕ) (n : Node T), l.length = k →
    KDTree.build c bits l hint = some (some n) → Masked c n := by
  intro k
  induction k using Nat.strong_induction_on with
  | _ k ih =>
    intro l hint n hk h
    rw [KDTree.build] at h
    split at h
    · rw [Option.map_eq_some_iff] at h
      obtain ⟨a, _, h⟩ := h
      cases h
      trivial
    · split at h
      · cases h
      · cases h
      · rename_i r hr
        split at h
        · rename_i hlt
          split at h
          · rename_i le gt h1 h2
            cases h
            exact ⟨rfl, ih _ (by omega) _ _ _ rfl h1, ih _ (by omega) _ _ _ rfl h2⟩
          · cases h
          · cases h
          · cases h
        · cases h

/-! ## What it takes to follow the functions of a kind of tree -/

/-- The tree is in memory and there is nothing else. -/
structure Mem (Holds : Heap N → AT T → Prop) (addrs : AT T → List Addr) (h : Heap N) (t : AT T) : Prop where
  holds : Holds h t
  nodup : (addrs t).Nodup
  cover : ∀ y n, get h y = some n → y ∈ addrs t

/-- A root and its memory. -/
def MemRoot (Holds : Heap N → AT T → Prop) (addrs : AT T → List Addr) (h : Heap N) : Option (AT T) → Prop
  | none => ∀ y, get h y = none
  | some t => Mem Holds addrs h t

/-- How trees lie in memory, and that the functions do the same there. -/
structure Layout (I : Impl T N) (c : Conf T) where
  Holds : Heap N → AT T → Prop
  addrs : AT T → List Addr
  Spine : Heap N → (Path → Addr) → Path → Node T → Prop
  spine_root : ∀ {h t}, Holds h t → Spine h t.loc [] t.erase
  spine_put : ∀ {h h' A p n x r}, Spine h A p n → I.putArr h x r = some h' → Spine h' A p n
  expand_ok : ∀ {h A p n} k tmp, Spine h A p n → I.expand c k h (A p) tmp =
    some ((KDTree.expand c p n k).leaf.map A, (KDTree.expand c p n k).pre.map (fun x => A x.1) ++ tmp)
  post_ok : ∀ {h A p n} k tmp, Spine h A p n → I.post c k h (A p) tmp =
    some ((KDTree.expand c p n k).post.map (fun x => A x.1) ++ tmp)
  spine_pre : ∀ {h A p n} k, Spine h A p n → ∀ x ∈ (KDTree.expand c p n k).pre, Spine h A x.1 x.2
  spine_post : ∀ {h A p n} k, Spine h A p n → ∀ x ∈ (KDTree.expand c p n k).post, Spine h A x.1 x.2
  getArr_ok : ∀ {h t p a}, Holds h t → t.erase.arrAt p = some a → I.getArr h (t.loc p) = some (ofArr c a) ∧ Fits c a
  putArr_ok : ∀ {h t p a a'}, Mem Holds addrs h t → t.erase.arrAt p = some a → Fits c a' →
    ∃ h', I.putArr h (t.loc p) (ofArr c a') = some h' ∧ Mem Holds addrs h' (t.setArr p a')
  insert_ok : ∀ {h t x b n'}, MemRoot Holds addrs h t →
    KDTree.insertNode c x none ((t.map AT.erase).getD (.entries Arr.empty)) = some (b, n') →
    ∃ h' t', I.insert c ⟨h, t.map AT.addr, []⟩ x = some (b, ⟨h', some t'.addr, []⟩) ∧ Mem Holds addrs h' t' ∧ t'.erase = n' ∧
      (b = true → ∀ t₀, t = some t₀ → t'.loc = t₀.loc)
  clear_ok : ∀ {h t}, MemRoot Holds addrs h t →
    ∃ h', I.clear c ⟨h, t.map AT.addr, []⟩ = some ⟨h', none, []⟩ ∧ ∀ y, get h' y = none
  reset_ok : ∀ {h t bits l n}, MemRoot Holds addrs h t → KDTree.Tree.reset c bits l = some (some n) →
    ∃ h' t', I.reset c bits ⟨h, t.map AT.addr, []⟩ l = some (false, ⟨h', t'.map AT.addr, []⟩) ∧
      MemRoot Holds addrs h' t' ∧ t'.map AT.erase = n.root
  removeElement_ok : c.packed = true → ∀ {h t m b n'}, Mem Holds addrs h t →
    KDTree.removeElementNode c m t.erase = some (b, n') →
    ∃ h' t', I.removeElement c ⟨h, some t.addr, []⟩ m = some (b, ⟨h', some t'.addr, []⟩) ∧ Mem Holds addrs h' t' ∧
      t'.erase = n' ∧ t'.loc = t.loc
  removeElement_none : c.packed = true → ∀ {h m}, I.removeElement c ⟨h, none, []⟩ m = some (false, ⟨h, none, []⟩)
  live : ∀ {h t}, Mem Holds addrs h t → (liveEntries I.slots h).Perm t.erase.contents

end Verif.KDMem
