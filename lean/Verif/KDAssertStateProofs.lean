import Verif.KDAssertProofs

/-!
# Lemmas on the debug builds of the KD trees: searches, removal, construction and the calls
-/

namespace Verif.KDTree

open Verif.DivMask (Ext Bits Mask combineAnd canDivide canDivide_iff maxMask)
open Verif.Dbg

variable {T : Type} {c : Conf T} {bits : Bits}

/-! ## Searches -/

theorem loop_sim {σ : Type} (k : Kind T) {act : Path → σ → Option (σ × Flow)} {actD : Path → σ → Dbg (σ × Flow)}
    (hact : ∀ p s r, act p s = some r → actD p s = .ok r) : ∀ (n : ℕ) (s : σ)
    (cur : Path × Node T) (stack : List (Path × Node T)), sizes (cur :: stack) = n →
    ∀ s' f tmp, loop c k act s cur stack = some (s', f, tmp) →
    loop c k (catchAct actD) (.ok s) cur stack = some (.ok s', f, tmp) := by
  intro n
  induction n using Nat.strong_induction_on with
  | _ n ih =>
    intro s cur stack hn s' f tmp hf
    have hsz := expand_sizes c k cur.1 cur.2
    have hsizes : sizes (cur :: stack) = cur.2.size + sizes stack := by simp [sizes]
    have hlt1 : sizes ((expand c cur.1 cur.2 k).pre ++ stack) < n := by
      rw [sizes_append]; omega
    have hlt2 : sizes ((expand c cur.1 cur.2 k).post ++ ((expand c cur.1 cur.2 k).pre ++ stack)) < n := by
      rw [sizes_append, sizes_append]; omega
    rw [loop] at hf ⊢
    generalize expand c cur.1 cur.2 k = E at *
    rcases E with ⟨pre, leaf, post⟩
    cases leaf with
    | none =>
      simp only at *
      cases h0 : pre ++ stack with
      | nil =>
        split at hf
        · cases hf; rfl
        · rename_i h1; rw [h0] at h1; cases h1
      | cons nxt rest =>
        split at hf
        · rename_i h1; rw [h0] at h1; cases h1
        · rename_i a b h1
          rw [h1] at h0
          cases h0
          rw [h1] at hlt1
          exact ih _ hlt1 s nxt rest rfl s' f tmp hf
    | some p =>
      simp only at *
      cases ha : act p s with
      | none => rw [ha] at hf; cases hf
      | some r =>
        rcases r with ⟨s1, f1⟩
        have hc : catchAct actD p (.ok s) = some (.ok s1, f1) := by
          unfold catchAct
          simp only
          rw [hact p s _ ha]
        rw [ha] at hf
        rw [hc]
        cases f1 with
        | stop => cases hf; rfl
        | threw => cases hf; rfl
        | go =>
          simp only at *
          cases h0 : post ++ (pre ++ stack) with
          | nil =>
            split at hf
            · cases hf; rfl
            · rename_i h1; rw [h0] at h1; cases h1
          | cons nxt rest =>
            split at hf
            · rename_i h1; rw [h0] at h1; cases h1
            · rename_i a b h1
              rw [h1] at h0
              cases h0
              rw [h1] at hlt2
              exact ih _ hlt2 s1 nxt rest rfl s' f tmp hf

theorem searchD_of {σ : Type} {k : Kind T} {act : Path → σ → Option (σ × Flow)} {actD : Path → σ → Dbg (σ × Flow)}
    (hact : ∀ p s r, act p s = some r → actD p s = .ok r) {s : σ} {n : Node T} {tmp : List Path} {s' : σ} {f : Flow}
    {tmp' : List Path} (h : search c k act s n tmp = some (s', f, tmp')) :
    searchD c k actD s n tmp = .ok (s', f, tmp') := by
  unfold search at h
  unfold searchD search
  cases hm : tmp.mapM (fun p => (n.sub p).map (p, ·)) with
  | none => rw [hm] at h; cases h
  | some stack =>
    rw [hm] at h
    simp only at h ⊢
    rw [loop_sim k hact _ s ([], n) stack rfl s' f tmp' h]
    rfl

/-- What an action keeps, a search keeps. -/
theorem loop_inv {σ : Type} (k : Kind T) {act : Path → σ → Option (σ × Flow)} {P : σ → Prop}
    (hact : ∀ p s s' f, P s → act p s = some (s', f) → P s') : ∀ (n : ℕ) (s : σ)
    (cur : Path × Node T) (stack : List (Path × Node T)), sizes (cur :: stack) = n → P s →
    ∀ s' f tmp, loop c k act s cur stack = some (s', f, tmp) → P s' := by
  intro n
  induction n using Nat.strong_induction_on with
  | _ n ih =>
    intro s cur stack hn hP s' f tmp hf
    have hsz := expand_sizes c k cur.1 cur.2
    have hsizes : sizes (cur :: stack) = cur.2.size + sizes stack := by simp [sizes]
    have hlt1 : sizes ((expand c cur.1 cur.2 k).pre ++ stack) < n := by
      rw [sizes_append]; omega
    have hlt2 : sizes ((expand c cur.1 cur.2 k).post ++ ((expand c cur.1 cur.2 k).pre ++ stack)) < n := by
      rw [sizes_append, sizes_append]; omega
    rw [loop] at hf
    generalize expand c cur.1 cur.2 k = E at *
    rcases E with ⟨pre, leaf, post⟩
    cases leaf with
    | none =>
      simp only at *
      split at hf
      · cases hf; exact hP
      · rename_i h1
        rw [h1] at hlt1
        exact ih _ hlt1 s _ _ rfl hP s' f tmp hf
    | some p =>
      simp only at *
      cases ha : act p s with
      | none => rw [ha] at hf; cases hf
      | some r =>
        rcases r with ⟨s1, f1⟩
        have hP1 := hact p s s1 f1 hP ha
        rw [ha] at hf
        cases f1 with
        | stop => cases hf; exact hP1
        | threw => cases hf; exact hP1
        | go =>
          simp only at *
          split at hf
          · cases hf; exact hP1
          · rename_i h1
            rw [h1] at hlt2
            exact ih _ hlt2 s1 _ _ rfl hP1 s' f tmp hf

/-! ## `findDivisor` -/

theorem arr_findDivisor_divides {m : Ext T} {a : Arr T} {i : ℕ} (h : a.findDivisor c m = some (some i)) :
    ∃ e, a.es[i]? = some e ∧ c.dm.divides e.t m.t = true := by
  have hd : ∀ e : Ext T, divides c e m = true → c.dm.divides e.t m.t = true := by
    intro e he
    unfold divides DivMask.Ext.divides at he
    split at he
    · split at he
      · exact he
      · cases he
    · exact he
  have hidx : ∀ {l : List (Ext T)} {j : ℕ}, l.findIdx? (fun e => divides c e m) = some j →
      ∃ e, l[j]? = some e ∧ c.dm.divides e.t m.t = true := by
    intro l j hj
    obtain ⟨h1, h2, _⟩ := List.findIdx?_eq_some_iff_getElem.mp hj
    exact ⟨l[j], List.getElem?_eq_getElem h1, hd _ h2⟩
  unfold Arr.findDivisor at h
  split at h
  · cases h
  · split at h
    · split at h
      · cases h
      · split at h
        · cases h
        · rename_i e l heq
          simp only [Option.some.injEq] at h
          split at h
          · rename_i hde
            cases h
            exact ⟨e, by rw [heq]; rfl, hd _ hde⟩
          · cases h
    · split at h
      · exact hidx (Option.some.inj h)
      · split at h
        · cases h
        · rename_i k hk
          obtain ⟨e, h1, h2⟩ := hidx (Option.some.inj h)
          refine ⟨e, ?_, h2⟩
          rw [List.getElem?_take] at h1
          split at h1
          · exact h1
          · cases h1

theorem actDivisorD_of {m : Ext T} {root : Node T} : ∀ p s r, actDivisor c m root p s = some r →
    actDivisorD c m root p s = .ok r := by
  intro p s r h
  unfold actDivisor at h
  unfold actDivisorD
  cases ha : root.arrAt p with
  | none => rw [ha] at h; cases h
  | some a =>
    rw [ha] at h
    simp only at h
    rw [lift_some, ok_bind]
    cases hf : a.findDivisor c m with
    | none => rw [hf] at h; cases h
    | some o =>
      rw [hf] at h
      rw [arr_findDivisorD hf, ok_bind]
      cases o with
      | none => cases h; rfl
      | some i =>
        cases h
        obtain ⟨e, h1, h2⟩ := arr_findDivisor_divides hf
        rw [foundD, h1, lift_some, ok_bind, assert_of h2, ok_bind]
        rfl

theorem tree_findDivisorD {pos : Bool} (hpos : c.doAutomaticRebuilds = true → pos = true) {t : Tree T}
    (h : t.Ok c bits) (hc : t.Chain c) (ht : t.tmp = []) {m : Ext T} {r : Option Ptr}
    (hr : t.findDivisor c m = some (r, t)) : t.findDivisorD c pos m = .ok (r, t) := by
  have hw : whenD (!c.packed) (t.validD c pos) = .ok () := by
    unfold whenD; split
    · exact validD_of hpos h hc ht
    · rfl
  rw [Tree.findDivisorD, hw, ok_bind, assert_of (by rw [ht]; rfl), ok_bind]
  unfold Tree.findDivisor at hr
  cases hroot : t.root with
  | none => rw [hroot] at hr; cases hr; rfl
  | some n =>
    rw [hroot] at hr
    simp only at hr
    cases hs : search c (.divisors m) (actDivisor c m n) none n t.tmp with
    | none => rw [hs] at hr; cases hr
    | some x =>
      rcases x with ⟨r', f, tmp'⟩
      rw [hs] at hr
      simp only [Option.some.injEq, Prod.mk.injEq] at hr
      obtain ⟨rfl, h2⟩ := hr
      have htmp : tmp' = [] := by rw [← ht, ← h2]
      rw [findDivisorNodeD, searchD_of actDivisorD_of hs, ok_bind, assert_of (by rw [htmp]; rfl), ok_bind]
      simp only [pure_eq]
      rw [hroot, h2]

/-! ## Enumerations -/

theorem actVisitD_of {f : List T → Arr T → Option (List T × Flow)} {fD : List T → Arr T → Dbg (List T × Flow)}
    (hf : ∀ got a r, f got a = some r → fD got a = .ok r) {root : Node T} : ∀ p s r,
    actVisit f root p s = some r → actVisitD fD root p s = .ok r := by
  intro p s r h
  unfold actVisit at h
  unfold actVisitD
  cases ha : root.arrAt p with
  | none => rw [ha] at h; cases h
  | some a =>
    rw [ha] at h
    rw [lift_some, ok_bind]
    exact hf _ _ _ h

theorem enumerateD_of {t : Tree T} (ht : t.tmp = []) {k : Kind T} {f : List T → Arr T → Option (List T × Flow)}
    {fD : List T → Arr T → Dbg (List T × Flow)} (hf : ∀ got a r, f got a = some r → fD got a = .ok r)
    {got : List T} {flow : Flow} {t' : Tree T} (h : t.enumerate c k f = some (got, flow, t'))
    (ht' : flow ≠ .threw → t' = t) : t.enumerateD c k fD = .ok (got, flow, t') := by
  rw [Tree.enumerateD, assert_of (by rw [ht]; rfl), ok_bind]
  unfold Tree.enumerate at h
  cases hroot : t.root with
  | none => rw [hroot] at h; cases h; rfl
  | some n =>
    rw [hroot] at h
    simp only at h
    cases hs : search c k (actVisit f n) [] n t.tmp with
    | none => rw [hs] at h; cases h
    | some x =>
      rcases x with ⟨g, fl, tmp'⟩
      rw [hs] at h
      simp only [Option.some.injEq, Prod.mk.injEq] at h
      obtain ⟨rfl, rfl, h2⟩ := h
      rw [enumerateNodeD, searchD_of (actVisitD_of hf) hs, ok_bind]
      have hw : whenD (decide (fl ≠ .threw)) (assert tmp'.isEmpty) = .ok () := by
        unfold whenD; split
        · rename_i hfl
          have := ht' (by simpa using hfl)
          rw [this] at h2
          have htmp : tmp' = [] := by rw [← ht, ← h2]
          exact assert_of (by rw [htmp]; rfl)
        · rfl
      simp only
      rw [hw, ok_bind]
      simp only [pure_eq]
      rw [hroot, h2]

/-! ## `removeMultiples` -/

theorem popBack_mask {a a' : Arr T} (h : a.popBack = some a') : a'.mask = a.mask := by
  unfold Arr.popBack at h
  split at h
  · cases h
  · cases h; rfl

theorem popLoop_mask : ∀ (n : ℕ) (a a' : Arr T) (k : ℕ), a.es.length = n → a.popLoop k = some a' → a'.mask = a.mask := by
  intro n
  induction n with
  | zero =>
    intro a a' k hn h
    rw [Arr.popLoop] at h
    have h0 : a.popBack = none := by rw [Arr.popBack, if_pos (List.length_eq_zero_iff.mp hn)]
    split at h
    · cases h
    · rename_i h1; rw [h0] at h1; cases h1
  | succ n ih =>
    intro a a' k hn h
    rw [Arr.popLoop] at h
    split at h
    · cases h
    · rename_i b hb
      have hm := popBack_mask hb
      have hlen : b.es.length = n := by
        unfold Arr.popBack at hb
        split at hb
        · cases hb
        · cases hb; simp; omega
      split at h
      · rw [ih b a' k hlen h, hm]
      · cases h; exact hm

theorem removeMultiples_mask {m : Ext T} {a : Arr T} {r : Arr T × List T × ℕ} (h : a.removeMultiples c m = some r) :
    r.1.mask = a.mask := by
  unfold Arr.removeMultiples at h
  split at h
  · split at h
    · cases h; rfl
    · split at h
      · cases h; rfl
      · split at h
        · cases h
        · rename_i hp
          cases h
          exact popBack_mask hp
  · split at h
    · cases h; rfl
    · split at h
      · cases h
      · split at h
        · cases h
        · split at h
          · cases h
          · rename_i l _ _ _ _ hp
            cases h
            exact (popLoop_mask _ _ _ _ rfl hp).trans rfl

theorem setArr_chain (n : Node T) : ∀ {p : Path} {a a' : Arr T}, n.arrAt p = some a → a'.mask = a.mask →
    (n.setArr p a').mask = n.mask ∧ (n.Chain c → (n.setArr p a').Chain c) := by
  induction n with
  | entries b =>
    intro p a a' h hm
    cases p with
    | nil => cases h; exact ⟨hm, fun _ => trivial⟩
    | cons _ _ => cases h
  | split mask var exp le gt ih1 ih2 =>
    intro p a a' h hm
    cases p with
    | nil => cases h
    | cons b p =>
      cases b with
      | true =>
        have h' : gt.arrAt p = some a := h
        obtain ⟨e1, e2⟩ := ih2 h' hm
        refine ⟨rfl, ?_⟩
        rintro ⟨c1, c2, c3⟩
        refine ⟨fun hu => ⟨(c1 hu).1, ?_⟩, c2, e2 c3⟩
        rw [e1]; exact (c1 hu).2
      | false =>
        have h' : le.arrAt p = some a := h
        obtain ⟨e1, e2⟩ := ih1 h' hm
        refine ⟨rfl, ?_⟩
        rintro ⟨c1, c2, c3⟩
        refine ⟨fun hu => ⟨?_, (c1 hu).2⟩, e2 c2, c3⟩
        rw [e1]; exact (c1 hu).1

theorem actRemoveD_of (ha : c.allowRemovals = true) {m : Ext T} : ∀ p s r, actRemove c m p s = some r →
    actRemoveD c m p s = .ok r := by
  intro p s r h
  unfold actRemove at h
  unfold actRemoveD
  cases har : s.1.arrAt p with
  | none => rw [har] at h; cases h
  | some a =>
    rw [har] at h
    simp only at h
    rw [lift_some, ok_bind]
    cases hr : a.removeMultiples c m with
    | none => rw [hr] at h; cases h
    | some x =>
      rcases x with ⟨a', out, k⟩
      rw [hr] at h
      cases h
      rw [arr_removeMultiplesD ha m hr, ok_bind]
      rfl

theorem actRemove_chain {m : Ext T} : ∀ p (s s' : Node T × List T × ℕ) f, s.1.Chain c →
    actRemove c m p s = some (s', f) → s'.1.Chain c := by
  intro p s s' f hP h
  unfold actRemove at h
  cases har : s.1.arrAt p with
  | none => rw [har] at h; cases h
  | some a =>
    rw [har] at h
    simp only at h
    cases hr : a.removeMultiples c m with
    | none => rw [hr] at h; cases h
    | some x =>
      rw [hr] at h
      cases h
      exact (setArr_chain s.1 har (removeMultiples_mask hr)).2 hP

theorem tree_removeMultiplesD {pos : Bool} (hpos : c.doAutomaticRebuilds = true → pos = true)
    (ha : c.allowRemovals = true) {t : Tree T} (hc : t.Chain c) (ht : t.tmp = []) {m : Ext T}
    {out : List T} {k : ℕ} {t' : Tree T} (hr : t.removeMultiples c m = some (out, k, t')) (h' : t'.Ok c bits)
    (ht' : t'.tmp = []) : t.removeMultiplesD c pos m = .ok (out, k, t') ∧ t'.Chain c := by
  rw [Tree.removeMultiplesD, assert_of (by rw [ht]; rfl), ok_bind]
  unfold Tree.removeMultiples at hr
  cases hroot : t.root with
  | none =>
    rw [hroot] at hr
    cases hr
    exact ⟨rfl, hc⟩
  | some n =>
    rw [hroot] at hr
    simp only at hr
    cases hs : search c (.multiples m) (actRemove c m) (n, [], 0) n t.tmp with
    | none => rw [hs] at hr; cases hr
    | some x =>
      rcases x with ⟨⟨n', out', k'⟩, f, tmp'⟩
      rw [hs] at hr
      cases hr
      have hch : n'.Chain c := by
        have hs' := hs
        unfold search at hs'
        cases hm : t.tmp.mapM (fun p => (n.sub p).map (p, ·)) with
        | none => rw [hm] at hs'; cases hs'
        | some stack =>
          rw [hm] at hs'
          exact loop_inv (.multiples m) (P := fun s => s.1.Chain c) (actRemove_chain) _ _ _ _ rfl (hc n hroot) _ _ _ hs'
      have hchain : Tree.Chain c (⟨some n', tmp'⟩ : Tree T) := by rintro _ ⟨⟩; exact hch
      refine ⟨?_, hchain⟩
      rw [removeMultiplesNodeD, searchD_of (actRemoveD_of ha) hs, ok_bind]
      simp only at ht' ⊢
      rw [assert_of (by rw [ht']; rfl), ok_bind, validD_of hpos h' hchain ht', ok_bind]
      rfl

/-! ## `removeElement` -/

theorem removeElement_mask {m : T} {a : Arr T} {r : Bool × Arr T} (h : a.removeElement c m = some r) :
    r.2.mask = a.mask := by
  unfold Arr.removeElement at h
  split at h
  · cases h; rfl
  · split at h
    · cases h
    · split at h
      · cases h
      · rename_i hp
        cases h
        exact (popBack_mask hp).trans rfl

theorem removeElementNodeD_of {m : T} : ∀ (n : Node T) (r : Bool × Node T), removeElementNode c m n = some r →
    removeElementNodeD c m n = .ok r ∧ r.2.mask = n.mask ∧ (n.Chain c → r.2.Chain c) := by
  intro n
  induction n with
  | entries a =>
    intro r h
    rw [removeElementNode] at h
    obtain ⟨x, h1, rfl⟩ := Option.map_eq_some_iff.mp h
    rw [removeElementNodeD, arr_removeElementD m h1, ok_bind]
    exact ⟨rfl, removeElement_mask h1, fun _ => trivial⟩
  | split mask var exp le gt ih1 ih2 =>
    intro r h
    rw [removeElementNode] at h
    rw [removeElementNodeD]
    by_cases hch : inChild c var exp m = true
    · rw [if_pos hch] at h ⊢
      obtain ⟨x, h1, rfl⟩ := Option.map_eq_some_iff.mp h
      obtain ⟨e1, e2, e3⟩ := ih2 x h1
      rw [e1, ok_bind]
      refine ⟨rfl, rfl, ?_⟩
      rintro ⟨c1, c2, c3⟩
      refine ⟨fun hu => ⟨(c1 hu).1, ?_⟩, c2, e3 c3⟩
      rw [e2]; exact (c1 hu).2
    · rw [if_neg hch] at h ⊢
      obtain ⟨x, h1, rfl⟩ := Option.map_eq_some_iff.mp h
      obtain ⟨e1, e2, e3⟩ := ih1 x h1
      rw [e1, ok_bind]
      refine ⟨rfl, rfl, ?_⟩
      rintro ⟨c1, c2, c3⟩
      refine ⟨fun hu => ⟨?_, (c1 hu).2⟩, e3 c2, c3⟩
      rw [e2]; exact (c1 hu).1

/-! ## Construction -/

theorem buildD_of (hl : c.Lawful) : ∀ (n : ℕ) (l : List T) (hint : Option ℕ), l.length = n → l ≠ [] →
    (∀ x, copies c x l ≤ c.leafSize) →
    ∃ nd, build c bits l hint = some (some nd) ∧ nd.Chain c ∧ buildD c bits l hint = .ok nd := by
  intro n
  induction n using Nat.strong_induction_on with
  | _ n ih =>
    intro l hint hn hne hcp
    obtain ⟨nd, k1, k2, k3, k4⟩ := build_ok (bits := bits) hl n l hint hn hne hcp
    refine ⟨nd, k1, ?_⟩
    rw [build] at k1
    rw [buildD]
    by_cases hlen : l.length ≤ c.leafSize
    · rw [if_pos hlen] at k1 ⊢
      obtain ⟨a, h1, h2⟩ := Option.map_eq_some_iff.mp k1
      cases h2
      refine ⟨trivial, ?_⟩
      rw [buildLeafD, ofRangeD_of h1, ok_bind, assert_of (by rw [arr_valid k2 (fun _ => k3)]; simp), ok_bind]
      rfl
    · rw [if_neg hlen] at k1 ⊢
      rcases split_ok hl id (l := l) (extra := none) (by simpa using hne) hint with ⟨r, h1, h2⟩ | ⟨h1, h2⟩
      · rw [h1] at k1
        simp only at k1
        have hmem : ∀ e, e ∈ r.le ++ r.gt ↔ e ∈ l := fun e => h2.perm.mem_iff
        have hlens : r.le.length + r.gt.length = l.length := by
          rw [← h2.perm.length_eq, List.length_append]
        have hle : r.le ≠ [] := by
          intro h0
          obtain ⟨y, hy, hy'⟩ := h2.someLe
          simp only [Option.toList_none, List.nil_append] at hy
          rw [← hmem, h0, List.nil_append] at hy
          have := h2.gt y hy
          simp only [id] at *
          omega
        have hgt : r.gt ≠ [] := by
          intro h0
          obtain ⟨y, hy, hy'⟩ := h2.someGt
          simp only [Option.toList_none, List.nil_append] at hy
          rw [← hmem, h0, List.append_nil] at hy
          have := h2.le y hy
          simp only [id] at *
          omega
        have p1 := List.length_pos_iff.mpr hle
        have p2 := List.length_pos_iff.mpr hgt
        have hcps : ∀ x, copies c x r.le + copies c x r.gt ≤ c.leafSize := by
          intro x
          rw [← copies_append, copies_perm x h2.perm]
          exact hcp x
        obtain ⟨n1, a1, a2, a3⟩ := ih r.le.length (by omega) r.le (some r.var) rfl hle
          (fun x => by have := hcps x; omega)
        obtain ⟨n2, b1, b2, b3⟩ := ih r.gt.length (by omega) r.gt (some r.var) rfl hgt
          (fun x => by have := hcps x; omega)
        rw [dif_pos ⟨by omega, by omega⟩, a1, b1] at k1
        simp only [Option.some.injEq] at k1
        have hs : splitD c id l none hint = .ok r := by rw [splitD_of hne h1]; rfl
        have hcond : ¬ ((c.packed && !decide (r.var < c.dm.varCount)) = true) := by simp [h2.var]
        have hm : c.useTreeDivMask = true → canDivide (lower c (lower c maxMask n1.mask) n2.mask) n1.mask = true ∧
            canDivide (lower c (lower c maxMask n1.mask) n2.mask) n2.mask = true := fun hu =>
          ⟨lower_left hu (lower_right hu (canDivide_self _)), lower_right hu (canDivide_self _)⟩
        rw [hs]
        simp only
        rw [dif_pos ⟨by omega, by omega⟩, if_neg hcond, a3, b3]
        simp only
        rw [buildSplitD]
        generalize lower c (lower c maxMask n1.mask) n2.mask = M at k1 hm ⊢
        rw [assert_of (by rw [childValid_of hm]; simp), ok_bind, ← k1]
        exact ⟨⟨hm, a2, b2⟩, rfl⟩
      · rw [h1] at k1
        cases k1

theorem tree_resetD {pos : Bool} (hpos : c.doAutomaticRebuilds = true → pos = true) (hl : c.Lawful) {t0 : Tree T}
    (ht0 : t0.tmp = []) {l : List T} (h : ∀ x, copies c x l ≤ c.leafSize) {t : Tree T}
    (hr : Tree.reset c bits l = some (some t)) (hok : t.Ok c bits) :
    Tree.resetD c pos bits t0 l = .ok t ∧ t.Chain c := by
  rw [Tree.resetD, Tree.clearD, assert_of (by rw [ht0]; rfl), ok_bind]
  unfold Tree.reset at hr
  unfold resetRangeD
  by_cases h0 : l = []
  · rw [if_pos h0] at hr ⊢
    cases hr
    exact ⟨rfl, nofun⟩
  · rw [if_neg h0] at hr ⊢
    obtain ⟨nd, k1, k2, k3⟩ := buildD_of (bits := bits) hl l.length l none rfl h0 h
    rw [k1] at hr
    cases hr
    have hch : Tree.Chain c (⟨some nd, []⟩ : Tree T) := by rintro _ ⟨⟩; exact k2
    refine ⟨?_, hch⟩
    rw [k3, ok_bind, validD_of hpos hok hch rfl]
    rfl

/-! ## `KDTree` -/

theorem resetChangesD_of {pos : Bool} (hpos : c.doAutomaticRebuilds = true → pos = true) (s : State T) :
    resetChangesD c pos s = .ok (resetChanges c s) := by
  have hw : whenD c.doAutomaticRebuilds (assert pos) = .ok () := by
    unfold whenD; split
    · rename_i hd; exact assert_of (hpos hd)
    · rfl
  rw [resetChangesD, hw]
  rfl

/-- What holds between calls, for the debug build. -/
structure InvD (c : Conf T) (s : State T) : Prop where
  inv : Inv c s
  chain : s.tree.Chain c
  size : s.contents.length ≤ s.size

theorem resetChanges_tree (s : State T) : (resetChanges c s).tree = s.tree := (resetChanges_spec c s).1

theorem rebuildD_of {pos : Bool} (hpos : c.doAutomaticRebuilds = true → pos = true) (hl : c.Lawful) {s s' : State T}
    (h : Inv c s) (hr : rebuild c s = .ok s') : rebuildD c pos s = .ok s' ∧ s'.tree.Chain c := by
  obtain ⟨got, flow, t', g1, g2, g3, g4⟩ := tree_forAll_ok h.tree h.tmp (fun _ => Flow.go)
  have hp := delivered_go g3
  have hflow : flow ≠ .threw := not_threw g3 (fun _ => by decide)
  have ht' := g4 hflow
  obtain ⟨bits, b1, b2⟩ := calcRebuild_ok hl got
  have hcp : ∀ x, copies c x got ≤ c.leafSize := fun x => by rw [copies_perm x hp]; exact tree_copies h.tree x
  obtain ⟨t, t1, t2, t3, t4⟩ := tree_reset_ok hl (bits := bits) (l := got) hcp
  rw [rebuild, g1] at hr
  simp only [b1, t1, Res.ok.injEq] at hr
  have hfa : s.tree.forAllD c (fun _ => Flow.go) = .ok (got, flow, t') :=
    enumerateD_of h.tmp (fun got a r hr => arr_forAllD hr) g1 g4
  obtain ⟨e1, e2⟩ := tree_resetD hpos hl (t0 := t') (by rw [ht']; exact h.tmp) hcp t1 t2
  rw [rebuildD, hfa, ok_bind]
  simp only
  rw [b1, lift_some, ok_bind, e1, ok_bind, resetChangesD_of hpos, hr]
  refine ⟨rfl, ?_⟩
  rw [← hr, resetChanges_tree]
  exact e2

theorem reportChangesD_of {pos : Bool} (hpos : c.doAutomaticRebuilds = true → pos = true) (hl : c.Lawful)
    {s s' : State T} (additions removals : ℕ) (hsz : removals ≤ s.size + additions)
    (h1 : Calc c s.bits) (h2 : s.tree.Ok c s.bits) (h3 : s.tree.tmp = [])
    (h4 : additions + removals = 0 → c.useDivisorCache = true → ∀ p, s.cache = some p → ∃ e, s.tree.deref p = some e)
    (hc : s.tree.Chain c) (hr : reportChanges c s additions removals = .ok s') :
    reportChangesD c pos s additions removals = .ok s' ∧ s'.tree.Chain c := by
  unfold reportChanges at hr
  unfold reportChangesD
  have key : ∃ s1 : State T, (if c.useDivisorCache && (additions + removals != 0) then { s with cache := none } else s) = s1 ∧
      Inv c { s1 with size := s1.size + additions - removals } ∧ s1.tree = s.tree ∧ s1.size = s.size := by
    cases hu : c.useDivisorCache with
    | false => exact ⟨s, rfl, ⟨h1, h2, h3, by rw [hu]; nofun⟩, rfl, rfl⟩
    | true =>
      by_cases h0 : additions + removals = 0
      · refine ⟨s, by simp [h0], ⟨h1, h2, h3, fun hu => ?_⟩, rfl, rfl⟩
        exact h4 h0 hu
      · exact ⟨_, if_pos (by simpa using h0), ⟨h1, h2, h3, fun _ => nofun⟩, rfl, rfl⟩
  obtain ⟨s1, e1, e2, e3, e4⟩ := key
  rw [e1] at hr ⊢
  simp only at hr
  rw [countChangesD, assert_of (by rw [e4]; simpa using hsz), ok_bind]
  by_cases hd : (!c.doAutomaticRebuilds) = true
  · rw [if_pos hd] at hr ⊢
    cases hr
    exact ⟨rfl, by rw [e3]; exact hc⟩
  · rw [if_neg hd] at hr ⊢
    by_cases hg : s1.changes > additions + removals
    · rw [if_pos hg] at hr ⊢
      cases hr
      exact ⟨rfl, by rw [e3]; exact hc⟩
    · rw [if_neg hg] at hr ⊢
      exact rebuildD_of hpos hl e2 hr

theorem initD_of {pos : Bool} (hpos : c.doAutomaticRebuilds = true → pos = true) (hl : c.Lawful) :
    ∃ s, init c = some s ∧ initD c pos = .ok s ∧ InvD c s ∧ s.contents = [] := by
  obtain ⟨s, h1, h2, h3, h4⟩ := init_ok hl
  refine ⟨s, h1, ?_, ⟨h2, ?_, by rw [h4]; simp⟩, h4⟩
  · unfold init at h1
    unfold initD
    cases hb : calcInit c with
    | none => rw [hb] at h1; cases h1
    | some bits =>
      rw [hb] at h1
      cases h1
      have hv : Tree.validD c pos (⟨none, []⟩ : Tree T) = .ok () :=
        validD_of (bits := bits) hpos ⟨nofun, fun _ => nofun⟩ nofun rfl
      rw [lift_some, ok_bind, assert_of (by simpa using hl.leafSize), ok_bind, hv, ok_bind, resetChangesD_of hpos]
  · intro n hn
    exfalso
    unfold init at h1
    cases hb : calcInit c with
    | none => rw [hb] at h1; cases h1
    | some bits =>
      rw [hb] at h1
      cases h1
      rw [resetChanges_tree] at hn
      cases hn

/-- Where `findDivisor` does not answer from the cache, or does. -/
theorem findDivisorD_of {pos : Bool} (hpos : c.doAutomaticRebuilds = true → pos = true) (hl : c.Lawful)
    {s : State T} (h : InvD c s) (m : T) : ∃ r s', findDivisor c s m = .ok (r, s') ∧ r ≠ .threw ∧
      findDivisorD c pos s m = .ok (r, s') ∧ InvD c s' := by
  obtain ⟨r, s', g1, g2, g3, g4, g5⟩ := findDivisor_ok hl h.inv m
  have hne : r ≠ .threw := by cases g2 <;> nofun
  have htree : ∀ {r s'}, findDivisorTree c s m = .ok (r, s') → findDivisorTreeD c pos s m = .ok (r, s') ∧
      s'.tree = s.tree := by
    intro r s' hr
    have hm : IsExt c s.bits (ext c s m) := rfl
    unfold findDivisorTree at hr
    unfold findDivisorTreeD
    rcases tree_findDivisor_ok hl h.inv.masks hm h.inv.tree h.inv.tmp with ⟨p, e, h1, h2, h3⟩ | ⟨h1, h2⟩
    · rw [h1] at hr
      simp only [h2, Res.ok.injEq, Prod.mk.injEq] at hr
      obtain ⟨rfl, rfl⟩ := hr
      rw [tree_findDivisorD hpos h.inv.tree h.chain h.inv.tmp h1, ok_bind]
      refine ⟨?_, rfl⟩
      simp only
      rw [cachedD, h2]
      rfl
    · rw [h1] at hr
      simp only [Res.ok.injEq, Prod.mk.injEq] at hr
      obtain ⟨rfl, rfl⟩ := hr
      rw [tree_findDivisorD hpos h.inv.tree h.chain h.inv.tmp h1, ok_bind]
      exact ⟨rfl, rfl⟩
  have hmain : findDivisorD c pos s m = .ok (r, s') ∧ s'.tree = s.tree := by
    unfold findDivisor at g1
    unfold findDivisorD
    cases hu : c.useDivisorCache with
    | false => rw [hu] at g1; exact htree g1
    | true =>
      rw [hu] at g1
      cases hp : s.cache with
      | none => rw [hp] at g1; exact htree g1
      | some p =>
        rw [hp] at g1
        simp only at g1 ⊢
        cases hd : s.tree.deref p with
        | none => rw [hd] at g1; cases g1
        | some e =>
          rw [hd] at g1
          simp only at g1 ⊢
          split
          · rename_i hdv
            rw [if_pos hdv] at g1
            cases g1
            exact ⟨rfl, rfl⟩
          · rename_i hdv
            rw [if_neg hdv] at g1
            exact htree g1
  refine ⟨r, s', g1, hne, hmain.1, ⟨g3, ?_, ?_⟩⟩
  · rw [hmain.2]; exact h.chain
  · rw [g4, g5]; exact h.size

/-- An enumeration whose output does not throw. -/
theorem gotResD_of {s : State T} (h : InvD c s) {q : T → Bool} {proceed : List T → Flow}
    {x : Option (List T × Flow × Tree T)} {xD : Dbg (List T × Flow × Tree T)}
    (hx : ∃ got flow t', x = some (got, flow, t') ∧ t'.root = s.tree.root ∧
      Delivered (s.contents.filter q) proceed got (decide (flow = .threw)) ∧ (flow ≠ .threw → t' = s.tree))
    (hD : ∀ r, x = some r → (r.2.1 ≠ .threw → r.2.2 = s.tree) → xD = .ok r) (hn : ∀ l, proceed l ≠ .threw) :
    ∃ r s', gotRes s x = .ok (r, s') ∧ r ≠ .threw ∧ gotResD s xD = .ok (r, s') ∧ InvD c s' := by
  obtain ⟨got, flow, t', g1, g2, g3, g4⟩ := hx
  have hf := not_threw g3 hn
  have ht := g4 hf
  subst ht
  rw [hD _ g1 (fun _ => rfl), g1]
  exact ⟨_, _, rfl, nofun, rfl, h⟩

/-- One call: a debug build fails an assertion where the release build throws `std::logic_error`, and does
the same else. -/
theorem stepD_spec {pos : Bool} (hpos : c.doAutomaticRebuilds = true → pos = true) (hl : c.Lawful) {s : State T}
    (h : InvD c s) (op : Op T) (hop : op.ElementOk c) (hn : op.NoThrow) :
    ∃ r s', step c s op = .ok (r, s') ∧ (r = .threw → stepD c pos s op = .failed) ∧
      (r ≠ .threw → stepD c pos s op = .ok (r, s') ∧ InvD c s') := by
  have hext : ∀ m, IsExt c s.bits (ext c s m) := fun _ => rfl
  cases op with
  | insert e =>
    obtain ⟨b, t, g1, g2, g3, g4, g5⟩ := tree_insert_ok hl h.inv.tree (hext e)
    obtain ⟨b', t2, k1, k2, k3, k4⟩ := tree_insertD hpos hl h.inv.tree h.chain h.inv.tmp (hext e)
    rw [k1] at g1
    simp only [Option.some.injEq, Prod.mk.injEq] at g1
    obtain ⟨rfl, rfl⟩ := g1
    rw [step, insert, k1, stepD, insertD]
    cases b' with
    | true =>
      refine ⟨_, _, rfl, fun _ => ?_, fun h0 => absurd rfl h0⟩
      rw [k3 rfl]
      rfl
    | false =>
      obtain ⟨e1, e2⟩ := g5 rfl
      have htmp : t2.tmp = [] := by rw [g3]; exact h.inv.tmp
      obtain ⟨s', r1, r2, r3, r4⟩ := reportChanges_ok hl (s := { s with tree := t2 }) 1 0 h.inv.masks g2 htmp (by omega)
      obtain ⟨d1, d2⟩ := reportChangesD_of hpos hl (s := { s with tree := t2 }) 1 0 (by omega) h.inv.masks g2 htmp
        (by omega) k2 r1
      have hp : s'.contents.Perm (e :: s.contents) := r3.trans e2
      simp only
      rw [r1, k4 rfl, ok_bind, d1]
      refine ⟨_, _, rfl, nofun, fun _ => ⟨rfl, r2, d2, ?_⟩⟩
      rw [hp.length_eq, r4, List.length_cons]
      have := h.size
      simp only
      omega
  | removeMultiples m =>
    rw [step, removeMultiples, stepD, removeMultiplesD]
    cases ha : c.allowRemovals with
    | false => exact ⟨_, _, rfl, fun _ => rfl, fun h0 => absurd rfl h0⟩
    | true =>
      obtain ⟨out, t, g1, g2, g3, g4, g5, g6⟩ :=
        tree_removeMultiples_ok hl h.inv.masks (hext m) h.inv.tree ha h.inv.tmp
      obtain ⟨k1, k2⟩ := tree_removeMultiplesD hpos ha h.chain h.inv.tmp g1 g2 g3
      simp only [Bool.not_true, Bool.false_eq_true, if_false]
      rw [g1, assert_true, ok_bind, k1, ok_bind]
      simp only
      have hout : out.length ≤ s.contents.length := by
        rw [g4.length_eq]
        exact List.length_filter_le _ _
      have hcache : 0 + out.length = 0 → c.useDivisorCache = true → ∀ p, s.cache = some p → ∃ e, t.deref p = some e := by
        intro h0 hu p hp
        have hnil : out = [] := List.length_eq_zero_iff.mp (by omega)
        rw [g6 hnil]
        exact h.inv.cache hu p hp
      obtain ⟨s', r1, r2, r3, r4⟩ := reportChanges_ok hl (s := { s with tree := t }) 0 out.length h.inv.masks g2 g3 hcache
      have hsize := h.size
      obtain ⟨d1, d2⟩ := reportChangesD_of hpos hl (s := { s with tree := t }) 0 out.length (by simp only; omega)
        h.inv.masks g2 g3 hcache k2 r1
      have hp : s'.contents.Perm (s.contents.filter (fun e => !c.dm.divides m e)) := r3.trans g5
      rw [r1, d1]
      refine ⟨_, _, rfl, nofun, fun _ => ⟨rfl, r2, d2, ?_⟩⟩
      have hg4 : out.length = (s.contents.filter (fun e => c.dm.divides m e)).length := g4.length_eq
      rw [r4, hp.length_eq, filter_len, ← hg4]
      simp only
      omega
  | removeElement m =>
    obtain ⟨hp, hu⟩ := hop
    obtain ⟨r, s', f1, f2, f3, f4⟩ := step_spec hl h.inv (.removeElement m) ⟨hp, hu⟩
    refine ⟨r, s', f1, ?_⟩
    have hinv := f4 trivial
    have hstep := f2 (.inl nofun)
    rw [step, removeElement, hp] at f1
    rw [stepD, removeElementD, hp]
    cases ha : c.allowRemovals with
    | false =>
      rw [ha] at f1
      cases f1
      exact ⟨fun _ => rfl, fun h0 => absurd rfl h0⟩
    | true =>
      rw [ha] at f1
      simp only [Bool.not_true, Bool.false_eq_true, if_false] at f1 ⊢
      rw [assert_true, ok_bind]
      rw [Tree.removeElementD, assert_of (by rw [h.inv.tmp]; rfl), ok_bind]
      rw [Tree.removeElement] at f1
      have hlen : s'.size = s.size → InvD c s' ∨ ¬ s'.tree.Chain c := by
        intro hs
        by_cases hch : s'.tree.Chain c
        · refine .inl ⟨hinv, hch, ?_⟩
          rw [hs]
          refine le_trans ?_ h.size
          cases hstep with
          | removeElement _ _ hpm => rw [hpm.length_eq, List.length_cons]; omega
          | removeNothing _ _ hpm => rw [hpm.length_eq]
          | removeElementOff _ hpm => rw [hpm.length_eq]
        · exact .inr hch
      cases hr : s.tree.root with
      | none =>
        rw [hr] at f1
        cases f1
        exact ⟨nofun, fun _ => ⟨rfl, h⟩⟩
      | some n =>
        rw [hr] at f1
        simp only at f1
        cases hrm : removeElementNode c m n with
        | none => rw [hrm] at f1; cases f1
        | some x =>
          rw [hrm] at f1
          obtain ⟨e1, e2, e3⟩ := removeElementNodeD_of n x hrm
          cases f1
          have hch : Tree.Chain c ({ s.tree with root := some x.2 } : Tree T) := by
            rintro _ ⟨⟩; exact e3 (h.chain n hr)
          refine ⟨nofun, fun _ => ⟨?_, ?_⟩⟩
          · rw [removeElementRootD, e1, ok_bind, validD_of hpos hinv.tree hch hinv.tmp]
            rfl
          · rcases hlen rfl with h' | h'
            · exact h'
            · exact absurd hch h'
  | findDivisor m =>
    obtain ⟨r, s', g1, g2, g3, g4⟩ := findDivisorD_of hpos hl h m
    exact ⟨r, s', g1, fun h0 => absurd h0 g2, fun _ => ⟨g3, g4⟩⟩
  | findAllDivisors m p =>
    obtain ⟨r, s', g1, g2, g3, g4⟩ := gotResD_of (q := fun e => c.dm.divides e m) (proceed := p) h
      (enumerate_ok (k := .divisors (ext c s m)) (proceed := p)
        (q := fun e => c.dm.divides e m) (f := fun got a => a.findAllDivisors c (ext c s m) p got) h.inv.tree h.inv.tmp
        (fun a got h1 h2 => arr_findAllDivisors_eq hl h.inv.masks h1 h2 (hext m) p got)
        (fun n hn => by
          have := visited_divisors hl h.inv.masks (hext m) n [] (h.inv.tree.wf n hn)
          exact this ▸ .refl _))
      (xD := s.tree.findAllDivisorsD c (ext c s m) p)
      (fun r hr ht => enumerateD_of h.inv.tmp (fun got a r hr => arr_findAllDivisorsD hr) hr ht) hn
    exact ⟨r, s', g1, fun h0 => absurd h0 g2, fun _ => ⟨g3, g4⟩⟩
  | findAllMultiples m p =>
    obtain ⟨r, s', g1, g2, g3, g4⟩ := gotResD_of (q := fun e => c.dm.divides m e) (proceed := p) h
      (enumerate_ok (k := .multiples (ext c s m)) (proceed := p)
        (q := fun e => c.dm.divides m e) (f := fun got a => a.findAllMultiples c (ext c s m) p got) h.inv.tree h.inv.tmp
        (fun a got h1 h2 => arr_findAllMultiples_eq hl h.inv.masks h1 h2 (hext m) p got)
        (fun n hn => visited_multiples hl (m := ext c s m) n [] (h.inv.tree.wf n hn)))
      (xD := s.tree.findAllMultiplesD c (ext c s m) p)
      (fun r hr ht => enumerateD_of h.inv.tmp (fun got a r hr => arr_findAllMultiplesD hr) hr ht) hn
    exact ⟨r, s', g1, fun h0 => absurd h0 g2, fun _ => ⟨g3, g4⟩⟩
  | forAll p =>
    obtain ⟨got, flow, t', k1, k2, k3, k4⟩ := tree_forAll_ok h.inv.tree h.inv.tmp p
    obtain ⟨r, s', g1, g2, g3, g4⟩ := gotResD_of (q := fun _ => true) (proceed := p) h
      ⟨got, flow, t', k1, k2, by rw [show s.contents.filter (fun _ => true) = s.tree.contents from List.filter_true _]; exact k3, k4⟩
      (xD := s.tree.forAllD c p)
      (fun r hr ht => enumerateD_of h.inv.tmp (fun got a r hr => arr_forAllD hr) hr ht) hn
    exact ⟨r, s', g1, fun h0 => absurd h0 g2, fun _ => ⟨g3, g4⟩⟩
  | rebuild =>
    obtain ⟨s', g1, g2, g3, g4⟩ := rebuild_ok hl h.inv
    obtain ⟨e1, e2⟩ := rebuildD_of hpos hl h.inv g1
    rw [step, g1, stepD, e1]
    refine ⟨_, _, rfl, nofun, fun _ => ⟨rfl, g2, e2, ?_⟩⟩
    rw [g4, g3.length_eq]
    exact h.size
  | size => exact ⟨_, _, rfl, nofun, fun _ => ⟨rfl, h⟩⟩

/-- A history of calls: an assertion fails in the debug build just if a call throws `std::logic_error` in the
release build. -/
theorem runFromD_spec {pos : Bool} (hpos : c.doAutomaticRebuilds = true → pos = true) (hl : c.Lawful) :
    ∀ (ops : List (Op T)) (s : State T), InvD c s → (∀ op ∈ ops, op.ElementOk c ∧ op.NoThrow) →
    ∃ rs s', run c s ops = .ok (rs, s') ∧ (.threw ∈ rs → runFromD c pos s ops = .failed) ∧
      (.threw ∉ rs → runFromD c pos s ops = .ok (rs, s') ∧ InvD c s') := by
  intro ops
  induction ops with
  | nil => intro s h _; exact ⟨[], s, rfl, nofun, fun _ => ⟨rfl, h⟩⟩
  | cons op ops ih =>
    intro s h ha
    obtain ⟨ho, hn⟩ := ha op List.mem_cons_self
    obtain ⟨r, s1, g1, g2, g3⟩ := stepD_spec hpos hl h op ho hn
    obtain ⟨r', s1', f1, _, _, f4⟩ := step_spec hl h.inv op ho
    by_cases hr : r = .threw
    · -- the release build goes on
      have hrun : ∀ (ops : List (Op T)) (s : State T), Inv c s → (∀ op ∈ ops, op.ElementOk c ∧ op.NoThrow) →
          ∃ rs s', run c s ops = .ok (rs, s') := by
        intro ops
        induction ops with
        | nil => intro s _ _; exact ⟨_, _, rfl⟩
        | cons op ops ih =>
          intro s h ha
          obtain ⟨ho, hn⟩ := ha op List.mem_cons_self
          obtain ⟨r, s1, f1, _, _, f4⟩ := step_spec hl h op ho
          obtain ⟨rs, s', e⟩ := ih s1 (f4 hn) (fun o hm => ha o (List.mem_cons_of_mem _ hm))
          exact ⟨r :: rs, s', by rw [run, f1]; simp only [e]⟩
      rw [g1] at f1
      cases f1
      obtain ⟨rs, s', e⟩ := hrun ops s1 (f4 hn) (fun o hm => ha o (List.mem_cons_of_mem _ hm))
      refine ⟨r :: rs, s', by rw [run, g1]; simp only [e], fun _ => ?_, fun h0 => ?_⟩
      · rw [runFromD, g2 hr]; rfl
      · exact absurd (by rw [hr]; exact List.mem_cons_self) h0
    · obtain ⟨d1, d2⟩ := g3 hr
      obtain ⟨rs, s', e1, e2, e3⟩ := ih s1 d2 (fun o hm => ha o (List.mem_cons_of_mem _ hm))
      refine ⟨r :: rs, s', by rw [run, g1]; simp only [e1], fun h0 => ?_, fun h0 => ?_⟩
      · rw [runFromD, d1, ok_bind]
        simp only
        rw [e2 ?_]
        · rfl
        · rcases List.mem_cons.mp h0 with h0 | h0
          · exact absurd h0.symm hr
          · exact h0
      · obtain ⟨k1, k2⟩ := e3 (fun hm => h0 (List.mem_cons_of_mem _ hm))
        refine ⟨?_, k2⟩
        rw [runFromD, d1, ok_bind]
        simp only
        rw [k1]
        rfl

end Verif.KDTree
