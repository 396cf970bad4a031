import Verif.KDEntryArrayProofs

/-!
# Lemmas on the KD trees: insertion, construction, removal of one element
-/

namespace Verif.KDTree

open Verif.DivMask (Ext Bits Mask combineAnd canDivide canDivide_iff maxMask)
open Verif.DivList (Sorted)

variable {T : Type} {c : Conf T} {bits : Bits}

/-- The extended entries below a node. -/
def Node.exts : Node T → List (Ext T)
  | .entries a => a.es
  | .split _ _ _ le gt => le.exts ++ gt.exts

theorem contents_exts (n : Node T) : n.contents = n.exts.map Ext.t := by
  induction n with
  | entries a => rfl
  | split mask var exp le gt ih1 ih2 => simp [Node.contents, Node.exts, ih1, ih2]

/-- What holds of a node at all times. -/
def Node.WF (c : Conf T) (bits : Bits) : Node T → Prop
  | .entries a => ArrOk c bits a
  | .split mask var exp le gt => le.WF c bits ∧ gt.WF c bits ∧ var < c.dm.varCount ∧
      (∀ e ∈ le.exts, c.dm.getExponent e.t var ≤ exp) ∧ (∀ e ∈ gt.exts, exp < c.dm.getExponent e.t var) ∧
      (c.useTreeDivMask = true → ∀ e ∈ le.exts ++ gt.exts, canDivide mask e.mask = true)

/-- No array is empty. -/
def Node.NE : Node T → Prop
  | .entries a => a.es ≠ []
  | .split _ _ _ le gt => le.NE ∧ gt.NE

theorem wf_exts {n : Node T} (h : n.WF c bits) : ∀ e ∈ n.exts, IsExt c bits e := by
  induction n with
  | entries a => exact h.exts
  | split mask var exp le gt ih1 ih2 =>
    intro e he
    rcases List.mem_append.mp he with he | he
    · exact ih1 h.1 e he
    · exact ih2 h.2.1 e he

theorem wf_mask {n : Node T} (h : n.WF c bits) (hu : c.useTreeDivMask = true) :
    ∀ e ∈ n.exts, canDivide n.mask e.mask = true := by
  cases n with
  | entries a => exact h.low hu
  | split mask var exp le gt => exact h.2.2.2.2.2 hu

/-! ## Copies -/

theorem same_symm {a b : T} (h : Same c a b) : Same c b a := fun v hv => (h v hv).symm

theorem same_trans {a b d : T} (h : Same c a b) (h' : Same c b d) : Same c a d :=
  fun v hv => (h v hv).trans (h' v hv)

theorem copies_append (e : T) (l₁ l₂ : List T) : copies c e (l₁ ++ l₂) = copies c e l₁ + copies c e l₂ :=
  List.countP_append

theorem copies_perm (e : T) {l₁ l₂ : List T} (h : l₁.Perm l₂) : copies c e l₁ = copies c e l₂ := h.countP_eq _

theorem copies_zero {e : T} {l : List T} (h : ∀ x ∈ l, ¬ Same c e x) : copies c e l = 0 := by
  unfold copies
  rw [List.countP_eq_zero]
  intro x hx
  simpa using h x hx

theorem copies_le_length (e : T) (l : List T) : copies c e l ≤ l.length := List.countP_le_length

theorem copies_all {e : T} {l : List T} : copies c e l = l.length ↔ ∀ x ∈ l, Same c e x := by
  unfold copies
  rw [List.countP_eq_length]
  simp

/-- Entries on the other side of a split have other exponents. -/
theorem copies_le_zero {var : ℕ} {exp : ℤ} (hv : var < c.dm.varCount) {x : T} (hx : exp < c.dm.getExponent x var)
    {l : List T} (h : ∀ e ∈ l, c.dm.getExponent e var ≤ exp) : copies c x l = 0 := by
  apply copies_zero
  intro e he hs
  have := hs var hv
  have := h e he
  omega

theorem copies_gt_zero {var : ℕ} {exp : ℤ} (hv : var < c.dm.varCount) {x : T} (hx : c.dm.getExponent x var ≤ exp)
    {l : List T} (h : ∀ e ∈ l, exp < c.dm.getExponent e var) : copies c x l = 0 := by
  apply copies_zero
  intro e he hs
  have := hs var hv
  have := h e he
  omega

theorem inChild_true {var : ℕ} {exp : ℤ} {m : T} : inChild c var exp m = true ↔ exp < c.dm.getExponent m var := by
  simp [inChild]

theorem inChild_false {var : ℕ} {exp : ℤ} {m : T} : inChild c var exp m = false ↔ c.dm.getExponent m var ≤ exp := by
  simp [inChild]

theorem forall_contents {n : Node T} {p : T → Prop} : (∀ e ∈ n.contents, p e) ↔ ∀ e ∈ n.exts, p e.t := by
  rw [contents_exts]; simp

/-- No more than `leafSize` entries have the same exponents: they are all in one array. -/
theorem wf_copies {n : Node T} (h : n.WF c bits) (x : T) : copies c x n.contents ≤ c.leafSize := by
  induction n with
  | entries a =>
    refine (copies_le_length _ _).trans ?_
    simpa [Node.contents] using h.cap
  | split mask var exp le gt ih1 ih2 =>
    obtain ⟨h1, h2, hv, h3, h4, _⟩ := h
    rw [Node.contents, copies_append]
    cases hc : inChild c var exp x with
    | true =>
      rw [copies_le_zero hv (inChild_true.mp hc) (forall_contents.mpr h3)]
      have := ih2 h2
      omega
    | false =>
      rw [copies_gt_zero hv (inChild_false.mp hc) (forall_contents.mpr h4)]
      have := ih1 h1
      omega

/-! ## Insertion -/

/-- What a split of a full array and the insertion give. -/
theorem splitInsert_ok (hl : c.Lawful) {a : Arr T} (h : ArrOk c bits a) (hfull : a.es.length = c.leafSize)
    {x : Ext T} (hx : IsExt c bits x) {r : Split (Ext T)} (hr : SplitOk c Ext.t a.es (some x) r) :
    ∃ n, (if c.packed then splitInsertP c x a r else splitInsertB c x r) = some n ∧ n.WF c bits ∧ n.NE ∧
      n.exts.Perm (x :: a.es) := by
  have hmem : ∀ e, e ∈ r.le ++ r.gt ↔ e ∈ a.es := fun e => hr.perm.mem_iff
  have hlen : r.le.length + r.gt.length = c.leafSize := by
    rw [← hfull, ← hr.perm.length_eq, List.length_append]
  have hxle : ∀ e ∈ r.le, IsExt c bits e := fun e he => h.exts e ((hmem e).mp (List.mem_append_left _ he))
  have hxgt : ∀ e ∈ r.gt, IsExt c bits e := fun e he => h.exts e ((hmem e).mp (List.mem_append_right _ he))
  -- the side that `x` does not go to has an entry
  have hgt : c.dm.getExponent x.t r.var ≤ r.exp → r.gt ≠ [] := by
    intro hle hnil
    obtain ⟨y, hy, hy'⟩ := hr.someGt
    simp only [Option.toList_some, List.singleton_append, List.mem_cons] at hy
    rcases hy with rfl | hy
    · omega
    · rw [← hmem, hnil, List.append_nil] at hy
      have := hr.le y hy
      omega
  have hle : r.exp < c.dm.getExponent x.t r.var → r.le ≠ [] := by
    intro hlt hnil
    obtain ⟨y, hy, hy'⟩ := hr.someLe
    simp only [Option.toList_some, List.singleton_append, List.mem_cons] at hy
    rcases hy with rfl | hy
    · omega
    · rw [← hmem, hnil, List.nil_append] at hy
      have := hr.gt y hy
      omega
  -- both parts as arrays, and the mask of the new interior node
  have main : ∀ (ale agt : Arr T) (mask : Mask), ale.es.Perm r.le → agt.es.Perm r.gt → ArrOk c bits ale →
      ArrOk c bits agt → (c.useTreeDivMask = true → ∀ e ∈ x :: a.es, canDivide mask e.mask = true) →
      ∃ n, (if inChild c r.var r.exp x.t then
          (agt.insert c x).map (fun o => Node.split mask r.var r.exp (.entries ale) (.entries o))
        else (ale.insert c x).map (fun o => Node.split mask r.var r.exp (.entries o) (.entries agt))) = some n ∧
        n.WF c bits ∧ n.NE ∧ n.exts.Perm (x :: a.es) := by
    intro ale agt mask p1 p2 o1 o2 hm
    cases hc : inChild c r.var r.exp x.t with
    | true =>
      rw [if_pos rfl]
      have hlt := inChild_true.mp hc
      have hne := hle hlt
      have hpos : 0 < r.le.length := List.length_pos_iff.mpr hne
      obtain ⟨o, g1, g2, g3⟩ := insert_ok hl o2 (by rw [p2.length_eq]; omega) hx
      rw [g1]
      have hperm : (ale.es ++ o.es).Perm (x :: a.es) := by
        refine (p1.append (g2.trans (p2.cons x))).trans ?_
        exact List.perm_middle.trans (hr.perm.cons x)
      refine ⟨_, rfl, ⟨o1, g3, hr.var, ?_, ?_, ?_⟩, ⟨?_, ?_⟩, hperm⟩
      · intro e he; exact hr.le e (p1.subset he)
      · intro e he
        rcases List.mem_cons.mp (g2.subset he) with rfl | he
        · exact hlt
        · exact hr.gt e (p2.subset he)
      · intro hu e he; exact hm hu e (hperm.subset he)
      · intro h0; rw [h0] at p1; exact hne p1.nil_eq.symm
      · intro h0; rw [h0] at g2; exact absurd g2.length_eq (by simp)
    | false =>
      rw [if_neg (by decide)]
      have hlt := inChild_false.mp hc
      have hne := hgt hlt
      have hpos : 0 < r.gt.length := List.length_pos_iff.mpr hne
      obtain ⟨o, g1, g2, g3⟩ := insert_ok hl o1 (by rw [p1.length_eq]; omega) hx
      rw [g1]
      have hperm : (o.es ++ agt.es).Perm (x :: a.es) := by
        refine ((g2.trans (p1.cons x)).append p2).trans ?_
        exact hr.perm.cons x
      refine ⟨_, rfl, ⟨g3, o2, hr.var, ?_, ?_, ?_⟩, ⟨?_, ?_⟩, hperm⟩
      · intro e he
        rcases List.mem_cons.mp (g2.subset he) with rfl | he
        · exact hlt
        · exact hr.le e (p1.subset he)
      · intro e he; exact hr.gt e (p2.subset he)
      · intro hu e he; exact hm hu e (hperm.subset he)
      · intro h0; rw [h0] at g2; exact absurd g2.length_eq (by simp)
      · intro h0; rw [h0] at p2; exact hne p2.nil_eq.symm
  split
  · rename_i hpk
    unfold splitInsertP
    obtain ⟨ale, a1, a2, a3⟩ := ofRange_ok hl (l := r.le) (by omega) hxle
    obtain ⟨b2, b3⟩ := recalculate_ok hl (l := r.gt) maxMask (by omega) hxgt
    rw [a1]
    simp only [hl.selfCopy hpk, Bool.false_and, Bool.false_eq_true, if_false]
    refine main ale _ _ a2 b2 a3 b3 ?_
    intro hu e he
    rcases List.mem_cons.mp he with rfl | he
    · exact lower_right hu (canDivide_self _)
    · exact lower_left hu (lower_right hu (h.low hu e he))
  · unfold splitInsertB
    obtain ⟨agt, a1, a2, a3⟩ := ofRange_ok hl (l := r.gt) (by omega) hxgt
    obtain ⟨b2, b3⟩ := recalculate_ok hl (l := r.le) maxMask (by omega) hxle
    rw [a1]
    simp only
    refine main _ agt _ b2 a2 b3 a3 ?_
    intro hu e he
    rcases List.mem_cons.mp he with rfl | he
    · exact lower_right hu (canDivide_self _)
    · refine lower_left hu ?_
      rcases List.mem_append.mp ((hmem e).mpr he) with he | he
      · exact lower_left hu (lower_right hu (b3.low hu e (b2.symm.subset he)))
      · exact lower_right hu (a3.low hu e (a2.symm.subset he))

theorem insertNode_ok (hl : c.Lawful) {x : Ext T} (hx : IsExt c bits x) : ∀ (n : Node T) (hint : Option ℕ),
    n.WF c bits → ∃ b n', insertNode c x hint n = some (b, n') ∧ n'.WF c bits ∧
      ((n.NE ∨ n = .entries Arr.empty) → n'.NE) ∧
      (b = true → c.leafSize ≤ copies c x.t n.contents ∧ n'.exts = n.exts ∧ ∀ p, n'.arrAt p = n.arrAt p) ∧
      (b = false → copies c x.t n.contents < c.leafSize ∧ n'.exts.Perm (x :: n.exts)) := by
  intro n
  induction n with
  | entries a =>
    intro hint h
    rw [insertNode]
    split
    · rename_i hfull
      rcases split_ok hl Ext.t (l := a.es) (extra := some x) (by simp) hint with ⟨r, h1, h2⟩ | ⟨h1, h2⟩
      · rw [h1]
        simp only
        obtain ⟨n, g1, g2, g3, g4⟩ := splitInsert_ok hl h hfull hx h2
        rw [g1]
        refine ⟨false, n, rfl, g2, fun _ => g3, nofun, fun _ => ⟨?_, g4⟩⟩
        rcases Nat.lt_or_ge (copies c x.t (Node.entries a).contents) c.leafSize with h' | h'
        · exact h'
        · exfalso
          have hlen : (Node.entries a).contents.length = c.leafSize := by simpa [Node.contents] using hfull
          have hall := copies_all.mp (le_antisymm (copies_le_length x.t (Node.entries a).contents) (hlen ▸ h'))
          have hv : ∀ y ∈ (some x).toList ++ a.es, c.dm.getExponent y.t r.var = c.dm.getExponent x.t r.var := by
            intro y hy
            simp only [Option.toList_some, List.singleton_append, List.mem_cons] at hy
            rcases hy with rfl | hy
            · rfl
            · exact (hall y.t (List.mem_map_of_mem hy) r.var h2.var).symm
          obtain ⟨y, hy, hy'⟩ := h2.someLe
          obtain ⟨z, hz, hz'⟩ := h2.someGt
          rw [hv y hy] at hy'
          rw [hv z hz] at hz'
          omega
      · rw [h1]
        refine ⟨true, _, rfl, h, ?_, fun _ => ⟨?_, rfl, fun _ => rfl⟩, nofun⟩
        · rintro (h' | h')
          · exact h'
          · cases h'
            have := hl.leafSize
            simp [Arr.empty] at hfull
            omega
        · rw [show copies c x.t (Node.entries a).contents = (Node.entries a).contents.length by
            apply copies_all.mpr
            intro y hy
            obtain ⟨e, he, rfl⟩ := List.mem_map.mp hy
            exact h2 x (by simp) e (by simp [he])]
          simp [Node.contents, hfull]
    · rename_i hfull
      have hlt : a.es.length < c.leafSize := by have := h.cap; omega
      obtain ⟨a', g1, g2, g3⟩ := insert_ok hl h hlt hx
      rw [g1]
      refine ⟨false, _, rfl, g3, fun _ => ?_, nofun, fun _ => ⟨?_, g2⟩⟩
      · intro h0; rw [h0] at g2; exact absurd g2.length_eq (by simp)
      · exact lt_of_le_of_lt (copies_le_length _ _) (by simpa [Node.contents] using hlt)
  | split mask var exp le gt ih1 ih2 =>
    intro hint h
    obtain ⟨h1, h2, hv, h3, h4, h5⟩ := h
    rw [insertNode]
    cases hc : inChild c var exp x.t with
    | true =>
      rw [if_pos rfl]
      have hlt := inChild_true.mp hc
      obtain ⟨b, n', g1, g2, g3, g4, g5⟩ := ih2 (some var) h2
      rw [g1]
      have hcp : copies c x.t (Node.split mask var exp le gt).contents = copies c x.t gt.contents := by
        rw [Node.contents, copies_append, copies_le_zero hv hlt (forall_contents.mpr h3), Nat.zero_add]
      rw [hcp]
      have hsub : ∀ e ∈ n'.exts, e = x ∨ e ∈ gt.exts := by
        intro e he
        cases b with
        | true => rw [(g4 rfl).2.1] at he; exact .inr he
        | false => exact List.mem_cons.mp ((g5 rfl).2.subset he)
      refine ⟨b, _, rfl, ⟨h1, g2, hv, h3, ?_, ?_⟩, ?_, ?_, ?_⟩
      · intro e he
        rcases hsub e he with rfl | he
        · exact hlt
        · exact h4 e he
      · intro hu e he
        rcases List.mem_append.mp he with he | he
        · exact lower_left hu (h5 hu e (List.mem_append_left _ he))
        · rcases hsub e he with rfl | he
          · exact lower_right hu (canDivide_self _)
          · exact lower_left hu (h5 hu e (List.mem_append_right _ he))
      · rintro (h' | h')
        · exact ⟨h'.1, g3 (.inl h'.2)⟩
        · cases h'
      · intro hb
        obtain ⟨e1, e2, e3⟩ := g4 hb
        refine ⟨e1, by simp [Node.exts, e2], ?_⟩
        intro p
        cases p with
        | nil => rfl
        | cons b p => cases b <;> [rfl; exact e3 p]
      · intro hb
        obtain ⟨e1, e2⟩ := g5 hb
        refine ⟨e1, ?_⟩
        exact (e2.append_left _).trans List.perm_middle
    | false =>
      rw [if_neg (by decide)]
      have hlt := inChild_false.mp hc
      obtain ⟨b, n', g1, g2, g3, g4, g5⟩ := ih1 (some var) h1
      rw [g1]
      have hcp : copies c x.t (Node.split mask var exp le gt).contents = copies c x.t le.contents := by
        rw [Node.contents, copies_append, copies_gt_zero hv hlt (forall_contents.mpr h4), Nat.add_zero]
      rw [hcp]
      have hsub : ∀ e ∈ n'.exts, e = x ∨ e ∈ le.exts := by
        intro e he
        cases b with
        | true => rw [(g4 rfl).2.1] at he; exact .inr he
        | false => exact List.mem_cons.mp ((g5 rfl).2.subset he)
      refine ⟨b, _, rfl, ⟨g2, h2, hv, ?_, h4, ?_⟩, ?_, ?_, ?_⟩
      · intro e he
        rcases hsub e he with rfl | he
        · exact hlt
        · exact h3 e he
      · intro hu e he
        rcases List.mem_append.mp he with he | he
        · rcases hsub e he with rfl | he
          · exact lower_right hu (canDivide_self _)
          · exact lower_left hu (h5 hu e (List.mem_append_left _ he))
        · exact lower_left hu (h5 hu e (List.mem_append_right _ he))
      · rintro (h' | h')
        · exact ⟨g3 (.inl h'.1), h'.2⟩
        · cases h'
      · intro hb
        obtain ⟨e1, e2, e3⟩ := g4 hb
        refine ⟨e1, by simp [Node.exts, e2], ?_⟩
        intro p
        cases p with
        | nil => rfl
        | cons b p => cases b <;> [exact e3 p; rfl]
      · intro hb
        obtain ⟨e1, e2⟩ := g5 hb
        exact ⟨e1, e2.append_right _⟩

/-! ## Construction -/

theorem build_ok (hl : c.Lawful) : ∀ (n : ℕ) (l : List T) (hint : Option ℕ), l.length = n → l ≠ [] →
    (∀ x, copies c x l ≤ c.leafSize) →
    ∃ nd, build c bits l hint = some (some nd) ∧ nd.WF c bits ∧ nd.NE ∧
      nd.exts.Perm (l.map (Ext.make c.dm bits)) := by
  intro n
  induction n using Nat.strong_induction_on with
  | _ n ih =>
    intro l hint hn hne hcp
    rw [build]
    split
    · rename_i hlen
      obtain ⟨a, g1, g2, g3⟩ := ofRange_ok (bits := bits) hl (l := l.map (Ext.make c.dm bits)) (by simpa using hlen)
        (by intro e he; obtain ⟨t, _, rfl⟩ := List.mem_map.mp he; rfl)
      rw [g1]
      refine ⟨_, rfl, g3, ?_, g2⟩
      intro h0
      rw [h0] at g2
      have := g2.length_eq
      simp only [List.length_nil, List.length_map] at this
      exact hne (List.length_eq_zero_iff.mp this.symm)
    · rename_i hlen
      rcases split_ok hl id (l := l) (extra := none) (by simpa using hne) hint with ⟨r, h1, h2⟩ | ⟨_, h2⟩
      · rw [h1]
        simp only
        have hmem : ∀ e, e ∈ r.le ++ r.gt ↔ e ∈ l := fun e => h2.perm.mem_iff
        have hlens : r.le.length + r.gt.length = l.length := by
          rw [← h2.perm.length_eq, List.length_append]
        have hle : r.le ≠ [] := by
          intro h0
          obtain ⟨y, hy, hy'⟩ := h2.someLe
          simp only [Option.toList_none, List.nil_append] at hy
          rw [← hmem, h0, List.nil_append] at hy
          have := h2.gt y hy
          simp only [id] at *
          omega
        have hgt : r.gt ≠ [] := by
          intro h0
          obtain ⟨y, hy, hy'⟩ := h2.someGt
          simp only [Option.toList_none, List.nil_append] at hy
          rw [← hmem, h0, List.append_nil] at hy
          have := h2.le y hy
          simp only [id] at *
          omega
        have p1 := List.length_pos_iff.mpr hle
        have p2 := List.length_pos_iff.mpr hgt
        have hcps : ∀ x, copies c x r.le + copies c x r.gt ≤ c.leafSize := by
          intro x
          rw [← copies_append, copies_perm x h2.perm]
          exact hcp x
        rw [dif_pos ⟨by omega, by omega⟩]
        obtain ⟨n1, a1, a2, a3, a4⟩ := ih r.le.length (by omega) r.le (some r.var) rfl hle
          (fun x => by have := hcps x; omega)
        obtain ⟨n2, b1, b2, b3, b4⟩ := ih r.gt.length (by omega) r.gt (some r.var) rfl hgt
          (fun x => by have := hcps x; omega)
        rw [a1, b1]
        simp only
        refine ⟨_, rfl, ⟨a2, b2, h2.var, ?_, ?_, ?_⟩, ⟨a3, b3⟩, ?_⟩
        · intro e he
          obtain ⟨t, ht, rfl⟩ := List.mem_map.mp (a4.subset he)
          exact h2.le t ht
        · intro e he
          obtain ⟨t, ht, rfl⟩ := List.mem_map.mp (b4.subset he)
          exact h2.gt t ht
        · intro hu e he
          rcases List.mem_append.mp he with he | he
          · exact lower_left hu (lower_right hu (wf_mask a2 hu e he))
          · exact lower_right hu (wf_mask b2 hu e he)
        · rw [Node.exts]
          refine (a4.append b4).trans ?_
          rw [← List.map_append]
          exact h2.perm.map _
      · exfalso
        cases l with
        | nil => exact hne rfl
        | cons y l =>
          have := hcp y
          have hall : copies c y (y :: l) = (y :: l).length :=
            copies_all.mpr (fun x hx => h2 y (by simp) x (by simpa using hx))
          omega

/-! ## Removal of one element -/

theorem removeElementNode_ok {m : T} : ∀ (n : Node T), n.WF c bits → ∃ b n', removeElementNode c m n = some (b, n') ∧
    n'.WF c bits ∧ (b = false → n' = n ∧ ∀ e ∈ n.exts, ¬ Same c m e.t) ∧
    (b = true → ∃ e, Same c m e.t ∧ n.exts.Perm (e :: n'.exts)) := by
  intro n
  induction n with
  | entries a =>
    intro h
    obtain ⟨b, a', g1, g2, g3, g4⟩ := arr_removeElement_ok h m
    rw [removeElementNode, g1]
    refine ⟨b, _, rfl, g2, ?_, g4⟩
    intro hb
    obtain ⟨rfl, h2⟩ := g3 hb
    exact ⟨rfl, h2⟩
  | split mask var exp le gt ih1 ih2 =>
    intro h
    obtain ⟨h1, h2, hv, h3, h4, h5⟩ := h
    rw [removeElementNode]
    cases hc : inChild c var exp m with
    | true =>
      rw [if_pos rfl]
      have hlt := inChild_true.mp hc
      obtain ⟨b, n', g1, g2, g3, g4⟩ := ih2 h2
      rw [g1]
      have hsub : ∀ e ∈ n'.exts, e ∈ gt.exts := by
        intro e he
        cases b with
        | false => rw [← (g3 rfl).1]; exact he
        | true =>
          obtain ⟨y, _, hp⟩ := g4 rfl
          exact hp.symm.subset (List.mem_cons_of_mem _ he)
      refine ⟨b, _, rfl, ⟨h1, g2, hv, h3, fun e he => h4 e (hsub e he), ?_⟩, ?_, ?_⟩
      · intro hu e he
        refine h5 hu e ?_
        rcases List.mem_append.mp he with he | he
        · exact List.mem_append_left _ he
        · exact List.mem_append_right _ (hsub e he)
      · intro hb
        obtain ⟨e1, e2⟩ := g3 hb
        refine ⟨by simp [e1], ?_⟩
        intro e he hs
        rcases List.mem_append.mp he with he | he
        · have := hs var hv
          have := h3 e he
          omega
        · exact e2 e he hs
      · intro hb
        obtain ⟨e, e1, e2⟩ := g4 hb
        exact ⟨e, e1, (e2.append_left _).trans List.perm_middle⟩
    | false =>
      rw [if_neg (by decide)]
      have hlt := inChild_false.mp hc
      obtain ⟨b, n', g1, g2, g3, g4⟩ := ih1 h1
      rw [g1]
      have hsub : ∀ e ∈ n'.exts, e ∈ le.exts := by
        intro e he
        cases b with
        | false => rw [← (g3 rfl).1]; exact he
        | true =>
          obtain ⟨y, _, hp⟩ := g4 rfl
          exact hp.symm.subset (List.mem_cons_of_mem _ he)
      refine ⟨b, _, rfl, ⟨g2, h2, hv, fun e he => h3 e (hsub e he), h4, ?_⟩, ?_, ?_⟩
      · intro hu e he
        refine h5 hu e ?_
        rcases List.mem_append.mp he with he | he
        · exact List.mem_append_left _ (hsub e he)
        · exact List.mem_append_right _ he
      · intro hb
        obtain ⟨e1, e2⟩ := g3 hb
        refine ⟨by simp [e1], ?_⟩
        intro e he hs
        rcases List.mem_append.mp he with he | he
        · exact e2 e he hs
        · have := hs var hv
          have := h4 e he
          omega
      · intro hb
        obtain ⟨e, e1, e2⟩ := g4 hb
        exact ⟨e, e1, e2.append_right _⟩

end Verif.KDTree
