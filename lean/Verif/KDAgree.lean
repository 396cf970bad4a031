import Verif.KDStateProofs
import Verif.PropDivList

/-!
# Histories of KD trees, and what it means that two of them agree
-/

namespace Verif.KDTree

open Verif.DivMask (Ext Bits)

variable {T : Type} {c : Conf T}

/-- The states that histories lead to in which no output object throws, and `removeElement` is only
called on packed trees without a divisor cache. -/
def Reachable (c : Conf T) (s : State T) : Prop :=
  ∃ s₀ ops rs, init c = some s₀ ∧ (∀ op ∈ ops, op.NoThrow ∧ op.ElementOk c) ∧ run c s₀ ops = .ok (rs, s)

theorem run_inv (hl : c.Lawful) : ∀ (ops : List (Op T)) {s : State T}, Inv c s →
    (∀ op ∈ ops, op.NoThrow ∧ op.ElementOk c) →
    ∃ rs s', run c s ops = .ok (rs, s') ∧ Inv c s' ∧
      ((∀ op ∈ ops, op ≠ .size) → Trace c s.contents ops rs s'.contents) ∧
      (SizeOk s → (∀ op ∈ ops, op.NotElement) → Trace c s.contents ops rs s'.contents ∧ SizeOk s') := by
  intro ops
  induction ops with
  | nil => intro s h _; exact ⟨[], s, rfl, h, fun _ => .nil, fun hs _ => ⟨.nil, hs⟩⟩
  | cons op ops ih =>
    intro s h hops
    obtain ⟨h1, h2⟩ := hops op (by simp)
    obtain ⟨r, s', g1, g2, g3, g4⟩ := step_spec hl h op h2
    obtain ⟨rs, s'', r1, r2, r3, r4⟩ := ih (g4 h1) (fun o ho => hops o (List.mem_cons_of_mem _ ho))
    refine ⟨r :: rs, s'', by rw [run, g1]; simp only [r1], r2, ?_, ?_⟩
    · intro hn
      exact .cons (g2 (.inl (hn op (by simp)))) (r3 (fun o ho => hn o (List.mem_cons_of_mem _ ho)))
    · intro hs hn
      obtain ⟨t1, t2⟩ := r4 (g3 (hn op (by simp)) hs) (fun o ho => hn o (List.mem_cons_of_mem _ ho))
      exact ⟨.cons (g2 (.inr hs)) t1, t2⟩

theorem Reachable.inv (hl : c.Lawful) {s : State T} (h : Reachable c s) : Inv c s := by
  obtain ⟨s₀, ops, rs, h1, h2, h3⟩ := h
  obtain ⟨s, g1, g2, _, _⟩ := init_ok hl
  rw [g1] at h1
  cases h1
  obtain ⟨rs', s', r1, r2, _⟩ := run_inv hl ops g2 h2
  rw [r1] at h3
  cases h3
  exact r2

/-- The enumerations of a call are not cut short. -/
def Op.Full : Op T → Prop
  | .findAllDivisors _ p => ∀ l, p l = .go
  | .findAllMultiples _ p => ∀ l, p l = .go
  | .forAll p => ∀ l, p l = .go
  | _ => True

theorem Op.Full.noThrow {op : Op T} (h : op.Full) : op.NoThrow := by
  cases op <;> first | trivial | exact fun l => by rw [h l]; decide

/-- Two results are the same up to the order of what is put out and the choice of the divisor. -/
def Agree : Ret T → Ret T → Prop
  | .unit, .unit => True
  | .threw, .threw => True
  | .removed o b, .removed o' b' => o.Perm o' ∧ b = b'
  | .entry e, .entry e' => e.isSome = e'.isSome
  | .got l b, .got l' b' => l.Perm l' ∧ b = b'
  | .num n, .num n' => n = n'
  | _, _ => False

theorem Delivered.full {l got : List T} {p : List T → Flow} {b : Bool} (h : Delivered l p got b)
    (hp : ∀ l, p l = .go) : got.Perm l ∧ b = false := by
  obtain ⟨l', h1, k, hk, rfl, _, h2, h3⟩ := h
  constructor
  · rcases h2 with h2 | h2
    · rw [h2, List.take_length]; exact h1
    · exact absurd (hp _) h2.2
  · cases b with
    | false => rfl
    | true =>
      have := (h3.mp rfl).2
      rw [hp] at this; cases this

theorem step_agree {c₁ c₂ : Conf T} (hdm : c₁.dm = c₂.dm) (hls : c₁.leafSize = c₂.leafSize)
    (har : c₁.allowRemovals = c₂.allowRemovals) {l l' m m' : List T} {op : Op T} {r r' : Ret T} (hlm : l.Perm m)
    (hf : op.Full) (hn : op.NotElement) (h₁ : Step c₁ l op r l') (h₂ : Step c₂ m op r' m') :
    Agree r r' ∧ l'.Perm m' := by
  have hcp : ∀ e, copies c₁ e l = copies c₂ e m := by
    intro e
    rw [copies_perm e hlm]
    unfold copies
    congr 1
    funext x
    have : Same c₁ e x ↔ Same c₂ e x := by unfold Same; rw [hdm]
    simp [this]
  cases h₁ with
  | insert h hp =>
    cases h₂ with
    | insert _ hp' => exact ⟨trivial, hp.trans ((hlm.cons _).trans hp'.symm)⟩
    | insertThrows h' _ => rw [hcp, hls] at h; omega
  | insertThrows h hp =>
    cases h₂ with
    | insert h' _ => rw [hcp, hls] at h; omega
    | insertThrows _ hp' => exact ⟨trivial, hp.trans (hlm.trans hp'.symm)⟩
  | removeMultiples ha ho hb hp =>
    cases h₂ with
    | removeMultiples _ ho' hb' hp' =>
      rw [hdm] at ho hp
      have hoo := ho.trans ((hlm.filter _).trans ho'.symm)
      refine ⟨⟨hoo, ?_⟩, hp.trans ((hlm.filter _).trans hp'.symm)⟩
      rw [Bool.eq_iff_iff, hb, hb', not_iff_not]
      constructor
      · intro h; rw [h] at hoo; exact hoo.nil_eq.symm
      · intro h; rw [h] at hoo; exact hoo.symm.nil_eq.symm
    | removeMultiplesOff h0 _ => rw [har, h0] at ha; cases ha
  | removeMultiplesOff h0 hp =>
    cases h₂ with
    | removeMultiples ha _ _ _ => rw [har, ha] at h0; cases h0
    | removeMultiplesOff _ hp' => exact ⟨trivial, hp.trans (hlm.trans hp'.symm)⟩
  | removeElement => exact hn.elim
  | removeNothing => exact hn.elim
  | removeElementOff => exact hn.elim
  | findDivisor he hd hp =>
    cases h₂ with
    | findDivisor _ _ hp' => exact ⟨rfl, hp.trans (hlm.trans hp'.symm)⟩
    | findNone h _ => rw [hdm, h _ (hlm.subset he)] at hd; cases hd
  | findNone h hp =>
    cases h₂ with
    | findDivisor he hd _ => rw [← hdm, h _ (hlm.symm.subset he)] at hd; cases hd
    | findNone _ hp' => exact ⟨rfl, hp.trans (hlm.trans hp'.symm)⟩
  | findAllDivisors h hp =>
    cases h₂ with
    | findAllDivisors h' hp' =>
      obtain ⟨a1, a2⟩ := h.full hf
      obtain ⟨b1, b2⟩ := h'.full hf
      rw [hdm] at a1
      exact ⟨⟨a1.trans ((hlm.filter _).trans b1.symm), by rw [a2, b2]⟩, hp.trans (hlm.trans hp'.symm)⟩
  | findAllMultiples h hp =>
    cases h₂ with
    | findAllMultiples h' hp' =>
      obtain ⟨a1, a2⟩ := h.full hf
      obtain ⟨b1, b2⟩ := h'.full hf
      rw [hdm] at a1
      exact ⟨⟨a1.trans ((hlm.filter _).trans b1.symm), by rw [a2, b2]⟩, hp.trans (hlm.trans hp'.symm)⟩
  | forAll h hp =>
    cases h₂ with
    | forAll h' hp' =>
      obtain ⟨a1, a2⟩ := h.full hf
      obtain ⟨b1, b2⟩ := h'.full hf
      exact ⟨⟨a1.trans (hlm.trans b1.symm), by rw [a2, b2]⟩, hp.trans (hlm.trans hp'.symm)⟩
  | rebuild hp =>
    cases h₂ with
    | rebuild hp' => exact ⟨trivial, hp.trans (hlm.trans hp'.symm)⟩
  | size hp =>
    cases h₂ with
    | size hp' => exact ⟨hlm.length_eq, hp.trans (hlm.trans hp'.symm)⟩

theorem trace_agree {c₁ c₂ : Conf T} (hdm : c₁.dm = c₂.dm) (hls : c₁.leafSize = c₂.leafSize)
    (har : c₁.allowRemovals = c₂.allowRemovals) : ∀ {ops : List (Op T)} {l l' m m' : List T} {rs rs' : List (Ret T)},
    l.Perm m → (∀ op ∈ ops, op.Full) → (∀ op ∈ ops, op.NotElement) → Trace c₁ l ops rs l' → Trace c₂ m ops rs' m' →
    List.Forall₂ Agree rs rs' ∧ l'.Perm m' := by
  intro ops
  induction ops with
  | nil => intro l l' m m' rs rs' h _ _ h1 h2; cases h1; cases h2; exact ⟨.nil, h⟩
  | cons op ops ih =>
    intro l l' m m' rs rs' h hf hn h1 h2
    cases h1 with
    | cons a1 a2 =>
      cases h2 with
      | cons b1 b2 =>
        obtain ⟨e1, e2⟩ := step_agree hdm hls har h (hf op (by simp)) (hn op (by simp)) a1 b1
        obtain ⟨e3, e4⟩ := ih e2 (fun o ho => hf o (List.mem_cons_of_mem _ ho))
          (fun o ho => hn o (List.mem_cons_of_mem _ ho)) a2 b2
        exact ⟨.cons e1 e3, e4⟩

/-- The same call on a `DivList`. -/
def Op.toList : Op T → DivList.Op T
  | .insert e => .insert e
  | .removeMultiples m => .removeMultiples m
  | .removeElement m => .removeElement m
  | .findDivisor m => .findDivisor m
  | .findAllDivisors m p => .findAllDivisors m (fun l => decide (p l = .go))
  | .findAllMultiples m p => .findAllMultiples m (fun l => decide (p l = .go))
  | .forAll p => .forAll (fun l => decide (p l = .go))
  | .rebuild => .rebuild
  | .size => .size

/-- The result of a tree and the result of a list are the same up to order and choice. -/
def AgreeList : Ret T → DivList.Ret T → Prop
  | .unit, .unit => True
  | .removed o b, .removed o' b' => o.Perm o' ∧ b = b'
  | .entry e, .entry e' => e.isSome = e'.isSome
  | .got l b, .got l' => l.Perm l' ∧ b = false
  | .num n, .num n' => n = n'
  | _, _ => False

theorem step_agreeList {d : DivList.Conf T} (hdm : c.dm = d.dm) {l l' m m' : List T} {op : Op T} {r : Ret T}
    {r' : DivList.Ret T} (hlm : l.Perm m) (hf : op.Full) (hn : op.NotElement) (ht : r ≠ .threw) (h₁ : Step c l op r l')
    (h₂ : DivList.Step d m op.toList r' m') : AgreeList r r' ∧ l'.Perm m' := by
  cases h₁ with
  | insert h hp =>
    cases h₂ with
    | insert _ => exact ⟨trivial, hp.trans ((hlm.cons _).trans (List.perm_append_singleton _ _).symm)⟩
    | insertSorted _ _ _ => exact ⟨trivial, hp.trans ((hlm.cons _).trans List.perm_middle.symm)⟩
  | insertThrows => exact absurd rfl ht
  | removeMultiples ha ho hb hp =>
    cases h₂ with
    | removeMultiples =>
      rw [hdm] at ho hp
      have hoo := ho.trans (hlm.filter _)
      refine ⟨⟨hoo, ?_⟩, hp.trans (hlm.filter _)⟩
      rw [Bool.eq_iff_iff, hb, List.any_eq_true, ← List.length_pos_iff, hoo.length_eq, List.length_pos_iff, Ne,
        List.filter_eq_nil_iff]
      push Not
      rfl
  | removeMultiplesOff => exact absurd rfl ht
  | removeElement => exact hn.elim
  | removeNothing => exact hn.elim
  | removeElementOff => exact hn.elim
  | findDivisor he hd hp =>
    cases h₂ with
    | findDivisor =>
      refine ⟨?_, hp.trans hlm⟩
      show true = _
      symm
      rw [List.find?_isSome]
      exact ⟨_, hlm.subset he, by rw [← hdm]; exact hd⟩
  | findNone h hp =>
    cases h₂ with
    | findDivisor =>
      refine ⟨?_, hp.trans hlm⟩
      show false = _
      symm
      rw [Option.isSome_eq_false_iff, Option.isNone_iff_eq_none, List.find?_eq_none]
      intro x hx
      rw [← hdm, h x (hlm.symm.subset hx)]
      decide
  | findAllDivisors h hp =>
    cases h₂ with
    | findAllDivisors h' =>
      obtain ⟨a1, a2⟩ := h.full hf
      rw [h'.all (fun l => by simp [hf l])]
      rw [hdm] at a1
      exact ⟨⟨a1.trans (hlm.filter _), a2⟩, hp.trans hlm⟩
  | findAllMultiples h hp =>
    cases h₂ with
    | findAllMultiples h' =>
      obtain ⟨a1, a2⟩ := h.full hf
      rw [h'.all (fun l => by simp [hf l])]
      rw [hdm] at a1
      exact ⟨⟨a1.trans (hlm.filter _), a2⟩, hp.trans hlm⟩
  | forAll h hp =>
    cases h₂ with
    | forAll h' =>
      obtain ⟨a1, a2⟩ := h.full hf
      rw [h'.all (fun l => by simp [hf l])]
      exact ⟨⟨a1.trans hlm, a2⟩, hp.trans hlm⟩
  | rebuild hp => cases h₂ with | rebuild => exact ⟨trivial, hp.trans hlm⟩
  | size hp => cases h₂ with | size => exact ⟨hlm.length_eq, hp.trans hlm⟩

theorem trace_agreeList {d : DivList.Conf T} (hdm : c.dm = d.dm) : ∀ {ops : List (Op T)} {l l' m m' : List T}
    {rs : List (Ret T)} {rs' : List (DivList.Ret T)}, l.Perm m → (∀ op ∈ ops, op.Full) →
    (∀ op ∈ ops, op.NotElement) → (∀ r ∈ rs, r ≠ .threw) → Trace c l ops rs l' →
    DivList.Trace d m (ops.map Op.toList) rs' m' → List.Forall₂ AgreeList rs rs' ∧ l'.Perm m' := by
  intro ops
  induction ops with
  | nil => intro l l' m m' rs rs' h _ _ _ h1 h2; cases h1; cases h2; exact ⟨.nil, h⟩
  | cons op ops ih =>
    intro l l' m m' rs rs' h hf hn ht h1 h2
    cases h1 with
    | cons a1 a2 =>
      cases h2 with
      | cons b1 b2 =>
        obtain ⟨e1, e2⟩ := step_agreeList hdm h (hf op (by simp)) (hn op (by simp)) (ht _ (by simp)) a1 b1
        obtain ⟨e3, e4⟩ := ih e2 (fun o ho => hf o (List.mem_cons_of_mem _ ho))
          (fun o ho => hn o (List.mem_cons_of_mem _ ho)) (fun r hr => ht r (List.mem_cons_of_mem _ hr)) a2 b2
        exact ⟨.cons e1 e3, e4⟩

theorem list_defined {d : DivList.Conf T} (hd : d.Lawful) : ∀ (ops : List (Op T)) {s : DivList.State T},
    DivList.Inv d s → ∃ rs s', DivList.run d s (ops.map Op.toList) = some (rs, s') := by
  intro ops
  induction ops with
  | nil => intro s _; exact ⟨[], s, rfl⟩
  | cons op ops ih =>
    intro s hs
    have ha : DivList.Allowed d op.toList := by cases op <;> trivial
    have hp : op.toList.Pre s.contents := by cases op <;> trivial
    rcases DivList.step_spec hd hs op.toList ha with ⟨h1, _⟩ | ⟨_, r, s', g1, _, g2, _⟩
    · exact absurd hp h1
    · obtain ⟨rs, s'', r1⟩ := ih g2
      exact ⟨r :: rs, s'', by simp [DivList.run, g1, r1]⟩

end Verif.KDTree
