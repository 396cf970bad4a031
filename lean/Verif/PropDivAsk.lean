import Verif.KDAskMatterProofs
import Verif.PropDivList
import Verif.PropKDTree

/-!
# Property C98: queries ask about each entry at most once

The lists of questions are those of `DivAsk.lean`. That they are complete is part of the theorems: any other `divides`
with the same answers to these questions gives the same result. That there are no others on the lists are the theorems
`..._matter`: for each question there is an answer that decides the result.
-/

namespace Verif.Ask

open Verif.DivMask (Ext canDivide compute)

variable {T : Type}

/-! ## `DivList` -/

/-- The masks of the entries allow that one divides the other, if there are masks. -/
def Pass (dm : DivMask.Conf T) (bits : DivMask.Bits) (useMask : Bool) (a b : T) : Prop :=
  useMask = true → canDivide (compute dm bits a) (compute dm bits b) = true

/-- `findDivisor` asks about entries in the order of the list, each once at most. It does not ask if the masks answer
the question, and not after a divisor. Its result depends on nothing else. -/
theorem divList_findDivisor_asks {c : DivList.Conf T} (hl : c.Lawful) {s : DivList.State T}
    (h : DivList.Reachable c s) (m : T) :
    (DivList.findDivisorA c s m).Sublist s.list.zipIdx ∧
    (∀ x ∈ DivList.findDivisorA c s m, Pass c.dm s.bits c.useDivMask x.1.t m) ∧
    (∀ x ∈ (DivList.findDivisorA c s m).dropLast, c.dm.divides x.1.t m = false) ∧
    ∀ d : T → T → Bool, (∀ x ∈ DivList.findDivisorA c s m, d x.1.t m = c.dm.divides x.1.t m) →
      DivList.findDivisor (c.withDivides d) s m = DivList.findDivisor c s m ∧
      DivList.findDivisorIterator (c.withDivides d) s m = DivList.findDivisorIterator c s m := by
  have hsub := DivList.findDivisorA_sublist (c := c) s m
  have hmem := DivList.findDivisorA_mem (c := c) s m
  refine ⟨hsub, ?_, ?_, ?_⟩
  · intro x hx hu
    have := DivList.asks_mask (hmem x hx) hu
    rwa [(h.inv hl).toMaskInv.mem (List.fst_mem_of_mem_zipIdx (hsub.subset hx))] at this
  · intro x hx
    rw [← DivList.findDivisorA_dropLast (c := c) s m x hx,
      DivList.divides_of_asks (hmem x (List.mem_of_mem_dropLast hx))]
    rfl
  · intro d hd
    have := DivList.iterator_agree (d := d) s m (fun x hx => DivList.divides_with_asks (hmem x hx) (hd x hx))
    exact ⟨by unfold DivList.findDivisor; rw [this], this⟩

/-- `findAllDivisors` asks about each entry once at most, in order, and not if the masks answer the question. -/
theorem divList_findAllDivisors_asks {c : DivList.Conf T} (hl : c.Lawful) {s : DivList.State T}
    (h : DivList.Reachable c s) (m : T) (proceed : List T → Bool) :
    (DivList.findAllDivisorsA c s m proceed).Sublist s.list.zipIdx ∧
    (∀ x ∈ DivList.findAllDivisorsA c s m proceed, Pass c.dm s.bits c.useDivMask x.1.t m) ∧
    ∀ d : T → T → Bool, (∀ x ∈ DivList.findAllDivisorsA c s m proceed, d x.1.t m = c.dm.divides x.1.t m) →
      DivList.findAllDivisors (c.withDivides d) s m proceed = DivList.findAllDivisors c s m proceed := by
  have hsub := DivList.findAllDivisorsA_sublist (c := c) s m proceed
  have hmem := DivList.findAllDivisorsA_mem (c := c) s m proceed
  refine ⟨hsub, ?_, ?_⟩
  · intro x hx hu
    have := DivList.asks_mask (hmem x hx) hu
    rwa [(h.inv hl).toMaskInv.mem (List.fst_mem_of_mem_zipIdx (hsub.subset hx))] at this
  · intro d hd
    exact DivList.findAllDivisors_agree s m proceed (fun x hx => DivList.divides_with_asks (hmem x hx) (hd x hx))

/-- The same for `findAllMultiples`. -/
theorem divList_findAllMultiples_asks {c : DivList.Conf T} (hl : c.Lawful) {s : DivList.State T}
    (h : DivList.Reachable c s) (m : T) (proceed : List T → Bool) :
    (DivList.findAllMultiplesA c s m proceed).Sublist s.list.zipIdx ∧
    (∀ x ∈ DivList.findAllMultiplesA c s m proceed, Pass c.dm s.bits c.useDivMask m x.1.t) ∧
    ∀ d : T → T → Bool, (∀ x ∈ DivList.findAllMultiplesA c s m proceed, d m x.1.t = c.dm.divides m x.1.t) →
      DivList.findAllMultiples (c.withDivides d) s m proceed = DivList.findAllMultiples c s m proceed := by
  have hsub : (DivList.findAllMultiplesA c s m proceed).Sublist s.list.zipIdx := visit_sublist _ _ _
  have hmem : ∀ x ∈ DivList.findAllMultiplesA c s m proceed, DivList.asks c (DivList.ext c s m) x.1 = true :=
    visit_mem _ _ _
  refine ⟨hsub, ?_, ?_⟩
  · intro x hx hu
    have := DivList.asks_mask (hmem x hx) hu
    rwa [(h.inv hl).toMaskInv.mem (List.fst_mem_of_mem_zipIdx (hsub.subset hx))] at this
  · intro d hd
    exact DivList.findAllMultiples_agree s m proceed (fun x hx => DivList.divides_with_asks (hmem x hx) (hd x hx))

/-! ## KD trees -/

theorem once_ext {c : KDTree.Conf T} {s : KDTree.State T} (h : KDTree.Inv c s) {l : List (Ext T × KDTree.Ptr)}
    (ho : KDTree.Once s.tree l) : ∀ x ∈ l, x.1 = KDTree.ext c s x.1.t := by
  intro x hx
  obtain ⟨n, a, h1, h2, h3⟩ := ho.deref x hx
  exact KDTree.wf_exts (h.tree.wf n h1) _ (KDTree.arrAt_es_contents h2 _ (List.mem_of_getElem? h3))

/-- Besides the entry of the cache, `findDivisor` asks about each entry once at most. It does not ask if the masks
answer the question, and not after a divisor. Its result depends on nothing else. -/
theorem kdTree_findDivisor_asks {c : KDTree.Conf T} (hl : c.Lawful) {s : KDTree.State T}
    (h : KDTree.Reachable c s) (m : T) :
    KDTree.Once s.tree (KDTree.findDivisorA c s m) ∧
    (∀ x ∈ KDTree.findDivisorA c s m, Pass c.dm s.bits c.useDivMask x.1.t m) ∧
    (∀ x ∈ (KDTree.findDivisorA c s m).dropLast, c.dm.divides x.1.t m = false) ∧
    (KDTree.findDivisorA c s m ≠ [] → ∀ e ∈ KDTree.cacheA c s, c.dm.divides e m = false) ∧
    (c.useDivisorCache = false → KDTree.cacheA c s = []) ∧ (KDTree.cacheA c s).length ≤ 1 ∧
    ∀ d : T → T → Bool, (∀ e ∈ KDTree.cacheA c s, d e m = c.dm.divides e m) →
      (∀ x ∈ KDTree.findDivisorA c s m, d x.1.t m = c.dm.divides x.1.t m) →
      KDTree.findDivisor (c.withDivides d) s m = KDTree.findDivisor c s m := by
  have hi := h.inv hl
  obtain ⟨h1, h2, h3, h4⟩ := KDTree.tree_findDivisor_asks (m := KDTree.ext c s m) hl hi.masks (KDTree.isExt_make m)
    hi.tree hi.tmp
  have hcases : KDTree.findDivisorA c s m = [] ∨
      KDTree.findDivisorA c s m = s.tree.findDivisorA c (KDTree.ext c s m) := by
    unfold KDTree.findDivisorA
    split
    · exact .inl rfl
    · exact .inr rfl
  have honce : KDTree.Once s.tree (KDTree.findDivisorA c s m) := by
    rcases hcases with e | e
    · rw [e]; exact KDTree.once_nil _
    · rw [e]; exact h1
  have hmem : ∀ x ∈ KDTree.findDivisorA c s m, KDTree.asks c x.1 (KDTree.ext c s m) = true := by
    rcases hcases with e | e
    · rw [e]; exact nofun
    · rw [e]; exact h2
  have hlast : ∀ x ∈ (KDTree.findDivisorA c s m).dropLast, KDTree.divides c x.1 (KDTree.ext c s m) = false := by
    rcases hcases with e | e
    · rw [e]; exact nofun
    · rw [e]; exact h3
  refine ⟨honce, ?_, ?_, ?_, ?_, ?_, ?_⟩
  · intro x hx hu
    have := KDTree.asks_mask (hmem x hx) hu
    rwa [once_ext hi honce x hx] at this
  · intro x hx
    rw [← hlast x hx, KDTree.divides_of_asks (hmem x (List.mem_of_mem_dropLast hx))]
    rfl
  · intro hne e he
    unfold KDTree.findDivisorA at hne
    split at hne
    · exact absurd rfl hne
    · rename_i ha
      rw [List.any_eq_true] at ha
      cases hd : c.dm.divides e m with
      | false => rfl
      | true => exact absurd ⟨e, he, hd⟩ ha
  · intro hc
    unfold KDTree.cacheA
    rw [hc]
  · unfold KDTree.cacheA
    split
    · cases s.tree.deref _ <;> simp
    · simp
  · intro d hd1 hd2
    have htree : KDTree.findDivisorA c s m = s.tree.findDivisorA c (KDTree.ext c s m) →
        KDTree.findDivisorTree (c.withDivides d) s m = KDTree.findDivisorTree c s m := by
      intro e
      have := h4 d (fun x hx => KDTree.divides_with_asks (h2 x hx) (hd2 x (by rw [e]; exact hx)))
      unfold KDTree.findDivisorTree
      rw [show KDTree.ext (c.withDivides d) s m = KDTree.ext c s m from rfl, this]
      rfl
    have htree' : (∀ e ∈ KDTree.cacheA c s, c.dm.divides e m = false) →
        KDTree.findDivisorTree (c.withDivides d) s m = KDTree.findDivisorTree c s m := by
      intro hn
      refine htree ?_
      unfold KDTree.findDivisorA
      rw [if_neg]
      intro ha
      obtain ⟨e, he, hd⟩ := List.any_eq_true.mp ha
      rw [hn e he] at hd
      cases hd
    unfold KDTree.findDivisor
    rw [show (c.withDivides d).useDivisorCache = c.useDivisorCache from rfl]
    unfold KDTree.cacheA at htree' hd1
    cases hc : c.useDivisorCache with
    | false => exact htree' (by simp [hc])
    | true =>
      cases hs : s.cache with
      | none => exact htree' (by simp [hc, hs])
      | some p =>
        simp only [hc, hs] at htree' hd1 ⊢
        cases hp : s.tree.deref p with
        | none => rfl
        | some e =>
          rw [hp] at htree' hd1
          have := hd1 e (by simp)
          simp only [show (c.withDivides d).dm.divides e m = d e m from rfl, this]
          cases hdv : c.dm.divides e m with
          | true => rfl
          | false => exact htree' (by simp [hdv])

/-- `findAllDivisors` asks about each entry once at most, and not if the masks answer the question. -/
theorem kdTree_findAllDivisors_asks {c : KDTree.Conf T} (hl : c.Lawful) {s : KDTree.State T}
    (h : KDTree.Reachable c s) (m : T) (proceed : List T → KDTree.Flow) :
    KDTree.Once s.tree (s.tree.findAllDivisorsA c (KDTree.ext c s m) proceed) ∧
    (∀ x ∈ s.tree.findAllDivisorsA c (KDTree.ext c s m) proceed, Pass c.dm s.bits c.useDivMask x.1.t m) ∧
    ∀ d : T → T → Bool,
      (∀ x ∈ s.tree.findAllDivisorsA c (KDTree.ext c s m) proceed, d x.1.t m = c.dm.divides x.1.t m) →
      KDTree.step (c.withDivides d) s (.findAllDivisors m proceed) = KDTree.step c s (.findAllDivisors m proceed) := by
  have hi := h.inv hl
  obtain ⟨h1, h2, h3⟩ := KDTree.tree_enumerate_asks hi.tree hi.tmp (k := .divisors (KDTree.ext c s m))
    (proceed := proceed) (q := fun e => c.dm.divides e m)
    (f := fun got a => a.findAllDivisors c (KDTree.ext c s m) proceed got)
    (g := fun got a => a.findAllDivisorsA c (KDTree.ext c s m) proceed got)
    (φ := fun e => KDTree.asks c e (KDTree.ext c s m) = true)
    (fun a got ha hn => KDTree.arr_findAllDivisors_eq hl hi.masks ha hn (KDTree.isExt_make m) proceed got)
    (fun got a => KDTree.arr_findAllDivisorsA_sublist _ _ _ _)
    (fun got a => KDTree.arr_findAllDivisorsA_mem _ _ _ _)
  refine ⟨h1, ?_, ?_⟩
  · intro x hx hu
    have := KDTree.asks_mask (h2 x hx) hu
    rwa [once_ext hi h1 x hx] at this
  · intro d hd
    rw [KDTree.step, KDTree.step, show KDTree.ext (c.withDivides d) s m = KDTree.ext c s m from rfl]
    congr 1
    exact h3 d _ (fun e => KDTree.divides (c.withDivides d) e (KDTree.ext c s m) = KDTree.divides c e (KDTree.ext c s m))
      (fun got a ha => KDTree.arr_findAllDivisors_agree ha)
      (fun x hx => KDTree.divides_with_asks (h2 x hx) (hd x hx))

/-- The same for `findAllMultiples`. -/
theorem kdTree_findAllMultiples_asks {c : KDTree.Conf T} (hl : c.Lawful) {s : KDTree.State T}
    (h : KDTree.Reachable c s) (m : T) (proceed : List T → KDTree.Flow) :
    KDTree.Once s.tree (s.tree.findAllMultiplesA c (KDTree.ext c s m) proceed) ∧
    (∀ x ∈ s.tree.findAllMultiplesA c (KDTree.ext c s m) proceed, Pass c.dm s.bits c.useDivMask m x.1.t) ∧
    ∀ d : T → T → Bool,
      (∀ x ∈ s.tree.findAllMultiplesA c (KDTree.ext c s m) proceed, d m x.1.t = c.dm.divides m x.1.t) →
      KDTree.step (c.withDivides d) s (.findAllMultiples m proceed) = KDTree.step c s (.findAllMultiples m proceed) := by
  have hi := h.inv hl
  obtain ⟨h1, h2, h3⟩ := KDTree.tree_enumerate_asks hi.tree hi.tmp (k := .multiples (KDTree.ext c s m))
    (proceed := proceed) (q := fun e => c.dm.divides m e)
    (f := fun got a => a.findAllMultiples c (KDTree.ext c s m) proceed got)
    (g := fun got a => a.findAllMultiplesA c (KDTree.ext c s m) proceed got)
    (φ := fun e => KDTree.asks c (KDTree.ext c s m) e = true)
    (fun a got ha hn => KDTree.arr_findAllMultiples_eq hl hi.masks ha hn (KDTree.isExt_make m) proceed got)
    (fun got a => KDTree.arr_findAllMultiplesA_sublist _ _ _ _)
    (fun got a => KDTree.arr_findAllMultiplesA_mem _ _ _ _)
  refine ⟨h1, ?_, ?_⟩
  · intro x hx hu
    have := KDTree.asks_mask (h2 x hx) hu
    rwa [once_ext hi h1 x hx] at this
  · intro d hd
    rw [KDTree.step, KDTree.step, show KDTree.ext (c.withDivides d) s m = KDTree.ext c s m from rfl]
    congr 1
    exact h3 d _ (fun e => KDTree.divides (c.withDivides d) (KDTree.ext c s m) e = KDTree.divides c (KDTree.ext c s m) e)
      (fun got a ha => KDTree.arr_findAllMultiples_agree ha)
      (fun x hx => KDTree.divides_with_asks (h2 x hx) (hd x hx))

/-- So no query has more questions than there are entries, and one more for the cache. -/
theorem kdTree_asks_few {t : KDTree.Tree T} {l : List (Ext T × KDTree.Ptr)} (h : KDTree.Once t l) :
    l.length ≤ t.contents.length := by
  have := h.subperm.length_le
  rwa [List.length_map] at this

/-! ## Each question matters, and enumerations stop when they are told to -/

/-- Each question decides the result: if the answer is yes for this entry alone, the entry is found, and is the first
that the enumerations put out. -/
theorem divList_questions_matter {c : DivList.Conf T} {s : DivList.State T} (m : T) (proceed : List T → Bool) :
    (∀ x ∈ DivList.findDivisorA c s m, ∀ d : T → T → Bool, (∀ e, d e m = true ↔ e = x.1.t) →
      DivList.findDivisor (c.withDivides d) s m = some (some x.1.t)) ∧
    (∀ x ∈ DivList.findAllDivisorsA c s m proceed, ∀ d : T → T → Bool, (∀ e, d e m = true ↔ e = x.1.t) →
      ∃ l, DivList.findAllDivisors (c.withDivides d) s m proceed = some (x.1.t :: l)) ∧
    ∀ x ∈ DivList.findAllMultiplesA c s m proceed, ∀ d : T → T → Bool, (∀ e, d m e = true ↔ e = x.1.t) →
      ∃ l, DivList.findAllMultiples (c.withDivides d) s m proceed = x.1.t :: l :=
  ⟨fun _ hx _ hd => DivList.findDivisor_hit hx hd, fun _ hx _ hd => DivList.findAllDivisors_hit hx hd,
    fun _ hx _ hd => DivList.findAllMultiples_hit hx hd⟩

/-- The enumerations put out the entries for which the answer is yes, and ask nothing after the output has said
that it wants no more. -/
theorem divList_enumerations_heed {c : DivList.Conf T} (hl : c.Lawful) {s : DivList.State T}
    (h : DivList.Reachable c s) (m : T) (proceed : List T → Bool) :
    DivList.findAllDivisors c s m proceed =
      some (hits (fun e => c.dm.divides e m) (DivList.findAllDivisorsA c s m proceed)) ∧
    Heeds (fun e => c.dm.divides e m) proceed [] (DivList.findAllDivisorsA c s m proceed) ∧
    DivList.findAllMultiples c s m proceed =
      hits (fun e => c.dm.divides m e) (DivList.findAllMultiplesA c s m proceed) ∧
    Heeds (fun e => c.dm.divides m e) proceed [] (DivList.findAllMultiplesA c s m proceed) := by
  have hp : ∀ e, DivList.asks c e (DivList.ext c s m) = true →
      DivList.divides c e (DivList.ext c s m) = (fun e => c.dm.divides e m) e.t := fun e he => DivList.divides_of_asks he
  have hq : ∀ e, DivList.asks c e (DivList.ext c s m) = false → DivList.divides c e (DivList.ext c s m) = false :=
    fun e he => DivList.divides_of_not he
  have hp' : ∀ e, DivList.asks c (DivList.ext c s m) e = true →
      DivList.divides c (DivList.ext c s m) e = (fun e => c.dm.divides m e) e.t := fun e he => DivList.divides_of_asks he
  have hq' : ∀ e, DivList.asks c (DivList.ext c s m) e = false → DivList.divides c (DivList.ext c s m) e = false :=
    fun e he => DivList.divides_of_not he
  have h1 : DivList.findAllDivisors c s m proceed =
        some (hits (fun e => c.dm.divides e m) (DivList.findAllDivisorsA c s m proceed)) ∧
      Heeds (fun e => c.dm.divides e m) proceed [] (DivList.findAllDivisorsA c s m proceed) := by
    have hsome : ∃ r, DivList.findAllDivisors c s m proceed = some r :=
      ⟨_, DivList.findAllDivisors_spec hl (h.inv hl) m proceed⟩
    unfold DivList.findAllDivisors DivList.findAllDivisorsA at *
    simp only at *
    split
    · exact ⟨by rw [divList_visit_hits (φ := fun e => c.dm.divides e m) hp hq _ _ 0, List.nil_append], visit_heeds hp hq _ _ _⟩
    · rename_i h1
      rw [if_neg h1] at hsome
      split
      · obtain ⟨g1, g2⟩ := sortedList_hits (φ := fun e => c.dm.divides e m) (go := proceed) (c := c)
          (m := DivList.ext c s m) rfl s.list 0 [] 0
        exact ⟨by rw [g2, List.nil_append], g1⟩
      · rename_i h2
        rw [if_neg h2] at hsome
        cases hu : DivList.upperBound (DivList.comparer c) s.list (DivList.ext c s m) with
        | none => rw [hu] at hsome; obtain ⟨r, hr⟩ := hsome; cases hr
        | some k => exact ⟨by simp only; rw [divList_visit_hits (φ := fun e => c.dm.divides e m) hp hq _ _ 0, List.nil_append], visit_heeds hp hq _ _ _⟩
  refine ⟨h1.1, h1.2, ?_, visit_heeds hp' hq' _ _ _⟩
  unfold DivList.findAllMultiples DivList.findAllMultiplesA
  rw [divList_visit_hits (φ := fun e => c.dm.divides m e) hp' hq' _ _ 0, List.nil_append]

/-- The same for trees, and for the question about the entry in the cache. -/
theorem kdTree_questions_matter {c : KDTree.Conf T} (hl : c.Lawful) {s : KDTree.State T}
    (h : KDTree.Reachable c s) (m : T) (proceed : List T → KDTree.Flow) :
    (∀ e ∈ KDTree.cacheA c s, ∀ d : T → T → Bool, d e m = true →
      KDTree.findDivisor (c.withDivides d) s m = .ok (.entry (some e), s)) ∧
    (∀ x ∈ KDTree.findDivisorA c s m, ∀ d : T → T → Bool, (∀ e, d e m = true ↔ e = x.1.t) →
      ∃ s', KDTree.findDivisor (c.withDivides d) s m = .ok (.entry (some x.1.t), s')) ∧
    (∀ x ∈ s.tree.findAllDivisorsA c (KDTree.ext c s m) proceed, ∀ d : T → T → Bool,
      (∀ e, d e m = true ↔ e = x.1.t) →
      ∃ l b s', KDTree.step (c.withDivides d) s (.findAllDivisors m proceed) = .ok (.got (x.1.t :: l) b, s')) ∧
    ∀ x ∈ s.tree.findAllMultiplesA c (KDTree.ext c s m) proceed, ∀ d : T → T → Bool,
      (∀ e, d m e = true ↔ e = x.1.t) →
      ∃ l b s', KDTree.step (c.withDivides d) s (.findAllMultiples m proceed) = .ok (.got (x.1.t :: l) b, s') := by
  have hi := h.inv hl
  refine ⟨?_, ?_, ?_, ?_⟩
  · intro e he d hd
    unfold KDTree.cacheA at he
    unfold KDTree.findDivisor
    rw [show (c.withDivides d).useDivisorCache = c.useDivisorCache from rfl]
    split at he
    · rename_i p hc hs
      simp only [hc, hs, Option.mem_toList.mp he]
      exact if_pos hd
    · cases he
  · intro x hx d hd
    have hx' : x ∈ s.tree.findDivisorA c (KDTree.ext c s m) := by
      unfold KDTree.findDivisorA at hx
      split at hx
      · cases hx
      · exact hx
    obtain ⟨p, h1, h2⟩ := KDTree.tree_findDivisor_hit (m := KDTree.ext c s m) hl hi.masks
      (KDTree.isExt_make m) hi.tree hi.tmp hx' hd
    have htree : ∃ s', KDTree.findDivisorTree (c.withDivides d) s m = .ok (.entry (some x.1.t), s') := by
      unfold KDTree.findDivisorTree
      rw [show KDTree.ext (c.withDivides d) s m = KDTree.ext c s m from rfl, h1]
      simp only [h2]
      exact ⟨_, rfl⟩
    unfold KDTree.findDivisor
    rw [show (c.withDivides d).useDivisorCache = c.useDivisorCache from rfl]
    split
    · rename_i q hc hs
      obtain ⟨e, he⟩ := hi.cache hc q hs
      simp only [he]
      split
      · rename_i hde
        rw [(hd e).mp hde]
        exact ⟨_, rfl⟩
      · exact htree
    · exact htree
  · intro x hx d hd
    obtain ⟨l, fl, t', e⟩ := (KDTree.tree_enumerate_matters hi.tree hi.tmp (k := .divisors (KDTree.ext c s m))
      (proceed := proceed) (φ := fun e => c.dm.divides e m) (q := fun e => KDTree.asks c e (KDTree.ext c s m))
      (p := fun e => KDTree.divides c e (KDTree.ext c s m)) (R := KDTree.leafRange c (KDTree.ext c s m))
      (f := fun got a => a.findAllDivisors c (KDTree.ext c s m) proceed got)
      (g := fun got a => a.findAllDivisorsA c (KDTree.ext c s m) proceed got)
      (fun e he => KDTree.divides_of_asks he) (fun e he => KDTree.divides_of_not he)
      (fun _ _ => KDTree.arr_findAllDivisors_range) (fun _ _ => KDTree.arr_findAllDivisorsA_range)
      (fun a ha hn => KDTree.leafRange_some hl hi.masks (KDTree.isExt_make m) ha hn)).2.2 x hx d _ _
      (fun e he => KDTree.hit_t (m := KDTree.ext c s m) hd he)
      (fun he => KDTree.hit_of (m := KDTree.ext c s m) hd he rfl)
      (fun _ _ => KDTree.arr_findAllDivisors_range (c := c.withDivides d))
    refine ⟨l, decide (fl = .threw), { s with tree := t' }, ?_⟩
    rw [KDTree.step, show KDTree.ext (c.withDivides d) s m = KDTree.ext c s m from rfl, KDTree.Tree.findAllDivisors, e]
    rfl
  · intro x hx d hd
    obtain ⟨l, fl, t', e⟩ := (KDTree.tree_enumerate_matters hi.tree hi.tmp (k := .multiples (KDTree.ext c s m))
      (proceed := proceed) (φ := fun e => c.dm.divides m e) (q := fun e => KDTree.asks c (KDTree.ext c s m) e)
      (p := fun e => KDTree.divides c (KDTree.ext c s m) e) (R := KDTree.leafAll c)
      (f := fun got a => a.findAllMultiples c (KDTree.ext c s m) proceed got)
      (g := fun got a => a.findAllMultiplesA c (KDTree.ext c s m) proceed got)
      (fun e he => KDTree.divides_of_asks he) (fun e he => KDTree.divides_of_not he)
      (fun _ _ => KDTree.arr_findAllMultiples_range) (fun _ _ => KDTree.arr_findAllMultiplesA_range)
      (fun a _ hn => KDTree.leafAll_some hn)).2.2 x hx d _ _
      (fun e he => KDTree.hit_t' (m := KDTree.ext c s m) hd he)
      (fun he => KDTree.hit_of' (m := KDTree.ext c s m) hd he rfl)
      (fun _ _ => KDTree.arr_findAllMultiples_range (c := c.withDivides d))
    refine ⟨l, decide (fl = .threw), { s with tree := t' }, ?_⟩
    rw [KDTree.step, show KDTree.ext (c.withDivides d) s m = KDTree.ext c s m from rfl, KDTree.Tree.findAllMultiples, e]
    rfl

/-- The same for trees. -/
theorem kdTree_enumerations_heed {c : KDTree.Conf T} (hl : c.Lawful) {s : KDTree.State T}
    (h : KDTree.Reachable c s) (m : T) (proceed : List T → KDTree.Flow) :
    (∃ b s', KDTree.step c s (.findAllDivisors m proceed) = .ok (.got (hits (fun e => c.dm.divides e m)
      (s.tree.findAllDivisorsA c (KDTree.ext c s m) proceed)) b, s')) ∧
    Heeds (fun e => c.dm.divides e m) (fun l => proceed l == .go) []
      (s.tree.findAllDivisorsA c (KDTree.ext c s m) proceed) ∧
    (∃ b s', KDTree.step c s (.findAllMultiples m proceed) = .ok (.got (hits (fun e => c.dm.divides m e)
      (s.tree.findAllMultiplesA c (KDTree.ext c s m) proceed)) b, s')) ∧
    Heeds (fun e => c.dm.divides m e) (fun l => proceed l == .go) []
      (s.tree.findAllMultiplesA c (KDTree.ext c s m) proceed) := by
  have hi := h.inv hl
  obtain ⟨⟨fl, t', e1⟩, e2, -⟩ := KDTree.tree_enumerate_matters hi.tree hi.tmp (k := .divisors (KDTree.ext c s m))
    (proceed := proceed) (φ := fun e => c.dm.divides e m) (q := fun e => KDTree.asks c e (KDTree.ext c s m))
    (p := fun e => KDTree.divides c e (KDTree.ext c s m)) (R := KDTree.leafRange c (KDTree.ext c s m))
    (f := fun got a => a.findAllDivisors c (KDTree.ext c s m) proceed got)
    (g := fun got a => a.findAllDivisorsA c (KDTree.ext c s m) proceed got)
    (fun e he => KDTree.divides_of_asks he) (fun e he => KDTree.divides_of_not he)
    (fun _ _ => KDTree.arr_findAllDivisors_range) (fun _ _ => KDTree.arr_findAllDivisorsA_range)
    (fun a ha hn => KDTree.leafRange_some hl hi.masks (KDTree.isExt_make m) ha hn)
  obtain ⟨⟨fl', t'', e3⟩, e4, -⟩ := KDTree.tree_enumerate_matters hi.tree hi.tmp (k := .multiples (KDTree.ext c s m))
    (proceed := proceed) (φ := fun e => c.dm.divides m e) (q := fun e => KDTree.asks c (KDTree.ext c s m) e)
    (p := fun e => KDTree.divides c (KDTree.ext c s m) e) (R := KDTree.leafAll c)
    (f := fun got a => a.findAllMultiples c (KDTree.ext c s m) proceed got)
    (g := fun got a => a.findAllMultiplesA c (KDTree.ext c s m) proceed got)
    (fun e he => KDTree.divides_of_asks he) (fun e he => KDTree.divides_of_not he)
    (fun _ _ => KDTree.arr_findAllMultiples_range) (fun _ _ => KDTree.arr_findAllMultiplesA_range)
    (fun a _ hn => KDTree.leafAll_some hn)
  refine ⟨⟨decide (fl = .threw), { s with tree := t' }, ?_⟩, e2, ⟨decide (fl' = .threw), { s with tree := t'' }, ?_⟩, e4⟩
  · rw [KDTree.step, KDTree.Tree.findAllDivisors, e1]
    rfl
  · rw [KDTree.step, KDTree.Tree.findAllMultiples, e3]
    rfl

/-! ## Examples -/

/-- The entries that `findDivisor` of a list asks about after a history. -/
def listAsked (c : DivList.Conf (List ℤ)) (ops : List (DivList.Op (List ℤ))) (m : List ℤ) : Option (List (List ℤ × ℕ)) :=
  (DivList.init c).bind (fun s => (DivList.run c s ops).map (fun r =>
    (DivList.findDivisorA c r.2 m).map (fun x => (x.1.t, x.2))))

-- all entries up to the first divisor, without masks and order
#guard listAsked (DivList.exConf 2 false false false) [.insert [2, 1], .insert [0, 3], .insert [1, 1], .insert [0, 0]] [1, 2] ==
  some [([2, 1], 0), ([0, 3], 1), ([1, 1], 2)]
-- masks answer two of the questions
#guard listAsked (DivList.exConf 2 false true false)
  [.insert [2, 1], .insert [0, 3], .insert [1, 1], .insert [0, 0], .rebuild] [1, 2] == some [([1, 1], 2)]
-- a sorted array: entries of larger degree are not asked about
#guard listAsked (DivList.exConf 2 false false true) [.insert [2, 1], .insert [0, 3], .insert [1, 1], .insert [4, 0]] [1, 0] ==
  some []
-- a sorted linked list: they are, there are fewer than 35
#guard listAsked (DivList.exConf 2 true false true) [.insert [2, 1], .insert [0, 3], .insert [1, 1], .insert [4, 0]] [1, 0] ==
  some [([1, 1], 0), ([2, 1], 1), ([0, 3], 2), ([4, 0], 3)]

/-- The entries that `findDivisor` of a tree asks about after a history, beside the entries and the
cache. -/
def treeAsked (c : KDTree.Conf (List ℕ)) (ops : List (KDTree.Op (List ℕ))) (m : List ℕ) :
    Option (List (List ℕ) × List (List ℕ) × List (List ℕ)) :=
  match KDTree.init c with
  | none => none
  | some s =>
    match KDTree.run c s ops with
    | .ok (_, s') => some (s'.contents, KDTree.cacheA c s', (KDTree.findDivisorA c s' m).map (fun x => x.1.t))
    | _ => none

-- half of the tree has too large exponents
#guard treeAsked { KDTree.exConf true false false 2 with useDivMask := false, useTreeDivMask := false }
  [.insert [1, 2], .insert [5], .insert [3, 1], .insert [7]] [2, 2] ==
  some ([[1, 2], [3, 1], [5], [7]], [], [[1, 2]])

/-- A history that is evaluated gives a reachable state. -/
theorem reachable_of_treeAsked {c : KDTree.Conf (List ℕ)} {ops : List (KDTree.Op (List ℕ))} {m : List ℕ}
    {l a b : List (List ℕ)} (hops : ∀ op ∈ ops, op.NoThrow ∧ op.ElementOk c) (h : treeAsked c ops m = some (l, a, b)) :
    ∃ s, KDTree.Reachable c s ∧ s.contents = l ∧ KDTree.cacheA c s = a ∧
      (KDTree.findDivisorA c s m).map (fun x => x.1.t) = b := by
  unfold treeAsked at h
  split at h
  · cases h
  · rename_i s₀ h0
    split at h
    · rename_i rs s hr
      simp only [Option.some.injEq, Prod.mk.injEq] at h
      exact ⟨s, ⟨s₀, ops, rs, h0, hops, hr⟩, h.1, h.2.1, h.2.2⟩
    · cases h

/-- With the cache an entry may be asked about twice: the entry in the cache does not divide, and the search in the
tree comes to it again. -/
theorem cache_asked_twice : ∃ (c : KDTree.Conf (List ℕ)) (s : KDTree.State (List ℕ)) (m : List ℕ),
    c.Lawful ∧ KDTree.Reachable c s ∧ s.contents = [[200]] ∧
    KDTree.cacheA c s = [[200]] ∧ (KDTree.findDivisorA c s m).map (fun x => x.1.t) = [[200]] := by
  obtain ⟨s, h⟩ := reachable_of_treeAsked (c := KDTree.exConf true true false 2)
    (ops := [.insert [200], .findDivisor [300]]) (m := [199, 9]) (l := [[200]]) (a := [[200]]) (b := [[200]])
    (by simp [KDTree.Op.NoThrow, KDTree.Op.ElementOk]) (by decide +kernel)
  exact ⟨_, s, [199, 9], KDTree.exConf_lawful _ _ _ (by decide), h⟩

/-- The hypotheses are met in a tree with a split: the answers to all questions but one do not matter. -/
example : ∃ s, KDTree.Reachable (KDTree.exConf false false false 2) s ∧ s.contents = [[1, 2], [3, 1], [5], [7]] ∧
    KDTree.findDivisor ((KDTree.exConf false false false 2).withDivides (fun a _ => a == [1, 2])) s [2, 2] =
      KDTree.findDivisor (KDTree.exConf false false false 2) s [2, 2] := by
  obtain ⟨s, h1, h2, h3, h4⟩ := reachable_of_treeAsked (c := KDTree.exConf false false false 2)
    (ops := [.insert [1, 2], .insert [5], .insert [3, 1], .insert [7]]) (m := [2, 2])
    (l := [[1, 2], [3, 1], [5], [7]]) (a := []) (b := [[1, 2]])
    (by simp [KDTree.Op.NoThrow, KDTree.Op.ElementOk]) (by decide +kernel)
  refine ⟨s, h1, h2, ?_⟩
  refine (kdTree_findDivisor_asks (KDTree.exConf_lawful _ _ _ (by decide)) h1 [2, 2]).2.2.2.2.2.2 _ ?_ ?_
  · rw [h3]; nofun
  · intro x hx
    have : x.1.t ∈ (KDTree.findDivisorA (KDTree.exConf false false false 2) s [2, 2]).map (fun x => x.1.t) :=
      List.mem_map.mpr ⟨x, hx, rfl⟩
    rw [h4, List.mem_singleton] at this
    rw [this]
    decide +kernel

/-- The entries that `findAllDivisors` of a tree asks about after a history, beside the entries. -/
def treeEnumerated (c : KDTree.Conf (List ℕ)) (ops : List (KDTree.Op (List ℕ))) (m : List ℕ)
    (proceed : List (List ℕ) → KDTree.Flow) : Option (List (List ℕ) × List (List ℕ)) :=
  match KDTree.init c with
  | none => none
  | some s =>
    match KDTree.run c s ops with
    | .ok (_, s') =>
      some (s'.contents, (s'.tree.findAllDivisorsA c (KDTree.ext c s' m) proceed).map (fun x => x.1.t))
    | _ => none

/-- An output that stops after two entries: the tree has three divisors of the query, and two are asked about. -/
example : ∃ s, KDTree.Reachable (KDTree.exConf true false false 2) s ∧ s.contents = [[1, 2], [3, 1], [5]] ∧
    (s.tree.findAllDivisorsA (KDTree.exConf true false false 2) (KDTree.ext (KDTree.exConf true false false 2) s [9, 9])
      (fun l => if l.length < 2 then .go else .stop)).map (fun x => x.1.t) = [[1, 2], [3, 1]] := by
  have key : treeEnumerated (KDTree.exConf true false false 2) [.insert [1, 2], .insert [5], .insert [3, 1]] [9, 9]
      (fun l => if l.length < 2 then .go else .stop) = some ([[1, 2], [3, 1], [5]], [[1, 2], [3, 1]]) := by
    decide +kernel
  unfold treeEnumerated at key
  split at key
  · cases key
  · rename_i s₀ h0
    split at key
    · rename_i rs s hr
      simp only [Option.some.injEq, Prod.mk.injEq] at key
      exact ⟨s, ⟨s₀, _, rs, h0, by simp [KDTree.Op.NoThrow, KDTree.Op.ElementOk], hr⟩, key⟩
    · cases key

end Verif.Ask
