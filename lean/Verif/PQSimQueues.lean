import Verif.PQSimProofs
import Verif.GeoCountProofs
import Verif.PropHeap
import Verif.PropTourTree
import Verif.PropStlSet
import Verif.PropGeobucket

/-!
# Helper lemmas: the queues of mathic do what the models of the simulator need
-/

namespace Verif.PQSim

/-! ## The configurations -/

theorem value_lt (d : Bool) (a b : ℕ) : (valueConf d).lt a b = decide (a < b) := by
  show (compareValue a b == .less) = _
  unfold compareValue
  split
  · rename_i h; simp [h]
  · rename_i h; split <;> simp only [h, decide_false] <;> rfl

theorem value_eq (d : Bool) (a b : ℕ) : (valueConf d).eq a b = decide (a = b) := by
  show (compareValue a b == .equal) = _
  unfold compareValue
  split
  · have : a ≠ b := by omega
    simp [this]
  · split
    · have : a ≠ b := by omega
      simp [this]
    · have : a = b := by omega
      simp [this]

theorem item_lt (d : Bool) (a b : Item) : (itemConf d).lt a b = decide (a.value < b.value) := by
  show (a.compare b == .less) = _
  unfold Item.compare
  split
  · rename_i h; simp [h]
  · rename_i h; split <;> simp only [h, decide_false] <;> rfl

theorem item_eq (d : Bool) (a b : Item) : (itemConf d).eq a b = decide (a.value = b.value) := by
  show (a.compare b == .equal) = _
  unfold Item.compare
  split
  · have : a.value ≠ b.value := by omega
    simp [this]
  · split
    · have : a.value ≠ b.value := by omega
      simp [this]
    · have : a.value = b.value := by omega
      simp [this]

theorem value_weak (d : Bool) : StrictWeak (valueConf d).lt := by
  constructor <;> intros <;> simp_all only [value_lt, decide_eq_true_eq, decide_eq_false_iff_not] <;> omega

theorem item_weak (d : Bool) : StrictWeak (itemConf d).lt := by
  constructor <;> intros <;> simp_all only [item_lt, decide_eq_true_eq, decide_eq_false_iff_not] <;> omega

theorem value_lawful (d : Bool) : (valueConf d).Lawful := by
  refine ⟨value_weak d, ?_, fun _ _ _ _ => rfl, fun _ _ _ _ => rfl⟩
  intro a b
  rw [value_lt, value_lt, value_eq, Bool.eq_iff_iff]
  simp
  omega

theorem item_lawful (d : Bool) : (itemConf d).Lawful := by
  refine ⟨item_weak d, ?_, fun _ _ _ _ => rfl, fun _ _ _ _ => rfl⟩
  intro a b
  rw [item_lt, item_lt, item_eq, Bool.eq_iff_iff]
  simp
  omega

theorem value_ge {d : Bool} {a b : ℕ} (h : (valueConf d).lt a b = false) : b ≤ a := by
  rw [value_lt, decide_eq_false_iff_not] at h
  omega

theorem item_ge {d : Bool} {a b : Item} (h : (itemConf d).lt a b = false) : b.value ≤ a.value := by
  rw [item_lt, decide_eq_false_iff_not] at h
  omega

/-! ## Sets as weights -/

/-- Finite sets of values under union. -/
@[ext] structure VSet where
  s : Finset ℕ

instance : Add VSet := ⟨fun a b => ⟨a.s ∪ b.s⟩⟩
instance : Zero VSet := ⟨⟨∅⟩⟩

instance : AddCommMonoid VSet where
  add_assoc a b c := VSet.ext (Finset.union_assoc _ _ _)
  zero_add a := VSet.ext (Finset.empty_union _)
  add_zero a := VSet.ext (Finset.union_empty _)
  add_comm a b := VSet.ext (Finset.union_comm _ _)
  nsmul := nsmulRec

theorem VSet.add_s (a b : VSet) : (a + b).s = a.s ∪ b.s := rfl
theorem VSet.zero_s : (0 : VSet).s = ∅ := rfl

/-- The weight of a value. -/
def vset (v : ℕ) : VSet := ⟨{v}⟩

theorem vset_weight (d : Bool) : (valueConf d).Weight vset := by
  intro _ a b h
  rw [value_eq, decide_eq_true_eq] at h
  subst h
  exact VSet.ext (Finset.union_self _).symm

theorem mem_wsum (l : List ℕ) (v : ℕ) : v ∈ (wsum vset l).s ↔ v ∈ l := by
  induction l with
  | nil => rw [wsum_nil, VSet.zero_s]; simp
  | cons a l ih =>
    rw [wsum_cons, VSet.add_s, Finset.mem_union, ih, List.mem_cons]
    simp [vset]

/-! ## On elements -/

theorem map_top_eq {E S : Type} {o : Option E} {s s' : S} {p : Option E}
    (h : o.map (fun x => (some x, s)) = some (p, s')) : s' = s := by
  rw [Option.map_eq_some_iff] at h
  obtain ⟨x, _, h⟩ := h
  cases h
  rfl

theorem map_pair_eq {E S : Type} {o : Option (E × S)} {s' : S} {p : Option E}
    (h : o.map (fun r => (some r.1, r.2)) = some (p, s')) : ∃ r, o = some r ∧ s' = r.2 := by
  rw [Option.map_eq_some_iff] at h
  obtain ⟨x, h1, h⟩ := h
  cases h
  exact ⟨x, h1, rfl⟩

theorem ElemGood.of_inv {I : PQImpl ℕ} {Inv : I.State → Prop} {mem : ℕ → List ℕ → Prop}
    {allowed : PQOp ℕ → Prop} {d : Bool} (h : I.InvCorrect Inv mem allowed (valueConf d).lt vset)
    (hmem : ∀ x l, mem x l → x ∈ l)
    (hpush : ∀ l : List ℕ, l ≠ [] → l.Pairwise (fun a b => b ≤ a) → allowed (.pushRange l))
    (htop : allowed .top) (hpop : allowed .pop)
    (hlt : ∀ s o s', Inv s → I.step s .top = some (o, s') → (I.entries s').length ≤ (I.entries s).length)
    (hlp : ∀ s o s', Inv s → I.entries s ≠ [] → I.step s .pop = some (o, s') → Inv s' →
      (I.entries s').length < (I.entries s).length) : ElemGood I Inv := by
  refine ⟨h.init, h.start, h.empty, fun s hs he => h.undef s .top hs trivial he, ?_, ?_, ?_⟩
  · intro s l hs hl hsort
    obtain ⟨o, s', h1, h2, h3, _⟩ := h.step s (.pushRange l) hs (hpush l hl hsort) (fun hn => hn.elim)
    cases h3 with
    | pushRange hw =>
      refine ⟨s', h1, h2, ?_⟩
      intro v
      rw [← mem_wsum, hw, VSet.add_s, Finset.mem_union, mem_wsum, mem_wsum]
  · intro s hs hne
    obtain ⟨o, s', h1, h2, h3, _⟩ := h.step s .top hs htop (fun _ => hne)
    cases h3 with
    | @top _ x hx hw hm =>
      refine ⟨x, s', h1, h2, hmem _ _ hx.1, fun y hy => value_ge (hx.2 y hy), ?_, hlt s _ s' hs h1⟩
      intro v
      rw [← mem_wsum, hw, mem_wsum]
  · intro s hs hne
    obtain ⟨o, s', h1, h2, h3, _⟩ := h.step s .pop hs hpop (fun _ => hne)
    cases h3 with
    | @pop _ x hx hw =>
      refine ⟨x, s', h1, h2, hmem _ _ hx.1, fun y hy => value_ge (hx.2 y hy), ?_, hlp s _ s' hs hne h1 h2⟩
      intro v
      rw [← mem_wsum, ← hw, VSet.add_s, Finset.mem_union, mem_wsum, or_comm]
      simp [vset]

theorem heap_elem (d : Bool) : ElemGood (Heap.impl (valueConf d)) (Heap.IsHeap (valueConf d)) := by
  refine ElemGood.of_inv (Heap.heap_inv _ (value_lawful d) vset (vset_weight d)) (fun _ _ h => h)
    (fun _ _ _ => trivial) trivial trivial ?_ ?_
  · intro s o s' _ h
    rw [map_top_eq (o := Heap.top s) h]
  · intro s o s' hs hne h _
    have hl : List.length s ≠ 0 := fun h0 => hne (List.length_eq_zero_iff.mp h0)
    obtain ⟨x, hx⟩ := rd_exists (t := s) (i := 1) (le_refl _) (by omega)
    obtain ⟨t', h1, _, _, h4⟩ := Heap.pop_gen (value_lawful d) (vset_weight d) hs x hx
    change (Heap.pop (valueConf d) s).map _ = _ at h
    rw [h1] at h
    cases h
    exact h4

theorem stlSet_elem : ElemGood (StlSet.impl (valueConf false)) (Descending (valueConf false).lt) := by
  refine ElemGood.of_inv (StlSet.stlSet_inv _ (value_weak false) vset) (fun _ _ h => h)
    (fun _ _ _ => trivial) trivial trivial ?_ ?_
  · intro s o s' _ h
    rw [map_top_eq (o := StlSet.top s) h]
  · intro s o s' hs hne h _
    change (StlSet.pop s).map _ = _ at h
    change s ≠ [] at hne
    cases s with
    | nil => exact absurd rfl hne
    | cons x l =>
      cases h
      exact Nat.lt_succ_self _

theorem tourTree_elem : ElemGood (TourTree.impl (valueConf false)) (TourTree.Inv (valueConf false)) := by
  have hm := TourTree.tourTree_inv (valueConf false) (value_weak false) (fun e => ({e} : Multiset ℕ))
  refine ElemGood.of_inv (TourTree.tourTree_inv _ (value_weak false) vset) (fun _ _ h => h)
    (fun _ _ _ => trivial) trivial trivial ?_ ?_
  · intro s o s' hs h
    by_cases he : (TourTree.impl (valueConf false)).entries s = []
    · rw [hm.undef s .top hs trivial he] at h
      cases h
    · obtain ⟨o', s₁, h1, _, h3, _⟩ := hm.step s .top hs trivial (fun _ => he)
      rw [h1] at h
      cases h
      cases h3 with
      | top hx hw hm => exact le_of_eq (perm_of_wsum hw).length_eq
  · intro s o s' hs hne h _
    obtain ⟨o', s₁, h1, _, h3, _⟩ := hm.step s .pop hs trivial (fun _ => hne)
    rw [h1] at h
    cases h
    cases h3 with
    | @pop _ x hx hw =>
      rw [add_comm, ← wsum_cons] at hw
      have := (perm_of_wsum hw).length_eq
      rw [List.length_cons] at this
      omega

/-- The sizes that a geobucket needs (src/mathic/Geobucket.h:48-57). -/
def GeoParams.Sane (g : GeoParams) : Prop := 1 ≤ g.minBucketSize ∧ 2 ≤ g.geoBase ∧ 1 ≤ g.insertFactor

theorem GeoParams.Sane.conf {E : Type} {g : GeoParams} (h : g.Sane) (c : PQConf E) : Geobucket.Sane (g.conf c) :=
  ⟨h.1, h.2.1, h.2.2⟩

theorem geo_elem (d : Bool) (g : GeoParams) (hg : g.Sane) :
    ElemGood (Geobucket.impl (g.conf (valueConf d)))
      (fun s => Geobucket.Inv (g.conf (valueConf d)) vset (wsum vset (Geobucket.flat s.buckets)) s) := by
  have hi := Geobucket.geobucket_inv (g.conf (valueConf d)) (hg.conf _) (value_lawful d) vset (vset_weight d)
  refine ElemGood.of_inv hi ?_ ?_ trivial trivial ?_ ?_
  · intro x l hx
    unfold Geobucket.geoMem at hx
    split at hx
    · obtain ⟨y, hy, h1, h2⟩ := hx
      have h1 := value_ge (d := d) h1
      have h2 := value_ge (d := d) h2
      rw [show x = y by omega]
      exact hy
    · exact hx
  · intro l hl hs
    refine ⟨hs.imp ?_, fun _ => hl⟩
    intro a b hab
    show (valueConf d).lt a b = false
    rw [value_lt, decide_eq_false_iff_not]
    omega
  · intro s o s' hs h
    by_cases he : (Geobucket.impl (g.conf (valueConf d))).entries s = []
    · rw [hi.undef s .top hs trivial he] at h
      cases h
    · obtain ⟨o', s₁, h1, h2, _⟩ := hi.step s .top hs trivial (fun _ => he)
      rw [h1] at h
      have e : s₁ = s' := by cases h; rfl
      subst e
      rw [← hi.size s hs, ← hi.size s₁ h2]
      obtain ⟨r, h4, h5⟩ := map_pair_eq (o := Geobucket.top (g.conf (valueConf d)) s) h1
      rw [h5]
      exact Geobucket.top_count h4
  · intro s o s' hs hne h h2
    have h0 := List.length_pos_iff.mpr hne
    rw [← hi.size s hs] at h0 ⊢
    rw [← hi.size s' h2]
    obtain ⟨r, h4, h5⟩ := map_pair_eq (o := Geobucket.pop (g.conf (valueConf d)) s) h
    rw [h5]
    have := Geobucket.pop_count h4
    change 0 < s.count at h0
    show r.2.count < s.count
    omega

/-! ## On spans -/

theorem SpanGood.ofPQ {I : PQImpl Item} {Inv : I.State → Prop} {mem : Item → List Item → Prop}
    {allowed : PQOp Item → Prop} {d dec : Bool}
    (h : I.InvCorrect Inv mem allowed (itemConf d).lt (fun e => ({e} : Multiset Item)))
    (hmem : ∀ x l, mem x l → x ∈ l) (hpush : ∀ e, allowed (.push e)) (htop : allowed .top)
    (hpop : allowed .pop)
    (hdec : dec = true → (∀ e, allowed (.decreaseTop e)) ∧ ∀ s o s', I.step s .top = some (o, s') → s' = s) :
    SpanGood (.ofPQ I) Inv false dec := by
  have conv : ∀ {l m : List Item}, wsum (fun e => ({e} : Multiset Item)) l = wsum (fun e => ({e} : Multiset Item)) m →
      (l : Multiset Item) = m := fun h => Multiset.coe_eq_coe.mpr (perm_of_wsum h)
  have split : ∀ {x : Item} {l m : List Item}, wsum (fun e => ({e} : Multiset Item)) l + {x} =
      wsum (fun e => ({e} : Multiset Item)) m → (m : Multiset Item) = x ::ₘ (l : Multiset Item) := by
    intro x l m h
    rw [wsum_singleton, wsum_singleton, add_comm, Multiset.singleton_add] at h
    exact h.symm
  refine ⟨h.init, h.start, h.empty, ?_, ?_, ?_, ?_, ?_⟩
  · intro s hs he
    show (I.step s .top).map _ = none
    rw [h.undef s .top hs trivial he]
    rfl
  · intro s e hs
    obtain ⟨o, s', h1, h2, h3, _⟩ := h.step s (.push e) hs (hpush e) (fun hn => hn.elim)
    cases h3 with
    | push hw =>
      refine ⟨s', [], ?_, h2, ?_, fun _ => rfl⟩
      · show (I.step s (.push e)).map _ = _
        rw [h1]
        rfl
      · have : (e ::ₘ (I.entries s : Multiset Item)) = (I.entries s' : Multiset Item) := by
          rw [← split hw.symm]
        show Absorbs (e ::ₘ (I.entries s : Multiset Item)) [] (I.entries s' : Multiset Item)
        rw [this]
        exact Absorbs.refl _
  · intro s hs hne
    obtain ⟨o, s', h1, h2, h3, _⟩ := h.step s .top hs htop (fun _ => hne)
    cases h3 with
    | @top _ x hx hw hm =>
      refine ⟨x, s', ?_, h2, perm_of_wsum hw, hmem _ _ hx.1, fun y hy => item_ge (hx.2 y hy)⟩
      show (I.step s .top).map _ = _
      rw [h1]
      rfl
  · intro _ s hs hne
    obtain ⟨o, s', h1, h2, h3, _⟩ := h.step s .pop hs hpop (fun _ => hne)
    cases h3 with
    | @pop _ x hx hw =>
      refine ⟨x, s', [], (I.entries s' : Multiset Item), ?_, h2, split hw, fun y hy => item_ge (hx.2 y hy),
        Absorbs.refl _, fun _ => rfl⟩
      show (I.step s .pop).map _ = _
      rw [h1]
      rfl
  · intro hd s hs hne
    obtain ⟨hda, hds⟩ := hdec hd
    obtain ⟨o, s', h1, h2, h3, h4⟩ := h.step s .top hs htop (fun _ => hne)
    have := hds s o s' h1
    subst this
    cases h3 with
    | @top _ x hx hw hm =>
      have h4 : some x = I.top s' := h4
      obtain ⟨o, s₁, k1, k2, k3, k4⟩ := h.step s' .pop hs hpop (fun _ => hne)
      cases k3 with
      | @pop _ x' hx' hw' =>
        have k4 : some x' = I.top s' := k4
        rw [← h4] at k4
        cases k4
        refine ⟨x, (I.entries s₁ : Multiset Item), ?_, split hw', fun y hy => item_ge (hx.2 y hy),
          ⟨some x, s₁, [], ?_, k2, Absorbs.refl _, fun _ => rfl⟩, ?_⟩
        · show (I.step s' .top).map _ = _
          rw [h1]
          rfl
        · show (I.step s' .pop).map _ = _
          rw [k1]
          rfl
        · intro e
          obtain ⟨o, s₂, j1, j2, j3, y, j4, j5, j6⟩ := h.step s' (.decreaseTop e) hs (hda e) (fun _ => hne)
          rw [← h4] at j4
          cases j4
          cases j3 with
          | decreaseTop _ _ =>
            refine ⟨s₂, [], ?_, j2, ?_, fun _ => rfl⟩
            · show (I.step s' (.decreaseTop e)).map _ = _
              rw [j1]
              rfl
            · have e1 : (e ::ₘ (I.entries s₁ : Multiset Item)) = (I.entries s₂ : Multiset Item) := by
                rw [wsum_singleton, wsum_singleton, split hw'] at j6
                rw [← Multiset.singleton_add x, ← Multiset.singleton_add e] at *
                apply add_right_cancel (b := {x})
                rw [j6]
                ac_rfl
              show Absorbs (e ::ₘ (I.entries s₁ : Multiset Item)) [] (I.entries s₂ : Multiset Item)
              rw [e1]
              exact Absorbs.refl _

theorem stlSet_span : SpanGood (.ofPQ (StlSet.impl (itemConf false))) (Descending (itemConf false).lt) false false :=
  SpanGood.ofPQ (StlSet.stlSet_inv _ (item_weak false) _) (fun _ _ h => h) (fun _ => trivial) trivial trivial
    (fun h => by cases h)

theorem tourTree_span : SpanGood (.ofPQ (TourTree.impl (itemConf false))) (TourTree.Inv (itemConf false)) false true := by
  refine SpanGood.ofPQ (TourTree.tourTree_inv _ (item_weak false) _) (fun _ _ h => h) (fun _ => trivial) trivial
    trivial (fun _ => ⟨fun _ => trivial, ?_⟩)
  intro s o s' h
  exact map_top_eq (o := TourTree.top s) h

theorem geo_span (g : GeoParams) (hg : g.Sane) :
    SpanGood (.ofPQ (Geobucket.impl (g.conf (itemConf false))))
      (fun s => Geobucket.Inv (g.conf (itemConf false)) (fun e => ({e} : Multiset Item))
        (wsum (fun e => ({e} : Multiset Item)) (Geobucket.flat s.buckets)) s) false false := by
  refine SpanGood.ofPQ (Geobucket.geobucket_inv (g.conf (itemConf false)) (hg.conf _) (item_lawful false) _
    (fun h => by cases h)) ?_ (fun _ => trivial) trivial trivial (fun h => by cases h)
  intro x l hx
  exact hx

theorem Absorbs.of_merges {d : Bool} {t t' : Multiset Item} {log : List (Item × Item)}
    (h : Heap.Merges (itemConf d) t log t') : Absorbs t log t' ∧ (d = false → log = []) := by
  induction h with
  | nil => exact ⟨Absorbs.refl _, fun _ => rfl⟩
  | @cons r m' u v log hd heq _ ih =>
    obtain ⟨ih, _⟩ := ih
    rw [item_eq, decide_eq_true_eq] at heq
    refine ⟨⟨?_, ?_⟩, fun hf => by subst hf; cases hd⟩
    · have hp := ih.perm
      change u ::ₘ r = _ at hp
      rw [Multiset.cons_swap, hp, List.map_cons, ← Multiset.cons_coe, Multiset.add_cons]
    · intro x hx
      rcases Multiset.mem_cons.mp hx with rfl | hx
      · exact ih.same x (Multiset.mem_cons_self _ _)
      · rcases Multiset.mem_cons.mp hx with rfl | hx
        · obtain ⟨y, hy, e⟩ := ih.same u (Multiset.mem_cons_self _ _)
          exact ⟨y, hy, e.trans heq⟩
        · exact ih.same x (Multiset.mem_cons_of_mem hx)

theorem heap_span (d : Bool) : SpanGood (.heap (itemConf d)) (Heap.IsHeap (itemConf d)) d true := by
  have hc := item_lawful d
  have first : ∀ s : List Item, s ≠ [] → ∃ x, rd s 1 = some x := by
    intro s hne
    have hl := List.length_pos_iff.mpr hne
    exact rd_exists (t := s) (i := 1) (le_refl _) hl
  have max : ∀ (s : List Item) x, Heap.IsHeap (itemConf d) s → rd s 1 = some x →
      ∀ y ∈ s, y.value ≤ x.value := by
    intro s x hs hx y hy
    obtain ⟨i, hi⟩ := mem_rd hy
    exact item_ge (hs.max hc hx i y hi)
  refine ⟨Heap.isHeap_nil, rfl, ?_, ?_, ?_, ?_, (fun h => by cases h), ?_⟩
  · intro s _
    show (List.length s == 0) = true ↔ s = []
    rw [beq_iff_eq]
    exact List.length_eq_zero_iff
  · intro s _ he
    change s = [] at he
    subst he
    rfl
  · intro s e hs
    obtain ⟨t', log, h1, h2, h3⟩ := Heap.pushL_spec hc hs e
    refine ⟨t', log, ?_, h2, Absorbs.of_merges h3⟩
    show (Heap.pushL (itemConf d) s e).map _ = _
    rw [h1]
    rfl
  · intro s hs hne
    obtain ⟨x, hx⟩ := first s hne
    refine ⟨x, s, ?_, hs, List.Perm.refl _, rd_mem hx, max s x hs hx⟩
    show (rd s 1).map _ = _
    rw [hx]
    rfl
  · intro _ s hs hne
    obtain ⟨x, hx⟩ := first s hne
    refine ⟨x, _, ?_, Heap.perm_of_rd hx, max s x hs hx, ?_, ?_⟩
    · show (rd s 1).map _ = _
      rw [hx]
      rfl
    · obtain ⟨t', log, h1, h2, h3⟩ := Heap.popL_spec hc hs x hx
      refine ⟨some x, t', log, ?_, h2, Absorbs.of_merges (h3 _ (Heap.perm_of_rd hx))⟩
      show (Heap.popL (itemConf d) s).map _ = _
      rw [h1]
      rfl
    · intro e
      obtain ⟨t', log, h1, h2, h3⟩ := Heap.decreaseTopL_spec hc hs e x hx
      refine ⟨t', log, ?_, h2, Absorbs.of_merges (h3 _ (Heap.perm_of_rd hx))⟩
      show (Heap.decreaseTopL (itemConf d) s e).map _ = _
      rw [h1]
      rfl

end Verif.PQSim
