import Verif.GeoInsertProofs
import Mathlib.Algebra.Group.Pi.Basic

/-!
# Helper lemmas about the calls of a `Geobucket`
-/

namespace Verif.Geobucket

variable {E M : Type} [AddCommMonoid M] {c : Conf E}

/-- The invariant between calls. -/
structure Inv (c : Conf E) (w : E → M) (T : M) (s : State E) : Prop where
  good : Good c w T [] s
  cache : CacheOk c s

theorem Uncached.cache {s : State E} (h : Uncached c s) : CacheOk c s := by
  intro ht m hm
  rw [h ht] at hm
  cases hm

theorem Inv.total {w : E → M} {T : M} {s : State E} (h : Inv c w T s) : wsum w (flat s.buckets) = T := by
  have := h.good.data.weight
  simpa using this

theorem Inv.self {w : E → M} {T : M} {s : State E} (h : Inv c w T s) : Inv c w (wsum w (flat s.buckets)) s := by
  rw [h.total]
  exact h

theorem Data.arrive {w : E → M} {bs : List (Bucket E)} {n : ℕ} {T : M} (h : Data c w bs n [] T) (l : List E) :
    Data c w bs (n + l.length) l (T + wsum w l) := by
  refine ⟨h.caps, h.ok, ?_, ?_⟩
  · have := h.count
    rw [List.length_nil] at this
    omega
  · have := h.weight
    simp at this
    rw [this]

/-! ## Changes that keep the order of the buckets -/

theorem FrontOk.same {bs bs' : List (Bucket E)} {f : Front} (h : FrontOk c bs f) (hlen : bs'.length = bs.length)
    (hs : ∀ j, SameLast c (esAt bs' j) (esAt bs j)) (hn : ∀ j, esAt bs' j = [] ↔ esAt bs j = []) :
    FrontOk c bs' f := by
  intro ht
  obtain ⟨live, hf⟩ := h ht
  refine ⟨live, hf.link, hf.len.trans hlen.symm, ?_, hf.ord.imp (fun h => geK_same (hs _) (hs _) h)⟩
  intro b
  rw [hf.mem, Ne, Ne, hn]

theorem CacheOk.same {s s' : State E} (h : CacheOk c s) (hf : s'.front = s.front)
    (hs : ∀ j, SameLast c (esAt s'.buckets j) (esAt s.buckets j))
    (hn : ∀ j, esAt s'.buckets j = [] ↔ esAt s.buckets j = []) : CacheOk c s' := by
  intro ht m hm
  rw [hf] at hm
  obtain ⟨h1, h2⟩ := h ht m hm
  exact ⟨by rw [Ne, hn]; exact h1, fun j => geK_same (hs _) (hs _) (h2 j)⟩

/-- Change bucket `i` without changing what its last entry compares as. -/
theorem set_same {w : E → M} {T T' : M} {s : State E} (h : Inv c w T s) {i n : ℕ} {b b' : Bucket E}
    (hb : s.buckets[i]? = some b) (hd : Data c w (s.buckets.set i b') n [] T')
    (hs : SameLast c b'.es b.es) (hn : b'.es = [] ↔ b.es = []) :
    Inv c w T' ⟨s.buckets.set i b', n, s.front⟩ := by
  have hlt := (List.getElem?_eq_some_iff.mp hb).1
  have hs' : ∀ j, SameLast c (esAt (s.buckets.set i b') j) (esAt s.buckets j) := by
    intro j
    rw [esAt_set hlt]
    split
    · subst_vars; rw [esAt_some hb]; exact hs
    · exact SameLast.refl _
  have hn' : ∀ j, esAt (s.buckets.set i b') j = [] ↔ esAt s.buckets j = [] := by
    intro j
    rw [esAt_set hlt]
    split
    · subst_vars; rw [esAt_some hb]; exact hn
    · exact Iff.rfl
  exact ⟨⟨hd, h.good.front.same (by simp) hs' hn'⟩, h.cache.same rfl hs' hn'⟩

/-! ## `push` -/

theorem push_ok (hs : Sane c) (hc : c.Lawful) {w : E → M} (hw : c.Weight w) {T : M} {s : State E}
    (h : Inv c w T s) (e : E) : ∃ s', push c s e = some s' ∧ Inv c w (T + w e) s' := by
  obtain ⟨b, hb⟩ : ∃ b, s.buckets[0]? = some b := ⟨_, List.getElem?_eq_getElem h.good.data.length_pos⟩
  have hlt := h.good.data.length_pos
  have hbo := h.good.data.at_ok hb
  have hcap := h.good.data.cap_pos hb
  have harr := h.good.data.arrive [e]
  simp only [List.length_singleton, wsum_cons, wsum_nil, add_zero] at harr
  simp only [push, hb, Option.bind_eq_bind, Option.bind_some]
  by_cases hfull : b.es.length = b.cap
  · rw [if_pos hfull]
    obtain ⟨s', k1, k2, k3⟩ := insert_ok hs hc hw (T := T + w e) (s := ⟨s.buckets, s.count + 1, s.front⟩)
      (l := [e]) ⟨harr, h.good.front⟩ hb (List.pairwise_singleton _ _) (by simpa using hcap) (by simp)
    exact ⟨s', k1, k2, k3.cache⟩
  · rw [if_neg hfull]
    have hless : b.es.length < b.cap := by
      have := hbo.fits
      omega
    -- the new bucket with one more entry
    have hdata : ∀ {b' : Bucket E}, b'.cap = b.cap → BOk c b' → b'.es.length = b.es.length + 1 →
        wsum w b'.es = wsum w b.es + w e → Data c w (s.buckets.set 0 b') (s.count + 1) [] (T + w e) := by
      intro b' h1 h2 h3 h4
      refine harr.set hb h1 h2 ?_ ?_
      · rw [h3]; simp; omega
      · rw [h4]; simp
    by_cases hbn : b.es = []
    · rw [if_pos hbn]
      obtain ⟨b', p1, p2, p3, p4⟩ := pushBack_spec (e := e) hbo hless (by simp [hbn])
      have hd := hdata p3 p4 (by rw [p2]; simp) (by rw [p2]; simp)
      obtain ⟨f', k1, k2, k3⟩ := frontInsert_ok hc.weak (bs := s.buckets)
        ⟨s.buckets.set 0 b', s.count + 1, s.front⟩ 0 hd.backAt h.good.front (by simp) hlt
        (by rw [esAt_some hb]; exact hbn) (by intro _; simp only; rw [esAt_set hlt, if_pos rfl, p2]; simp)
        (by intro j hj; simp only; rw [esAt_set hlt, if_neg (fun e => hj e.symm)])
      refine ⟨⟨s.buckets.set 0 b', s.count + 1, f'⟩, ?_, ⟨hd, k2⟩, Uncached.cache k3⟩
      simp only [p1, Option.bind_some, State.setBucket, k1]
    · rw [if_neg hbn]
      obtain ⟨p, sp, hp⟩ := search_spec hc.weak hbo.asc e
      rw [sp]
      simp only [Option.bind_some]
      cases p with
      | insertAt i =>
        obtain ⟨q1, q2, q3⟩ := hp
        simp only
        by_cases hi : i = b.es.length
        · rw [if_pos hi]
          rw [hi, List.take_length] at q2
          obtain ⟨b', p1, p2, p3, p4⟩ := pushBack_spec (e := e) hbo hless q2
          have hd := hdata p3 p4 (by rw [p2]; simp) (by rw [p2]; simp)
          have hes : ∀ j, j ≠ 0 → esAt (s.buckets.set 0 b') j = esAt s.buckets j := by
            intro j hj
            rw [esAt_set hlt, if_neg (fun e => hj e.symm)]
          obtain ⟨f', k1, k2, k3⟩ := keyIncreased_ok hc.weak ⟨s.buckets.set 0 b', s.count + 1, s.front⟩ 0
            hd.backAt (fun ht => increase_pre h.good.front (by simp) (by rw [esAt_some hb]; exact hbn)
              (by rw [esAt_set hlt, if_pos rfl, p2]; simp) hes (by
                intro j hj hj0 y z hy hz
                rw [hes j hj0] at hz
                rw [esAt_set hlt, if_pos rfl, p2] at hy
                simp at hy
                subst hy
                obtain ⟨x, hx⟩ := last_of_ne hbn
                exact hc.weak.ge_trans (q2 x (List.mem_of_getLast? hx))
                  (hj x z (by rw [esAt_some hb]; exact hx) hz)) ht)
          refine ⟨⟨s.buckets.set 0 b', s.count + 1, f'⟩, ?_, ⟨hd, k2⟩, Uncached.cache k3⟩
          simp only [p1, Option.bind_some, State.setBucket, k1]
        · rw [if_neg hi]
          have hil : i < b.es.length := by omega
          obtain ⟨b', p1, p2, p3, p4⟩ := insertAtNotEnd_spec hbo hless hil q2 q3
          have hd := hdata p3 p4 (by
            rw [p2]
            simp only [List.length_append, List.length_take, List.length_cons, List.length_drop]
            omega) (by
            rw [p2]
            conv_rhs => rw [← List.take_append_drop i b.es]
            simp only [wsum_append, wsum_cons]
            rw [add_assoc, add_comm (w e)])
          refine ⟨⟨s.buckets.set 0 b', s.count + 1, s.front⟩, ?_, set_same h hb hd ?_ ?_⟩
          · simp only [p1, Option.bind_some, State.setBucket]
          · intro x' hx'
            have hdn : b.es.drop i ≠ [] := by
              intro e
              have := congrArg List.length e
              simp at this
              omega
            rw [p2, List.getLast?_append_of_ne_nil _ (by simp), List.getLast?_cons_of_ne_nil hdn,
              ← List.getLast?_append_of_ne_nil (b.es.take i) hdn, List.take_append_drop] at hx'
            exact ⟨x', hx', Same.refl _⟩
          · rw [p2]; simp [hbn]
      | dup i =>
        obtain ⟨hde, m, hm, heq⟩ := hp
        have hcmp := eq_true hc heq
        have heq' : c.eq m e = true := by rw [hc.eq_iff]; simp [hcmp.1, hcmp.2]
        obtain ⟨b', p1, p2, p3, p4⟩ := setEntry_spec hbo hm (dedup_same_left hc heq')
        have hil := (List.getElem?_eq_some_iff.mp hm).1
        have hd : Data c w (s.buckets.set 0 b') s.count [] (T + w e) := by
          refine harr.set hb p3 p4 ?_ ?_
          · rw [p2]; simp; omega
          · rw [p2]
            obtain ⟨r, h0, h1⟩ := wsum_split w b.es i (c.dedup m e) hil
            have h2 : b.es[i] = m := by rw [List.getElem?_eq_getElem hil] at hm; simpa using hm
            rw [h2] at h0
            rw [hw hde m e heq'] at h1
            simp only [wsum_nil, add_zero, wsum_cons]
            rw [h1, h0, add_right_comm]
        refine ⟨⟨s.buckets.set 0 b', s.count, s.front⟩, ?_, set_same h hb hd ?_ ?_⟩
        · simp only [hm, Option.bind_some, p1, State.setBucket, Nat.add_sub_cancel]
        · intro x' hx'
          rw [p2, List.getLast?_eq_getElem?, List.length_set, List.getElem?_set] at hx'
          split at hx'
          · rename_i hil'
            cases hx'
            exact ⟨m, by rw [List.getLast?_eq_getElem?, ← hil']; exact hm, dedup_same_left hc heq'⟩
          · exact ⟨x', by rw [List.getLast?_eq_getElem?]; exact hx', Same.refl _⟩
        · rw [p2]; simp

/-! ## `push` of a range -/

theorem growLoop_ok (hs : Sane c) {w : E → M} {T : M} {pend : List E} (adj : ℕ) :
    ∀ (n : ℕ) (s : State E), Good c w T pend s → 1 ≤ n → adj < n + tmpCap s →
    ∃ s', growLoop c n adj s = some s' ∧ Good c w T pend s' ∧ adj ≤ tmpCap s' := by
  intro n
  induction n with
  | zero =>
    intro s h h1 hn
    omega
  | succ n ih =>
    intro s h _ hn
    rw [growLoop]
    by_cases hadj : adj > tmpCap s
    · rw [if_pos hadj]
      obtain ⟨s', cap, a1, a2, a3, a4, a5, _⟩ := addBucket_ok hs h
      have htmp : tmpCap s' = cap := by rw [tmpCap, a3]; simp
      obtain ⟨b, hb⟩ : ∃ b, s.buckets[0]? = some b := ⟨_, List.getElem?_eq_getElem h.data.length_pos⟩
      have h1 := h.data.cap_tmp hb
      have h2 := h.data.cap_pos hb
      rw [a1]
      exact ih s' a2 (by omega) (by omega)
    · rw [if_neg hadj]
      exact ⟨s, rfl, h, by omega⟩

theorem pushRange_ok (hs : Sane c) (hc : c.Lawful) {w : E → M} (hw : c.Weight w) {T : M} {s : State E}
    (h : Inv c w T s) {l : List E} (hl : Descending c.lt l) (hne : c.trackFront = true → l ≠ []) :
    ∃ s', pushRange c s l = some s' ∧ Inv c w (T + wsum w l) s' := by
  have harr := h.good.data.arrive l.reverse
  simp only [List.length_reverse, wsum_reverse] at harr
  obtain ⟨b, hb⟩ : ∃ b, s.buckets[0]? = some b := ⟨_, List.getElem?_eq_getElem h.good.data.length_pos⟩
  have h1 := h.good.data.cap_tmp hb
  have h2 := h.good.data.cap_pos hb
  have h3 : tmpCap ⟨s.buckets, s.count + l.length, s.front⟩ = tmpCap s := rfl
  obtain ⟨s₁, k1, k2, k3⟩ := growLoop_ok hs (l.length * c.insertFactor) (l.length * c.insertFactor + 1)
    ⟨s.buckets, s.count + l.length, s.front⟩ ⟨harr, h.good.front⟩ (by omega) (by omega)
  have hfi : ∃ i, s₁.buckets.findIdx? (fun b => decide (l.length * c.insertFactor ≤ b.cap)) = some i := by
    by_contra hno
    have h0 : s₁.buckets.findIdx? (fun b => decide (l.length * c.insertFactor ≤ b.cap)) = none := by
      rw [Option.eq_none_iff_forall_ne_some]
      exact fun m hm => hno ⟨m, hm⟩
    rw [List.findIdx?_eq_none_iff] at h0
    obtain ⟨last, hlast⟩ := last_of_ne (List.ne_nil_of_length_pos k2.data.length_pos)
    have h4 := h0 last (List.mem_of_getLast? hlast)
    have h5 : tmpCap s₁ = last.cap := by simp [tmpCap, hlast]
    simp at h4
    omega
  obtain ⟨i, hi⟩ := hfi
  obtain ⟨hil, hi1, _⟩ := List.findIdx?_eq_some_iff_getElem.mp hi
  have hfit : l.length ≤ s₁.buckets[i].cap := by
    have h6 : l.length * 1 ≤ l.length * c.insertFactor := Nat.mul_le_mul_left _ hs.factor
    simp at hi1
    omega
  obtain ⟨s', m1, m2, m3⟩ := insert_ok hs hc hw k2 (List.getElem?_eq_getElem hil) (l := l.reverse)
    (by
      unfold Asc
      rw [List.pairwise_reverse]
      exact hl)
    (by simpa using hfit) (by simpa using hne)
  refine ⟨s', ?_, m2, m3.cache⟩
  simp only [pushRange, k1, Option.bind_eq_bind, Option.bind_some, hi, m1]

/-! ## `top`, `pop`, `decreaseTop` -/

/-- How what is returned belongs to the entries held before. -/
def geoMem (c : Conf E) (x : E) (l : List E) : Prop :=
  if c.supportDedup && !c.trackFront then EquivMem c.lt x l else x ∈ l

/-- The maximum that `getMax` finds. -/
theorem max_spec (hc : c.Lawful) {w : E → M} (hw : c.Weight w) {T : M} {s : State E}
    (h : Inv c w T s) (hne : flat s.buckets ≠ []) :
    ∃ m s' b x, getMax c s = some (m, s') ∧ Inv c w T s' ∧ s'.buckets[m]? = some b ∧ b.getBack c = some x ∧
      b.es.getLast? = some x ∧ x ∈ flat s'.buckets ∧ IsMaxBy (geoMem c) c.lt x (flat s.buckets) ∧
      (c.trackFront = true → ∃ B, Fr c s'.buckets s'.front (m :: B)) := by
  obtain ⟨m, s', k1, k2, k3, k4, k5, k6, k7, k8, k9⟩ := getMax_spec hc hw h.good.data h.good.front h.cache hne
  obtain ⟨b, hb, eb⟩ := esAt_ne k5
  obtain ⟨x, hx⟩ := last_of_ne k5
  have hmax : ∀ y ∈ flat s'.buckets, c.lt x y = false := by
    intro y hy
    obtain ⟨j, hj⟩ := mem_flat.mp hy
    have hjn := List.ne_nil_of_mem hj
    obtain ⟨jb, hjb, ejb⟩ := esAt_ne hjn
    obtain ⟨z, hz⟩ := last_of_ne hjn
    have h1 := k6 j x z hx hz
    have h2 := (k2.at_ok hjb).asc.le_last hc.weak (x := z) (by rw [← ejb]; exact hz) y (by rw [← ejb]; exact hj)
    exact hc.weak.ge_trans h1 h2
  have hxm : x ∈ flat s'.buckets := mem_flat.mpr ⟨m, List.mem_of_getLast? hx⟩
  rw [eb] at hx
  refine ⟨m, s', b, x, k1, ⟨⟨k2, k3⟩, k4⟩, hb, by rw [getBack_eq (k2.at_ok hb)]; exact hx, hx, hxm, ⟨?_, ?_⟩, k7⟩
  · unfold geoMem
    split
    · obtain ⟨y, hy, hs⟩ := k8.2 x hxm
      refine ⟨y, hy, ?_, ?_⟩
      · rw [(hs _).1]; exact hc.weak.irrefl _
      · rw [(hs _).2]; exact hc.weak.irrefl _
    · rename_i hn
      rw [k9 (by simpa using hn)] at hxm
      exact hxm
  · intro y hy
    obtain ⟨y', hy', hs⟩ := k8.1 y hy
    rw [← (hs _).2]
    exact hmax y' hy'

theorem top_ok (hc : c.Lawful) {w : E → M} (hw : c.Weight w) {T : M} {s : State E}
    (h : Inv c w T s) (hne : flat s.buckets ≠ []) :
    ∃ x s', top c s = some (x, s') ∧ Inv c w T s' ∧ IsMaxBy (geoMem c) c.lt x (flat s.buckets) ∧
      x ∈ flat s'.buckets := by
  obtain ⟨m, s', b, x, k1, k2, k3, k4, k5, k6, k7, _⟩ := max_spec hc hw h hne
  refine ⟨x, s', ?_, k2, k7, k6⟩
  simp only [top, k1, Option.bind_eq_bind, Option.bind_some, k3, k4]

theorem pop_ok (hc : c.Lawful) {w : E → M} (hw : c.Weight w) {T : M} {s : State E}
    (h : Inv c w T s) (hne : flat s.buckets ≠ []) :
    ∃ x s' s'' T', pop c s = some (x, s') ∧ top c s = some (x, s'') ∧ Inv c w T' s' ∧ T' + w x = T ∧
      IsMaxBy (geoMem c) c.lt x (flat s.buckets) := by
  obtain ⟨m, s₁, b, x, k1, k2, k3, k4, k5, k6, k7, k8⟩ := max_spec hc hw h hne
  have hml := (List.getElem?_eq_some_iff.mp k3).1
  have hbn : b.es ≠ [] := by intro e; rw [e] at k5; cases k5
  obtain ⟨b', p1, p2, p3, p4⟩ := popBack_spec (k2.good.data.at_ok k3) hbn
  obtain ⟨l', hl'⟩ := List.getLast?_eq_some_iff.mp k5
  have hd1 : Data c w (s₁.buckets.set m b') s₁.count [x] T := by
    refine k2.good.data.set k3 p3 p4 ?_ ?_
    · rw [p2, hl']; simp; omega
    · rw [p2, hl']; simp
  have hd : Data c w (s₁.buckets.set m b') (s₁.count - 1) [] (wsum w (flat (s₁.buckets.set m b'))) := by
    refine ⟨hd1.caps, hd1.ok, ?_, by simp⟩
    have := hd1.count
    simp at this
    simp
    omega
  obtain ⟨s', m1, m2, m3, m4⟩ := keyDecreased_spec hc hw (s := ⟨s₁.buckets.set m b', s₁.count - 1, s₁.front⟩)
    (b := m) (bs := s₁.buckets) hd (by simp) k8 hml (by
      intro j hj
      simp only
      rw [esAt_set hml, if_neg (fun e => hj e.symm)])
  refine ⟨x, s', s₁, _, ?_, ?_, ⟨⟨m2, m3⟩, Uncached.cache m4⟩, ?_, k7⟩
  · simp only [pop, k1, Option.bind_eq_bind, Option.bind_some, k3, k4, p1, State.setBucket, m1]
  · simp only [top, k1, Option.bind_eq_bind, Option.bind_some, k3, k4]
  · have := hd1.weight
    simpa using this

theorem getMax_none {s : State E} (h : FrontOk c s.buckets s.front) (hca : CacheOk c s)
    (he : flat s.buckets = []) : getMax c s = none := by
  have hall : ∀ j, esAt s.buckets j = [] := by
    intro j
    by_contra hj
    obtain ⟨x, hx⟩ := List.exists_mem_of_ne_nil _ hj
    have : x ∈ flat s.buckets := mem_flat.mpr ⟨j, hx⟩
    rw [he] at this
    cases this
  cases ht : c.trackFront with
  | true =>
    obtain ⟨live, hf⟩ := h ht
    have : live = [] := by
      by_contra hl
      obtain ⟨b, hb⟩ := List.exists_mem_of_ne_nil _ hl
      exact (hf.mem b).mp hb (hall b)
    subst this
    rw [getMax, ht, if_pos rfl, if_pos (by rw [hf.link.fend]; rfl)]
  | false =>
    rw [getMax, ht, if_neg (by simp)]
    rcases hcach : s.front.cached with _ | m
    · simp only
      have : s.buckets.findIdx? (fun b => !b.es.isEmpty) = none := by
        rw [List.findIdx?_eq_none_iff]
        intro b hb
        obtain ⟨i, hi⟩ := List.mem_iff_getElem?.mp hb
        have := hall i
        rw [esAt_some hi] at this
        simp [this]
      rw [this]
    · exact absurd (hall m) (hca ht m hcach).1

/-! ## `clear` -/

theorem clear_spec_untracked (ht : c.trackFront = false) {w : E → M} {T : M} {s : State E} (h : Inv c w T s) :
    Inv c w 0 (clear c s) ∧ flat (clear c s).buckets = [] := by
  have hflat : flat (s.buckets.map Bucket.clear) = [] := by
    simp [flat, List.flatMap_map, Bucket.clear]
  refine ⟨⟨⟨⟨?_, ?_, ?_, ?_⟩, ?_⟩, ?_⟩, hflat⟩
  · have : (clear c s).buckets.map Bucket.cap = s.buckets.map Bucket.cap := by
      simp only [clear, List.map_map]
      rfl
    rw [this]
    exact h.good.data.caps
  · intro b hb
    obtain ⟨b', _, rfl⟩ := List.mem_map.mp hb
    exact clear_ok b'
  · simp only [clear]
    rw [hflat]
    rfl
  · simp only [clear]
    rw [hflat]
    simp
  · intro h'
    rw [ht] at h'
    cases h'
  · intro _ m hm
    simp [clear, frontClear, ht] at hm

/-! ## Any call -/

/-- The calls that keep a geobucket in order: ranges must be sorted as documented; with
`trackFront` neither empty ranges nor `clear` (`PropGeobucket.lean` shows what goes wrong). -/
def Allowed (c : Conf E) : PQOp E → Prop
  | .pushRange l => Descending c.lt l ∧ (c.trackFront = true → l ≠ [])
  | .clear => c.trackFront = false
  | _ => True

theorem step_ok (hs : Sane c) (hc : c.Lawful) {w : E → M} (hw : c.Weight w) {s : State E}
    (h : Inv c w (wsum w (flat s.buckets)) s) (op : PQOp E) (ha : Allowed c op)
    (hne : op.needsTop → flat s.buckets ≠ []) :
    ∃ o s', step c s op = some (o, s') ∧ Inv c w (wsum w (flat s'.buckets)) s' ∧
      PQStepBy (geoMem c) c.lt w (flat s.buckets) op o (flat s'.buckets) ∧
      (impl c).UsesTop (geoMem c) c.lt w s op o s' := by
  cases op with
  | push e =>
    obtain ⟨s', k1, k2⟩ := push_ok hs hc hw h e
    exact ⟨none, s', by simp [step, k1], k2.self, .push k2.total, trivial⟩
  | pushRange l =>
    obtain ⟨s', k1, k2⟩ := pushRange_ok hs hc hw h ha.1 ha.2
    exact ⟨none, s', by simp [step, k1], k2.self, .pushRange k2.total, trivial⟩
  | top =>
    obtain ⟨x, s', k1, k2, k3, k4⟩ := top_ok hc hw h (hne trivial)
    exact ⟨some x, s', by simp [step, k1], k2.self, .top k3 k2.total k4, by simp [PQImpl.UsesTop, impl, k1]⟩
  | pop =>
    obtain ⟨x, s', s'', T', k1, k2, k3, k4, k5⟩ := pop_ok hc hw h (hne trivial)
    exact ⟨some x, s', by simp [step, k1], k3.self, .pop k5 (by rw [k3.total]; exact k4), by simp [PQImpl.UsesTop, impl, k2]⟩
  | decreaseTop e =>
    obtain ⟨x, s', s'', T', k1, k2, k3, k4, k5⟩ := pop_ok hc hw h (hne trivial)
    obtain ⟨s₃, m1, m2⟩ := push_ok hs hc hw k3 e
    have hsum : wsum w (flat s₃.buckets) + w x = wsum w (flat s.buckets) + w e := by
      rw [m2.total, ← k4, add_right_comm]
    exact ⟨none, s₃, by simp [step, decreaseTop, k1, m1], m2.self, .decreaseTop (x := x) k5 hsum, x,
      by simp [impl, k2], k5, hsum⟩
  | clear =>
    obtain ⟨k1, k2⟩ := clear_spec_untracked ha h
    refine ⟨none, clear c s, rfl, k1.self, ?_, trivial⟩
    rw [k2]
    exact .clear

theorem step_undefined {s : State E} (h : FrontOk c s.buckets s.front) (hca : CacheOk c s) (op : PQOp E)
    (hn : op.needsTop) (he : flat s.buckets = []) : step c s op = none := by
  have := getMax_none h hca he
  cases op with
  | push e => exact hn.elim
  | pushRange l => exact hn.elim
  | top => simp [step, top, this]
  | pop => simp [step, pop, this]
  | decreaseTop e => simp [step, decreaseTop, pop, this]
  | clear => exact hn.elim

theorem init_ok (hs : Sane c) (w : E → M) :
    Inv c w (wsum w (flat (impl c).init.buckets)) (impl c).init ∧ flat (impl c).init.buckets = [] := by
  obtain ⟨s, k1, k2, k3, k4⟩ := mk_spec hs w
  have : (impl c).init = s := by simp [impl, k1]
  rw [this]
  have hi : Inv c w 0 s := ⟨k2, k3.cache⟩
  exact ⟨hi.self, k4⟩

/-- The invariant holds after every history. -/
theorem reach (hs : Sane c) (hc : c.Lawful) {w : E → M} (hw : c.Weight w) :
    ∀ (ops : List (PQOp E)) (s : State E) (outs : List (Option E)) (s' : State E),
    Inv c w (wsum w (flat s.buckets)) s → (∀ op ∈ ops, Allowed c op) →
    (impl c).run s ops = some (outs, s') → Inv c w (wsum w (flat s'.buckets)) s' := by
  intro ops
  induction ops with
  | nil =>
    intro s outs s' h _ hr
    simp only [PQImpl.run] at hr
    cases hr
    exact h
  | cons op ops ih =>
    intro s outs s' h ha hr
    simp only [PQImpl.run] at hr
    split at hr
    · cases hr
    · rename_i o s₁ h1
      split at hr
      · cases hr
      · rename_i os s₂ h2
        cases hr
        have hne : op.needsTop → flat s.buckets ≠ [] := by
          intro hn he
          have h1 : step c s op = some (o, s₁) := h1
          rw [step_undefined h.good.front h.cache op hn he] at h1
          cases h1
        obtain ⟨o', s₁', k1, k2, _⟩ := step_ok hs hc hw h op (ha op List.mem_cons_self) hne
        have h1 : step c s op = some (o, s₁) := h1
        rw [k1] at h1
        cases h1
        exact ih _ _ _ k2 (fun o ho => ha o (List.mem_cons_of_mem _ ho)) h2

end Verif.Geobucket

namespace Verif

/-- The weight of each class of equal entries is a weight that deduplication adds up. -/
theorem PQConf.Lawful.class_weight {E M : Type*} [AddCommMonoid M] {c : PQConf E} (hc : c.Lawful) (wt : E → M)
    (hwt : ∀ a b, c.eq a b = true → wt (c.dedup a b) = wt a + wt b) :
    c.Weight (fun e x => if c.eq e x then wt e else 0) := by
  intro _ a b hab
  funext x
  have h1 : c.eq (c.dedup a b) x = c.eq a x := by
    rw [hc.eq_iff, hc.eq_iff, hc.dedup_lt a b x hab, hc.lt_dedup a b x hab]
  have h2 : c.eq b x = c.eq a x := by
    have := hab
    rw [hc.eq_iff] at this ⊢
    rw [hc.eq_iff]
    simp only [Bool.and_eq_true, Bool.not_eq_true'] at this
    have hw := hc.weak
    have e1 : c.lt b x = c.lt a x := by
      cases hx : c.lt a x with
      | true =>
        rcases hw.negTrans a b x hx with h | h
        · rw [this.1] at h; cases h
        · exact h
      | false => exact hw.ge_trans this.2 hx
    have e2 : c.lt x b = c.lt x a := by
      cases hx : c.lt x a with
      | true =>
        rcases hw.negTrans x b a hx with h | h
        · exact h
        · rw [this.2] at h; cases h
      | false => exact hw.ge_trans hx this.1
    rw [e1, e2]
  simp only [Pi.add_apply, h1, h2]
  split
  · exact hwt a b hab
  · simp

end Verif
