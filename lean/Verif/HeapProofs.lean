import Verif.Heap
import Mathlib.Tactic.Abel

/-!
# Helper lemmas for the heap: the heap order and the weight through each step
-/

namespace Verif.Heap

variable {E : Type*} {c : PQConf E}

/-- No child is larger than its parent. -/
def IsHeap (c : PQConf E) (t : List E) : Prop :=
  ∀ i a b, 2 ≤ i → rd t (i / 2) = some a → rd t i = some b → c.lt a b = false

/-- The heap order everywhere but between node `o` and its parent. -/
def IsHeapEx (c : PQConf E) (t : List E) (o : ℕ) : Prop :=
  ∀ i a b, 2 ≤ i → i ≠ o → rd t (i / 2) = some a → rd t i = some b → c.lt a b = false

theorem IsHeap.ex {t : List E} (h : IsHeap c t) (o : ℕ) : IsHeapEx c t o :=
  fun i a b hi _ => h i a b hi

theorem isHeap_nil : IsHeap c ([] : List E) := by
  intro i a b _ h _
  have := rd_bounds h
  simp at this
  omega

theorem IsHeap.dropLast {t : List E} (h : IsHeap c t) : IsHeap c t.dropLast := by
  intro i a b hi ha hb
  have h1 := rd_bounds ha
  have h2 := rd_bounds hb
  rw [List.length_dropLast] at h1 h2
  rw [rd_dropLast (by omega)] at ha hb
  exact h i a b hi ha hb

theorem IsHeapEx.dropLast {t : List E} {o : ℕ} (h : IsHeapEx c t o) : IsHeapEx c t.dropLast o := by
  intro i a b hi ho ha hb
  have h1 := rd_bounds ha
  have h2 := rd_bounds hb
  rw [List.length_dropLast] at h1 h2
  rw [rd_dropLast (by omega)] at ha hb
  exact h i a b hi ho ha hb

theorem IsHeapEx.full {t : List E} {o : ℕ} (h : IsHeapEx c t o) (ho : t.length < o) :
    IsHeap c t := by
  intro i a b hi ha hb
  have h2 := rd_bounds hb
  exact h i a b hi (by omega) ha hb

theorem IsHeap.max (hc : c.Lawful) {t : List E} (h : IsHeap c t) {x : E} (hx : rd t 1 = some x) :
    ∀ i y, rd t i = some y → c.lt x y = false := by
  intro i
  induction i using Nat.strong_induction_on with
  | _ i ih =>
    intro y hy
    have hb := rd_bounds hy
    by_cases h1 : i = 1
    · subst h1
      rw [hx] at hy
      cases hy
      exact hc.weak.irrefl x
    · obtain ⟨u, hu⟩ := rd_exists (t := t) (i := i / 2) (by omega) (by omega)
      exact hc.weak.ge_trans (ih (i / 2) (by omega) u hu) (h i u y (by omega) hu hy)

/-- Writing the parent's value into a node keeps the heap order. -/
theorem IsHeapEx.wr_parent (hc : c.Lawful) {t t' : List E} {p : ℕ} (h : IsHeapEx c t p) {u : E}
    (hp : 2 ≤ p) (hu : rd t (p / 2) = some u) (hw : wr t p u = some t')
    (hleaf : t.length < 2 * p ∨ IsHeap c t) : IsHeap c t' := by
  intro i a b hi ha hb
  have hbd := wr_bounds hw
  obtain ⟨x, hx⟩ := rd_exists (t := t) (i := p) hbd.1 hbd.2
  rw [rd_wr hw] at ha hb
  by_cases h1 : i / 2 = p
  · rw [if_pos h1] at ha
    cases ha
    rw [if_neg (by omega)] at hb
    rcases hleaf with hl | hh
    · have := rd_bounds hb
      omega
    · exact hc.weak.ge_trans (hh p u x hp hu hx) (hh i x b hi (by rw [h1]; exact hx) hb)
  · rw [if_neg h1] at ha
    by_cases h2 : i = p
    · subst h2
      rw [if_pos rfl] at hb
      cases hb
      rw [ha] at hu
      cases hu
      exact hc.weak.irrefl _
    · rw [if_neg h2] at hb
      exact h i a b hi h2 ha hb

/-- Writing the larger child's value into a node keeps the heap order. -/
theorem IsHeap.wr_child (hc : c.Lawful) {t t' : List E} (h : IsHeap c t) {p : ℕ} {v : E}
    (hp : 1 ≤ p) (hv : rd t (2 * p) = some v ∨ rd t (2 * p + 1) = some v)
    (hmax : ∀ b, rd t (2 * p) = some b ∨ rd t (2 * p + 1) = some b → c.lt v b = false)
    (hw : wr t p v = some t') : IsHeap c t' := by
  intro i a b hi ha hb
  have hbd := wr_bounds hw
  obtain ⟨x, hx⟩ := rd_exists (t := t) (i := p) hbd.1 hbd.2
  rw [rd_wr hw] at ha hb
  have hxv : c.lt x v = false := by
    rcases hv with hv | hv
    · exact h (2 * p) x v (by omega) (by rw [show 2 * p / 2 = p by omega]; exact hx) hv
    · exact h (2 * p + 1) x v (by omega) (by rw [show (2 * p + 1) / 2 = p by omega]; exact hx) hv
  by_cases h1 : i / 2 = p
  · rw [if_pos h1] at ha
    cases ha
    rw [if_neg (by omega)] at hb
    apply hmax
    rcases Nat.mod_two_eq_zero_or_one i with h3 | h3
    · left; rw [show 2 * p = i by omega]; exact hb
    · right; rw [show 2 * p + 1 = i by omega]; exact hb
  · rw [if_neg h1] at ha
    by_cases h2 : i = p
    · subst h2
      rw [if_pos rfl] at hb
      cases hb
      exact hc.weak.ge_trans (h i a x hi ha hx) hxv
    · rw [if_neg h2] at hb
      exact h i a b hi ha hb

section weights
variable {M : Type*} [AddCancelCommMonoid M] {w : E → M}

theorem moveHoleDown_spec (hc : c.Lawful) (w : E → M) (t : List E) (hole : ℕ)
    (h : IsHeap c t) (h1 : 1 ≤ hole) (h2 : hole ≤ t.length) :
    ∃ t' p, moveHoleDown c t hole = some (t', p) ∧ IsHeap c t' ∧ t'.length = t.length ∧
      1 ≤ p ∧ p ≤ t.length ∧ t.length < 2 * p ∧
      ∀ x y, rd t hole = some x → rd t' p = some y → wsum w t' + w x = wsum w t + w y := by
  fun_induction moveHoleDown c t hole with
  | case1 t => omega
  | case2 t hole h0 hlt a b hb ha child hn =>
    exfalso
    obtain ⟨v, hv⟩ := rd_exists (t := t) (i := child) (by grind) (by grind)
    rw [hv] at hn
    cases hn
  | case3 t hole h0 hlt a b hb ha child v hv hw =>
    rw [wr_some v h1 h2] at hw
    cases hw
  | case4 t hole h0 hlt a b hb ha child v hv t₁ hw ih =>
    have hl := wr_length hw
    have hheap : IsHeap c t₁ := by
      refine h.wr_child hc h1 ?_ ?_ hw
      · grind
      · intro y hy
        by_cases hab : c.lt a b = true
        · have hvb : v = b := by grind
          subst hvb
          rcases hy with hy | hy
          · rw [ha] at hy; cases hy; exact hc.weak.asymm hab
          · rw [hb] at hy; cases hy; exact hc.weak.irrefl _
        · have hva : v = a := by grind
          subst hva
          rcases hy with hy | hy
          · rw [ha] at hy; cases hy; exact hc.weak.irrefl _
          · rw [hb] at hy; cases hy; simpa using hab
    have hchild : 2 * hole ≤ child ∧ child ≤ 2 * hole + 1 := by grind
    obtain ⟨t', p, e, g1, g2, g3, g4, g5, g6⟩ := ih hheap (by omega) (by omega)
    refine ⟨t', p, e, g1, by omega, g3, by omega, by omega, ?_⟩
    intro x y hx hy
    have hc1 : rd t₁ child = some v := by
      rw [rd_wr hw, if_neg (by omega)]; exact hv
    have e1 := g6 v y hc1 hy
    have e2 := wsum_wr w hw hx
    apply add_right_cancel (b := w v)
    calc wsum w t' + w x + w v = (wsum w t' + w v) + w x := by abel
      _ = (wsum w t₁ + w x) + w y := by rw [e1]; abel
      _ = wsum w t + w y + w v := by rw [e2]; abel
  | case5 t hole h0 hlt hn =>
    exfalso
    obtain ⟨a, ha⟩ := rd_exists (t := t) (i := 2 * hole) (by omega) (by omega)
    obtain ⟨b, hb⟩ := rd_exists (t := t) (i := 2 * hole + 1) (by omega) (by omega)
    exact hn a b ha hb
  | case6 t hole h0 hlt he hn =>
    exfalso
    obtain ⟨a, ha⟩ := rd_exists (t := t) (i := 2 * hole) (by omega) (by omega)
    rw [hn] at ha
    cases ha
  | case7 t hole h0 hlt he v hv hw =>
    rw [wr_some v h1 h2] at hw
    cases hw
  | case8 t hole h0 hlt he v hv t₁ hw =>
    have hl := wr_length hw
    refine ⟨t₁, 2 * hole, rfl, ?_, hl, by omega, by omega, by omega, ?_⟩
    · refine h.wr_child hc h1 (Or.inl hv) ?_ hw
      intro b hb
      rcases hb with hb | hb
      · rw [hv] at hb; cases hb; exact hc.weak.irrefl _
      · have := rd_bounds hb; omega
    · intro x y hx hy
      rw [rd_wr hw, if_neg (by omega), hv] at hy
      cases hy
      exact wsum_wr w hw hx
  | case9 t hole h0 hlt he =>
    refine ⟨t, hole, rfl, h, rfl, h1, h2, by omega, ?_⟩
    intro x y hx hy
    rw [hx] at hy
    cases hy
    rfl

/-- What the climb does when it ends at the place of the value. -/
theorem climb_spec (hc : c.Lawful) (w : E → M) (t : List E) (pos : ℕ) (value : E)
    (h : IsHeapEx c t pos) (h1 : 1 ≤ pos) (h2 : pos ≤ t.length)
    (hleaf : t.length < 2 * pos ∨ IsHeap c t ∧ ∃ x, rd t pos = some x ∧ c.lt x value = true) :
    ∃ r, climb c t pos value = some r ∧ ∀ t' p, r = .place t' p →
      IsHeapEx c t' p ∧ t'.length = t.length ∧ 1 ≤ p ∧ p ≤ t.length ∧
      (t.length < 2 * p ∨ IsHeap c t' ∧ ∃ x, rd t' p = some x ∧ c.lt x value = true) ∧
      (∀ u, rd t' (p / 2) = some u → c.lt u value = false) ∧
      ∀ x y, rd t pos = some x → rd t' p = some y → wsum w t' + w x = wsum w t + w y := by
  fun_induction climb c t pos value with
  | case1 t => omega
  | case2 t h0 =>
    refine ⟨_, rfl, ?_⟩
    intro t' p hr
    cases hr
    refine ⟨h, rfl, h1, h2, hleaf, ?_, ?_⟩
    · intro u hu
      have := rd_bounds hu
      omega
    · intro x y hx hy
      rw [hx] at hy; cases hy; rfl
  | case3 t pos h0 h1' hn =>
    exfalso
    obtain ⟨a, ha⟩ := rd_exists (t := t) (i := pos / 2) (by omega) (by omega)
    rw [hn] at ha
    cases ha
  | case4 t pos h0 h1' u hu hlt hw =>
    rw [wr_some u h1 h2] at hw
    cases hw
  | case5 t pos h0 h1' u hu hlt t₁ hw ih =>
    have hl := wr_length hw
    have hu1 : rd t₁ (pos / 2) = some u := by
      rw [rd_wr hw, if_neg (by omega)]; exact hu
    have hh := h.wr_parent hc (by omega) hu hw (hleaf.imp id And.left)
    obtain ⟨r, hr, hr'⟩ := ih (hh.ex _) (by omega) (by omega) (Or.inr ⟨hh, u, hu1, hlt⟩)
    refine ⟨r, hr, ?_⟩
    intro t' p hp
    obtain ⟨g1, g2, g3, g4, g5, g6, g7⟩ := hr' t' p hp
    refine ⟨g1, by omega, g3, by omega, by rw [← hl]; exact g5, g6, ?_⟩
    intro x y hx hy
    have e1 := g7 u y hu1 hy
    have e2 := wsum_wr w hw hx
    apply add_right_cancel (b := w u)
    calc wsum w t' + w x + w u = (wsum w t' + w u) + w x := by abel
      _ = (wsum w t₁ + w x) + w y := by rw [e1]; abel
      _ = wsum w t + w y + w u := by rw [e2]; abel
  | case6 t pos h0 h1' u hu hlt heq =>
    refine ⟨_, rfl, ?_⟩
    intro t' p hr
    cases hr
  | case7 t pos h0 h1' u hu hlt heq =>
    refine ⟨_, rfl, ?_⟩
    intro t' p hr
    cases hr
    refine ⟨h, rfl, h1, h2, hleaf, ?_, ?_⟩
    · intro u' hu'
      rw [hu] at hu'; cases hu'
      simpa using hlt
    · intro x y hx hy
      rw [hx] at hy; cases hy; rfl

/-- Putting the value in its place keeps the heap order. -/
theorem IsHeapEx.place (hc : c.Lawful) {t t' : List E} {p : ℕ} (h : IsHeapEx c t p) {value : E}
    (hleaf : t.length < 2 * p ∨ IsHeap c t ∧ ∃ x, rd t p = some x ∧ c.lt x value = true)
    (hup : ∀ u, rd t (p / 2) = some u → c.lt u value = false)
    (hw : wr t p value = some t') : IsHeap c t' := by
  intro i a b hi ha hb
  have hbd := wr_bounds hw
  rw [rd_wr hw] at ha hb
  by_cases h1 : i / 2 = p
  · rw [if_pos h1] at ha
    cases ha
    rw [if_neg (by omega)] at hb
    rcases hleaf with hl | ⟨hh, x, hx, hxv⟩
    · have := rd_bounds hb
      omega
    · exact hc.weak.ge_trans (hc.weak.asymm hxv) (hh i x b hi (by rw [h1]; exact hx) hb)
  · rw [if_neg h1] at ha
    by_cases h2 : i = p
    · subst h2
      rw [if_pos rfl] at hb
      cases hb
      exact hup a ha
    · rw [if_neg h2] at hb
      exact h i a b hi h2 ha hb

theorem moveBack_congr {s s' s₂ : List E} {tmp : E} {q p : ℕ}
    (hs : ∀ i, i ≤ q → rd s' i = rd s i) (h : moveBack s tmp q p = some s₂) :
    ∃ s₂', moveBack s' tmp q p = some s₂' ∧ (∀ i, i ≤ q → rd s₂' i = rd s₂ i) ∧
      (∀ i, q < i → rd s₂' i = rd s' i) ∧ (∀ i, q < i → rd s₂ i = rd s i) := by
  fun_induction moveBack s tmp q p generalizing s' with
  | case1 s tmp =>
    cases h
    exact ⟨s', by rw [moveBack, if_pos rfl], hs, fun _ _ => rfl, fun _ _ => rfl⟩
  | case2 => cases h
  | case3 => cases h
  | case4 => cases h
  | case5 s tmp q hqp h0 x hx s₁ hw ih =>
    have hx' : rd s' q = some x := by rw [hs q (le_refl q)]; exact hx
    have hb' := rd_bounds hx'
    have hw' := wr_some tmp hb'.1 hb'.2
    obtain ⟨s₂', e1, e2, e3, e4⟩ := ih (s' := s'.set (q - 1) tmp) (by
      intro i hi
      rw [rd_wr hw', rd_wr hw]
      split
      · rfl
      · exact hs i (by omega)) h
    refine ⟨s₂', ?_, ?_, ?_, ?_⟩
    · rw [moveBack, if_neg hqp, dif_neg h0, hx']
      simp only [hw', e1]
    · intro i hi
      by_cases hi2 : i ≤ q / 2
      · exact e2 i hi2
      · rw [e3 i (by omega), e4 i (by omega), rd_wr hw', rd_wr hw]
        split
        · rfl
        · exact hs i (by omega)
    · intro i hi
      rw [e3 i (by omega), rd_wr hw', if_neg (by omega)]
    · intro i hi
      rw [e4 i (by omega), rd_wr hw, if_neg (by omega)]

/-- What the climb does when it ends below an equal entry, and that moving back undoes it. -/
theorem climb_dup {t t' : List E} {o p : ℕ} {v : E}
    (h : climb c t o v = some (.dup t' p)) :
    2 ≤ p ∧ p ≤ o ∧ c.supportDedup = true ∧
    (∃ u, rd t (p / 2) = some u ∧ rd t' (p / 2) = some u ∧ c.eq u v = true) ∧
    (∀ i, o < i → rd t' i = rd t i) ∧
    (p = o → t' = t) ∧
    (p < o → ∀ d t₁, wr t' (p / 2) d = some t₁ →
      ∃ tmp t₂, rd t (o / 2) = some tmp ∧ rd t₁ o = some tmp ∧
        moveBack t₁ tmp (o / 2) p = some t₂ ∧
        ∀ i, rd t₂ i = if i = o then some tmp else if i = p / 2 then some d else rd t i) := by
  fun_induction climb c t o v with
  | case1 => cases h
  | case2 => cases h
  | case3 => cases h
  | case4 => cases h
  | case6 t o h0 h1 u hu hlt heq =>
    cases h
    simp only [Bool.and_eq_true] at heq
    exact ⟨by omega, le_refl _, heq.1, ⟨u, hu, hu, heq.2⟩, fun _ _ => rfl, fun _ => rfl,
      fun hlt => absurd hlt (lt_irrefl _)⟩
  | case7 => cases h
  | case5 t o h0 h1 u hu hlt t₁ hw ih =>
    obtain ⟨g1, g2, g3, ⟨u', g4, g5, g6⟩, g7, g8, g9⟩ := ih h
    have hbd := wr_bounds hw
    refine ⟨g1, by omega, g3, ⟨u', ?_, g5, g6⟩, ?_, by omega, ?_⟩
    · rw [rd_wr hw, if_neg (by omega)] at g4; exact g4
    · intro i hi
      rw [g7 i (by omega), rd_wr hw, if_neg (by omega)]
    · intro _ d T hT
      have hTo : rd T o = some u := by
        rw [rd_wr hT, if_neg (by omega), g7 o (by omega), rd_wr hw, if_pos rfl]
      by_cases hp : p = o / 2
      · have ht' := g8 hp
        refine ⟨u, T, hu, hTo, by rw [hp, moveBack, if_pos rfl], ?_⟩
        intro i
        rw [rd_wr hT, ht', rd_wr hw]
        by_cases hio : i = o
        · rw [if_pos hio, if_neg (by omega), if_pos hio]
        · simp only [if_neg hio]
      · obtain ⟨tmp, t₂, f1, f2, f3, f4⟩ := g9 (by omega) d T hT
        have hbT := rd_bounds f2
        have hwT := wr_some u hbT.1 hbT.2
        obtain ⟨t₂', e1, e2, e3, e4⟩ := moveBack_congr (s := T) (s' := T.set (o / 2 - 1) u)
          (by intro i hi; rw [rd_wr hwT, if_neg (by omega)]) f3
        refine ⟨u, t₂', hu, hTo, ?_, ?_⟩
        · rw [moveBack, if_neg (by omega), dif_neg (by omega), f2]
          simp only [hwT, e1]
        · intro i
          by_cases hi : i ≤ o / 2 / 2
          · rw [e2 i hi, f4, if_neg (by omega), rd_wr hw]
            simp only [if_neg (show i ≠ o by omega)]
          · rw [e3 i (by omega), rd_wr hwT]
            by_cases hi2 : i = o / 2
            · rw [if_pos hi2, if_neg (by omega), if_neg (by omega), hi2, hu]
            · rw [if_neg hi2, ← e4 i (by omega), f4, if_neg hi2]
              rw [if_neg (by omega), rd_wr hw]
              by_cases hio : i = o
              · rw [if_pos hio, if_pos hio]
              · rw [if_neg hio, if_neg hio, if_neg (by omega)]

theorem wsum_dropLast (w : E → M) {t : List E} {last : E} (h : rd t t.length = some last) :
    wsum w t.dropLast + w last = wsum w t := by
  have hb := rd_bounds h
  have hne : t ≠ [] := by intro h0; rw [h0] at hb; simp at hb
  have : last = t.getLast hne := by
    rw [rd_some (by omega) (le_refl _)] at h
    cases h
    rw [List.getLast_eq_getElem]
  have e := wsum_append w t.dropLast [last]
  rw [this, List.dropLast_append_getLast hne] at e
  rw [this, e]
  simp

/-- Two entries replaced, seen through weights. -/
theorem wsum_two {t t₂ : List E} {o q : ℕ} {x tmp u d : E} (w : E → M) (hoq : o ≠ q)
    (hx : rd t o = some x) (hu : rd t q = some u)
    (h : ∀ i, rd t₂ i = if i = o then some tmp else if i = q then some d else rd t i) :
    wsum w t₂ + w x + w u = wsum w t + w tmp + w d := by
  have b1 := rd_bounds hx
  have b2 := rd_bounds hu
  have hw1 := wr_some d b2.1 b2.2
  have hw2 := wr_some (t := t.set (q - 1) d) tmp b1.1 (by simpa using b1.2)
  have : t₂ = (t.set (q - 1) d).set (o - 1) tmp := by
    apply rd_ext
    intro i
    rw [h, rd_wr hw2, rd_wr hw1]
  rw [this]
  have e1 := wsum_wr w hw1 hu
  have e2 := wsum_wr w hw2 (b := x) (by rw [rd_wr hw1, if_neg hoq]; exact hx)
  rw [e2, add_right_comm, e1]
  abel

/-- The deduplication branch, for weights that need not add up: `u` is the entry that `value` is merged
into. -/
theorem mergeUp_raw (hc : c.Lawful) (w : E → M) {t t' : List E} {o p : ℕ} {v x : E}
    (h : IsHeapEx c t o) (hx : rd t o = some x) (hleaf : t.length < 2 * o)
    (hcl : climb c t o v = some (.dup t' p)) :
    ∃ t₁ last tmp, mergeUp c t' o p v = some (t₁, last) ∧ IsHeapEx c t₁ o ∧
      t₁.length + 1 = t.length ∧
      (o < t.length → rd t₁ o = some tmp) ∧ (o = t.length → last = tmp) ∧
      ∃ u, rd t' (p / 2) = some u ∧ rd t (p / 2) = some u ∧ p / 2 ≠ o ∧ c.supportDedup = true ∧
      c.eq u v = true ∧ wsum w t₁ + w last + w x + w u = wsum w t + w tmp + w (c.dedup u v) := by
  obtain ⟨g1, g2, g3, ⟨u, g4, g5, g6⟩, g7, g8, g9⟩ := climb_dup hcl
  have hlen := (climb_length hcl).2 _ _ rfl
  have hbo := rd_bounds hx
  have hbu := rd_bounds g5
  have hwr := wr_some (c.dedup u v) hbu.1 hbu.2
  -- the tree after moving back
  have key : ∃ tmp t₂, restore (t'.set (p / 2 - 1) (c.dedup u v)) o p = some t₂ ∧
      ∀ i, rd t₂ i = if i = o then some tmp else if i = p / 2 then some (c.dedup u v) else rd t i := by
    by_cases hp : p = o
    · refine ⟨x, t'.set (p / 2 - 1) (c.dedup u v), by simp [restore, hp], ?_⟩
      intro i
      rw [rd_wr hwr, g8 hp]
      by_cases hio : i = o
      · rw [if_pos hio, if_neg (by omega), hio]; exact hx
      · simp only [if_neg hio]
    · obtain ⟨tmp, t₂, f1, f2, f3, f4⟩ := g9 (by omega) _ _ hwr
      refine ⟨tmp, t₂, ?_, f4⟩
      rw [restore, if_pos hp, f2]
      exact f3
  obtain ⟨tmp, t₂, hback, hrd⟩ := key
  have hlen2 : t₂.length = t.length := by
    have hl1 : (t'.set (p / 2 - 1) (c.dedup u v)).length = t.length := by simp [hlen]
    rw [restore_length hback, hl1]
  have hheap2 : IsHeapEx c t₂ o := by
    intro i a b hi h2 ha hb
    rw [hrd] at ha hb
    have hdl : ∀ y, c.lt (c.dedup u v) y = c.lt u y := fun y => hc.dedup_lt u v y g6
    have hdr : ∀ y, c.lt y (c.dedup u v) = c.lt y u := fun y => hc.lt_dedup u v y g6
    by_cases hio : i / 2 = o
    · rw [if_neg (by omega), if_neg (by omega)] at hb
      have := rd_bounds hb
      omega
    · rw [if_neg hio] at ha
      -- the order between the old entries
      have hpar : ∀ y, rd t (i / 2) = some y → c.lt a b = c.lt y b := by
        intro y hy
        split at ha
        · cases ha
          rename_i hq
          rw [hq, g4] at hy
          cases hy
          exact hdl b
        · rw [hy] at ha; cases ha; rfl
      have hbi : i / 2 ≤ t.length := by
        have := (rd_bounds (t := t₂) (i := i / 2) (a := a) (by rw [hrd, if_neg hio]; exact ha)).2
        omega
      obtain ⟨y, hy⟩ := rd_exists (t := t) (i := i / 2) (by omega) hbi
      rw [hpar y hy]
      rw [if_neg h2] at hb
      by_cases h3 : i = p / 2
      · rw [if_pos h3] at hb
        cases hb
        rw [hdr]
        exact h i y u hi h2 hy (by rw [h3]; exact g4)
      · rw [if_neg h3] at hb
        exact h i y b hi h2 hy hb
  obtain ⟨last, hlast⟩ := rd_exists (t := t₂) (i := t₂.length) (by omega) (le_refl _)
  have hsum := wsum_two w (show o ≠ p / 2 by omega) hx g4 hrd
  have hdrop := wsum_dropLast w hlast
  refine ⟨t₂.dropLast, last, tmp, ?_, hheap2.dropLast, ?_, ?_, ?_, ?_⟩
  · rw [mergeUp, g5]
    simp only [hwr, hback, hlast]
  · rw [List.length_dropLast]; omega
  · intro ho
    rw [rd_dropLast (by omega), hrd, if_pos rfl]
  · intro ho
    rw [hlen2, ← ho, hrd, if_pos rfl] at hlast
    cases hlast
    rfl
  · exact ⟨u, g5, g4, by omega, g3, g6, by rw [hdrop, hsum]⟩

theorem mergeUp_spec (hc : c.Lawful) (hw : c.Weight w) {t t' : List E} {o p : ℕ} {v x : E}
    (h : IsHeapEx c t o) (hx : rd t o = some x) (hleaf : t.length < 2 * o)
    (hcl : climb c t o v = some (.dup t' p)) :
    ∃ t₁ last tmp, mergeUp c t' o p v = some (t₁, last) ∧ IsHeapEx c t₁ o ∧
      t₁.length + 1 = t.length ∧
      (o < t.length → rd t₁ o = some tmp) ∧ (o = t.length → last = tmp) ∧
      wsum w t₁ + w last + w x = wsum w t + w v + w tmp := by
  obtain ⟨t₁, last, tmp, f1, f2, f3, f4, f5, u, _, _, _, g3, g6, hsum⟩ := mergeUp_raw hc w h hx hleaf hcl
  refine ⟨t₁, last, tmp, f1, f2, f3, f4, f5, ?_⟩
  rw [hw g3 u v g6] at hsum
  apply add_right_cancel (b := w u)
  rw [hsum]
  abel

theorem moveValueUp_spec (hc : c.Lawful) (hw : c.Weight w) (t : List E) (o : ℕ) (v x : E)
    (h : IsHeapEx c t o) (hx : rd t o = some x) (hleaf : t.length < 2 * o) :
    ∃ t', moveValueUp c t o v = some t' ∧ IsHeap c t' ∧ wsum w t' + w x = wsum w t + w v := by
  induction hn : t.length using Nat.strong_induction_on generalizing t v x with
  | _ n ih =>
    have hb := rd_bounds hx
    obtain ⟨r, hr, hplace⟩ := climb_spec hc w t o v h hb.1 hb.2 (Or.inl hleaf)
    rw [moveValueUp]
    split
    · rename_i hcl; rw [hr] at hcl; cases hcl
    · rename_i t' pos hcl
      rw [hr] at hcl
      cases hcl
      obtain ⟨g1, g2, g3, g4, g5, g6, g7⟩ := hplace t' pos rfl
      have hwr := wr_some (t := t') v g3 (by omega)
      obtain ⟨y, hy⟩ := rd_exists (t := t') (i := pos) g3 (by omega)
      refine ⟨_, hwr, g1.place hc (by rw [g2]; exact g5) g6 hwr, ?_⟩
      have e1 := g7 x y hx hy
      have e2 := wsum_wr w hwr hy
      apply add_right_cancel (b := w y)
      rw [add_right_comm, e2, add_right_comm, e1]
      abel
    · rename_i t' pos hcl
      obtain ⟨t₁, last, tmp, f1, f2, f3, f4, f5, f6⟩ := mergeUp_spec hc hw h hx hleaf hcl
      split
      · rename_i hm; rw [f1] at hm; cases hm
      · rename_i t₁' last' hm
        rw [f1] at hm
        cases hm
        split
        · rename_i ho
          have := f5 (by omega)
          subst this
          refine ⟨_, rfl, f2.full (by omega), ?_⟩
          apply add_right_cancel (b := w last)
          rw [add_right_comm, f6]
        · rename_i ho
          obtain ⟨t₃, k1, k2, k3⟩ := ih t₁.length (by omega) t₁ last tmp f2 (f4 (by omega))
            (by omega) rfl
          refine ⟨t₃, k1, k2, ?_⟩
          apply add_right_cancel (b := w tmp)
          rw [add_right_comm, k3, f6]

theorem push_spec (hc : c.Lawful) (hw : c.Weight w) {t : List E} (h : IsHeap c t) (e : E) :
    ∃ t', push c t e = some t' ∧ IsHeap c t' ∧ wsum w t' = wsum w t + w e := by
  have hx : rd (t ++ [e]) (t.length + 1) = some e := rd_append_last
  obtain ⟨t', h1, h2, h3⟩ := moveValueUp_spec hc hw (t ++ [e]) (t.length + 1) e e (by
    intro i a b hi hio ha hb
    have hbd := rd_bounds hb
    simp only [List.length_append, List.length_singleton] at hbd
    rw [rd_append_left (by omega) (by omega)] at ha hb
    exact h i a b hi ha hb) hx (by simp only [List.length_append, List.length_singleton]; omega)
  refine ⟨t', h1, h2, ?_⟩
  have := add_right_cancel h3
  rw [this]
  simp

theorem pushRange_spec (hc : c.Lawful) (hw : c.Weight w) {t : List E} (h : IsHeap c t)
    (l : List E) :
    ∃ t', pushRange c t l = some t' ∧ IsHeap c t' ∧ wsum w t' = wsum w t + wsum w l := by
  induction l generalizing t with
  | nil => exact ⟨t, rfl, h, by simp⟩
  | cons e l ih =>
    obtain ⟨t₁, h1, h2, h3⟩ := push_spec hc hw h e
    obtain ⟨t₂, g1, g2, g3⟩ := ih h2
    refine ⟨t₂, ?_, g2, ?_⟩
    · rw [pushRange, h1]; exact g1
    · rw [g3, h3, wsum_cons, add_assoc]

theorem decreaseTop_spec (hc : c.Lawful) (hw : c.Weight w) {t : List E} (h : IsHeap c t) (e x : E)
    (hx : rd t 1 = some x) :
    ∃ t', decreaseTop c t e = some t' ∧ IsHeap c t' ∧ wsum w t' + w x = wsum w t + w e := by
  have hb := rd_bounds hx
  obtain ⟨t₁, p, f1, f2, f3, f4, f5, f6, f7⟩ := moveHoleDown_spec hc w t 1 h (le_refl _) hb.2
  obtain ⟨y, hy⟩ := rd_exists (t := t₁) (i := p) f4 (by omega)
  obtain ⟨t₂, g1, g2, g3⟩ := moveValueUp_spec hc hw t₁ p e y (f2.ex _) hy (by omega)
  refine ⟨t₂, ?_, g2, ?_⟩
  · rw [decreaseTop, f1]; exact g1
  · have e1 := f7 x y hx hy
    apply add_right_cancel (b := w y)
    rw [add_right_comm, g3, add_right_comm, e1]
    abel

theorem pop_spec (hc : c.Lawful) (hw : c.Weight w) {t : List E} (h : IsHeap c t) (x : E)
    (hx : rd t 1 = some x) :
    ∃ t', pop c t = some (x, t') ∧ IsHeap c t' ∧ wsum w t' + w x = wsum w t := by
  have hb := rd_bounds hx
  obtain ⟨moved, hm⟩ := rd_exists (t := t) (i := t.length) (by omega) (le_refl _)
  have hd := wsum_dropLast w hm
  rw [pop, hx, hm]
  simp only
  by_cases he : t.dropLast.isEmpty = true
  · rw [if_pos he]
    refine ⟨_, rfl, h.dropLast, ?_⟩
    have hl : t.dropLast.length = 0 := by rw [List.isEmpty_iff] at he; rw [he]; rfl
    rw [List.length_dropLast] at hl
    rw [show t.length = 1 by omega, hx] at hm
    cases hm
    exact hd
  · rw [if_neg he]
    have hl : t.dropLast.length ≠ 0 := by
      intro h0; exact he (List.isEmpty_iff.mpr (List.length_eq_zero_iff.mp h0))
    have hl' : t.dropLast.length = t.length - 1 := List.length_dropLast
    have hx1 : rd t.dropLast 1 = some x := by rw [rd_dropLast (by omega)]; exact hx
    obtain ⟨t₁, p, f1, f2, f3, f4, f5, f6, f7⟩ :=
      moveHoleDown_spec hc w t.dropLast 1 h.dropLast (le_refl _) (by omega)
    obtain ⟨y, hy⟩ := rd_exists (t := t₁) (i := p) f4 (by omega)
    obtain ⟨t₂, g1, g2, g3⟩ := moveValueUp_spec hc hw t₁ p moved y (f2.ex _) hy (by omega)
    refine ⟨t₂, ?_, g2, ?_⟩
    · simp only [f1, g1]
    · have e1 := f7 x y hx1 hy
      rw [← hd]
      apply add_right_cancel (b := w y)
      rw [add_right_comm, g3, add_right_comm, e1]
      abel

end weights

theorem decreaseTop_nil (c : PQConf E) (e : E) : decreaseTop c [] e = none := by
  have h1 : moveHoleDown c ([] : List E) 1 = some ([], 1) := by
    rw [moveHoleDown]; simp
  have h2 : climb c ([] : List E) 1 e = some (.place [] 1) := by
    rw [climb]; simp
  rw [decreaseTop, h1]
  simp only
  rw [moveValueUp]
  split
  · rfl
  · rename_i t' pos h
    rw [h2] at h
    cases h
    rfl
  · rename_i t' pos h
    rw [h2] at h
    cases h

end Verif.Heap
