import Verif.Geobucket

/-!
# Helper lemmas about the buckets of a `Geobucket`: single buckets, `merge`, and the entries held
-/

namespace Verif.Geobucket

variable {E M : Type} [AddCommMonoid M] {c : Conf E}

/-- Sorted so that no entry is followed by a smaller one. -/
def Asc (c : Conf E) (l : List E) : Prop := l.Pairwise (fun x y => c.lt y x = false)

/-- `d` compares as `y` does. -/
def Same (c : Conf E) (d y : E) : Prop := ∀ z, c.lt d z = c.lt y z ∧ c.lt z d = c.lt z y

/-- A bucket in order. -/
structure BOk (c : Conf E) (b : Bucket E) : Prop where
  fits : b.es.length ≤ b.cap
  asc : Asc c b.es
  back : c.collectMax = true → b.es ≠ [] → b.back = b.es.getLast?

theorem Same.refl (x : E) : Same c x x := fun _ => ⟨rfl, rfl⟩

theorem Same.symm {x y : E} (h : Same c x y) : Same c y x := fun z => ⟨(h z).1.symm, (h z).2.symm⟩

theorem Same.trans {x y z : E} (h : Same c x y) (h' : Same c y z) : Same c x z :=
  fun u => ⟨(h u).1.trans (h' u).1, (h u).2.trans (h' u).2⟩

theorem same_of_incomparable (hc : StrictWeak c.lt) {x y : E} (h1 : c.lt x y = false)
    (h2 : c.lt y x = false) : Same c x y := by
  intro z
  constructor
  · cases hxz : c.lt x z with
    | true =>
      rcases hc.negTrans x y z hxz with h | h
      · rw [h1] at h; cases h
      · exact h.symm
    | false => exact (hc.ge_trans h2 hxz).symm
  · cases hzx : c.lt z x with
    | true =>
      rcases hc.negTrans z y x hzx with h | h
      · exact h.symm
      · rw [h2] at h; cases h
    | false => exact (hc.ge_trans hzx h1).symm

theorem eq_true (hc : c.Lawful) {x y : E} (h : c.eq x y = true) : c.lt x y = false ∧ c.lt y x = false := by
  rw [hc.eq_iff] at h
  simpa using h

theorem dedup_same_left (hc : c.Lawful) {x y : E} (h : c.eq x y = true) : Same c (c.dedup x y) x :=
  fun z => ⟨hc.dedup_lt x y z h, hc.lt_dedup x y z h⟩

theorem dedup_same_right (hc : c.Lawful) {x y : E} (h : c.eq x y = true) : Same c (c.dedup x y) y :=
  (dedup_same_left hc h).trans
    (same_of_incomparable hc.weak (eq_true hc h).1 (eq_true hc h).2)

/-! ## Sorted lists -/

theorem Asc.le_last (hc : StrictWeak c.lt) {l : List E} (h : Asc c l) {x : E}
    (hx : l.getLast? = some x) : ∀ y ∈ l, c.lt x y = false := by
  obtain ⟨l', rfl⟩ := List.getLast?_eq_some_iff.mp hx
  intro y hy
  rcases List.mem_append.mp hy with hy | hy
  · exact (List.pairwise_append.mp h).2.2 y hy x (by simp)
  · simp at hy
    subst hy
    exact hc.irrefl _

theorem Asc.dropLast {l : List E} (h : Asc c l) : Asc c l.dropLast :=
  List.Pairwise.sublist (List.dropLast_sublist l) h

theorem Asc.snoc {l : List E} {e : E} (h : Asc c l) (he : ∀ y ∈ l, c.lt e y = false) :
    Asc c (l ++ [e]) := by
  refine List.pairwise_append.mpr ⟨h, List.pairwise_singleton _ _, ?_⟩
  intro a ha b hb
  simp at hb
  subst hb
  exact he a ha

theorem Asc.insert {l₁ l₂ : List E} {e : E} (h : Asc c (l₁ ++ l₂)) (h1 : ∀ y ∈ l₁, c.lt e y = false)
    (h2 : ∀ y ∈ l₂, c.lt y e = false) : Asc c (l₁ ++ e :: l₂) := by
  have h' := List.pairwise_append.mp h
  refine List.pairwise_append.mpr ⟨h'.1, List.pairwise_cons.mpr ⟨h2, h'.2.1⟩, ?_⟩
  intro a ha b hb
  rcases List.mem_cons.mp hb with rfl | hb
  · exact h1 a ha
  · exact h'.2.2 a ha b hb

theorem Asc.set {l : List E} {i : ℕ} {d y : E} (h : Asc c l) (hy : l[i]? = some y) (hd : Same c d y) :
    Asc c (l.set i d) := by
  unfold Asc at h ⊢
  rw [List.pairwise_iff_getElem] at h ⊢
  intro a b ha hb hab
  simp only [List.length_set] at ha hb
  have := h a b ha hb hab
  rw [List.getElem_set, List.getElem_set]
  split
  · rename_i e
    rw [if_neg (by omega), (hd _).1]
    have : l[b] = y := by rw [e, List.getElem?_eq_getElem hb] at hy; simpa using hy
    rw [← this]
    assumption
  · split
    · rename_i e
      have : l[a] = y := by rw [e, List.getElem?_eq_getElem ha] at hy; simpa using hy
      rw [(hd _).2, ← this]
      assumption
    · assumption

/-! ## Operations of a bucket -/

theorem getBack_eq {b : Bucket E} (h : BOk c b) : b.getBack c = b.es.getLast? := by
  unfold Bucket.getBack
  split
  · rename_i h0; rw [h0]; rfl
  · rename_i h0
    split
    · rename_i h1; exact h.back h1 h0
    · rfl

theorem popBack_spec {b : Bucket E} (h : BOk c b) (hne : b.es ≠ []) :
    ∃ b', b.popBack c = some b' ∧ b'.es = b.es.dropLast ∧ b'.cap = b.cap ∧ BOk c b' := by
  refine ⟨_, if_neg hne, rfl, rfl, ?_, h.asc.dropLast, ?_⟩
  · have := h.fits
    simp only [List.length_dropLast]
    omega
  · intro hm hn
    have : b.es.dropLast.length > 0 := List.length_pos_iff.mpr hn
    simp only [hm, this, decide_true, Bool.and_self, if_true]

theorem setEntry_spec {b : Bucket E} {i : ℕ} {d y : E} (h : BOk c b) (hy : b.es[i]? = some y)
    (hd : Same c d y) :
    ∃ b', b.setEntry c i d = some b' ∧ b'.es = b.es.set i d ∧ b'.cap = b.cap ∧ BOk c b' := by
  have hi := (List.getElem?_eq_some_iff.mp hy).1
  refine ⟨_, if_pos hi, rfl, rfl, by simpa using h.fits, h.asc.set hy hd, ?_⟩
  intro hm hn
  simp only [hm, Bool.true_and, decide_eq_true_eq]
  rw [List.getLast?_eq_getElem?, List.length_set, List.getElem?_set]
  split
  · rw [if_pos (by omega)]
  · rw [if_neg (by omega), h.back hm (by intro e; rw [e] at hi; simp at hi), List.getLast?_eq_getElem?]

theorem fill_spec {b : Bucket E} {l : List E} (hl : l.length ≤ b.cap) (ha : Asc c l) :
    ∃ b', b.fill l = some b' ∧ b'.es = l ∧ b'.cap = b.cap ∧ BOk c b' := by
  refine ⟨_, if_pos hl, rfl, rfl, hl, ha, ?_⟩
  intro _ hn
  simp only
  rw [if_pos (List.length_pos_iff.mpr hn)]

theorem clear_ok (b : Bucket E) : BOk c b.clear :=
  ⟨Nat.zero_le _, List.Pairwise.nil, fun _ h => absurd rfl h⟩

theorem pushBack_spec {b : Bucket E} {e : E} (h : BOk c b) (hl : b.es.length < b.cap)
    (he : ∀ y ∈ b.es, c.lt e y = false) :
    ∃ b', b.pushBack c e = some b' ∧ b'.es = b.es ++ [e] ∧ b'.cap = b.cap ∧ BOk c b' := by
  refine ⟨_, if_pos hl, rfl, rfl, by simpa using Nat.succ_le_of_lt hl, h.asc.snoc he, ?_⟩
  intro hm _
  simp [hm]

theorem insertAtNotEnd_spec {b : Bucket E} {e : E} {i : ℕ} (h : BOk c b) (hl : b.es.length < b.cap)
    (hi : i < b.es.length) (h1 : ∀ y ∈ b.es.take i, c.lt e y = false)
    (h2 : ∀ y ∈ b.es.drop i, c.lt y e = false) :
    ∃ b', b.insertAtNotEnd i e = some b' ∧ b'.es = b.es.take i ++ e :: b.es.drop i ∧ b'.cap = b.cap ∧
      BOk c b' := by
  refine ⟨_, if_pos ⟨hi, hl⟩, rfl, rfl, ?_, ?_, ?_⟩
  · simp only [List.length_append, List.length_take, List.length_cons, List.length_drop]
    omega
  · exact Asc.insert (by rw [List.take_append_drop]; exact h.asc) h1 h2
  · intro hm _
    have hne : b.es ≠ [] := by intro e; rw [e] at hi; simp at hi
    have hd : b.es.drop i ≠ [] := by
      intro e
      have := congrArg List.length e
      simp at this
      omega
    simp only
    rw [h.back hm hne]
    conv_lhs => rw [← List.take_append_drop i b.es]
    rw [List.getLast?_append_of_ne_nil _ hd, List.getLast?_append_of_ne_nil _ (by simp),
      List.getLast?_cons_of_ne_nil hd]

/-! ## `merge` -/

theorem merge_spec (hc : c.Lawful) {w : E → M} (hw : c.Weight w) : ∀ l₁ l₂ : List E, Asc c l₁ → Asc c l₂ →
    Asc c (merge c l₁ l₂).1 ∧ (merge c l₁ l₂).1.length + (merge c l₁ l₂).2 = l₁.length + l₂.length ∧
    wsum w (merge c l₁ l₂).1 = wsum w l₁ + wsum w l₂ ∧
    (∀ z, (∀ y ∈ l₁, c.lt y z = false) → (∀ y ∈ l₂, c.lt y z = false) →
      ∀ y ∈ (merge c l₁ l₂).1, c.lt y z = false) ∧
    (∀ x, x ∈ l₁ ∨ x ∈ l₂ → ∃ y ∈ (merge c l₁ l₂).1, Same c y x) := by
  intro l₁ l₂
  induction l₁, l₂ using merge.induct c with
  | case1 l₂ =>
    intro h1 h2
    simp only [merge]
    refine ⟨h2, by simp, by simp, fun z _ hz => hz, ?_⟩
    intro x hx
    rcases hx with hx | hx
    · cases hx
    · exact ⟨x, hx, Same.refl x⟩
  | case2 a l₁ =>
    intro h1 h2
    simp only [merge]
    refine ⟨h1, by simp, by simp, fun z hz _ => hz, ?_⟩
    intro x hx
    rcases hx with hx | hx
    · exact ⟨x, hx, Same.refl x⟩
    · cases hx
  | case3 a l₁ b l₂ hlt ih =>
    intro h1 h2
    have h1' := List.pairwise_cons.mp h1
    have h2' := List.pairwise_cons.mp h2
    obtain ⟨i1, i2, i3, i4, i5⟩ := ih h1'.2 h2
    rw [merge, if_pos hlt]
    have hba : c.lt b a = false := hc.weak.asymm hlt
    refine ⟨List.pairwise_cons.mpr ⟨?_, i1⟩, ?_, ?_, ?_, ?_⟩
    · apply i4 a h1'.1
      intro y hy
      rcases List.mem_cons.mp hy with rfl | hy
      · exact hba
      · exact hc.weak.ge_trans (h2'.1 y hy) hba
    · simp only [List.length_cons] at i2 ⊢
      omega
    · simp only [wsum_cons] at i3 ⊢
      rw [i3, add_assoc]
    · intro z hz1 hz2 y hy
      rcases List.mem_cons.mp hy with rfl | hy
      · exact hz1 y List.mem_cons_self
      · exact i4 z (fun y hy => hz1 y (List.mem_cons_of_mem _ hy)) hz2 y hy
    · intro x hx
      rcases hx with hx | hx
      · rcases List.mem_cons.mp hx with rfl | hx
        · exact ⟨x, List.mem_cons_self, Same.refl x⟩
        · obtain ⟨y, hy, hs⟩ := i5 x (Or.inl hx)
          exact ⟨y, List.mem_cons_of_mem _ hy, hs⟩
      · obtain ⟨y, hy, hs⟩ := i5 x (Or.inr hx)
        exact ⟨y, List.mem_cons_of_mem _ hy, hs⟩
  | case4 a l₁ b l₂ hlt hnd ih =>
    intro h1 h2
    have h1' := List.pairwise_cons.mp h1
    have h2' := List.pairwise_cons.mp h2
    obtain ⟨i1, i2, i3, i4, i5⟩ := ih h1 h2'.2
    rw [merge, if_neg hlt, if_pos hnd]
    have hab : c.lt a b = false := by simpa using hlt
    refine ⟨List.pairwise_cons.mpr ⟨?_, i1⟩, ?_, ?_, ?_, ?_⟩
    · apply i4 b _ h2'.1
      intro y hy
      rcases List.mem_cons.mp hy with rfl | hy
      · exact hab
      · exact hc.weak.ge_trans (h1'.1 y hy) hab
    · simp only [List.length_cons] at i2 ⊢
      omega
    · simp only [wsum_cons] at i3 ⊢
      rw [i3]
      exact add_left_comm _ _ _
    · intro z hz1 hz2 y hy
      rcases List.mem_cons.mp hy with rfl | hy
      · exact hz2 y List.mem_cons_self
      · exact i4 z hz1 (fun y hy => hz2 y (List.mem_cons_of_mem _ hy)) y hy
    · intro x hx
      rcases hx with hx | hx
      · obtain ⟨y, hy, hs⟩ := i5 x (Or.inl hx)
        exact ⟨y, List.mem_cons_of_mem _ hy, hs⟩
      · rcases List.mem_cons.mp hx with rfl | hx
        · exact ⟨x, List.mem_cons_self, Same.refl x⟩
        · obtain ⟨y, hy, hs⟩ := i5 x (Or.inr hx)
          exact ⟨y, List.mem_cons_of_mem _ hy, hs⟩
  | case5 a l₁ b l₂ hlt hnd ih =>
    intro h1 h2
    have h1' := List.pairwise_cons.mp h1
    have h2' := List.pairwise_cons.mp h2
    obtain ⟨i1, i2, i3, i4, i5⟩ := ih h1'.2 h2'.2
    rw [merge, if_neg hlt, if_neg hnd]
    have hde : c.supportDedup = true ∧ c.eq a b = true := by simpa using hnd
    have hd1 := dedup_same_left hc hde.2
    have hd2 := dedup_same_right hc hde.2
    refine ⟨List.pairwise_cons.mpr ⟨?_, i1⟩, ?_, ?_, ?_, ?_⟩
    · apply i4
      · intro y hy; rw [(hd1 _).2]; exact h1'.1 y hy
      · intro y hy; rw [(hd2 _).2]; exact h2'.1 y hy
    · simp only [List.length_cons] at i2 ⊢
      omega
    · simp only [wsum_cons, hw hde.1 a b hde.2] at i3 ⊢
      rw [i3]
      exact add_add_add_comm _ _ _ _
    · intro z hz1 hz2 y hy
      rcases List.mem_cons.mp hy with rfl | hy
      · rw [(hd1 _).1]; exact hz1 a List.mem_cons_self
      · exact i4 z (fun y hy => hz1 y (List.mem_cons_of_mem _ hy))
          (fun y hy => hz2 y (List.mem_cons_of_mem _ hy)) y hy
    · intro x hx
      rcases hx with hx | hx
      · rcases List.mem_cons.mp hx with rfl | hx
        · exact ⟨_, List.mem_cons_self, hd1⟩
        · obtain ⟨y, hy, hs⟩ := i5 x (Or.inl hx)
          exact ⟨y, List.mem_cons_of_mem _ hy, hs⟩
      · rcases List.mem_cons.mp hx with rfl | hx
        · exact ⟨_, List.mem_cons_self, hd2⟩
        · obtain ⟨y, hy, hs⟩ := i5 x (Or.inr hx)
          exact ⟨y, List.mem_cons_of_mem _ hy, hs⟩

/-! ## All the buckets -/

/-- The entries of bucket `i`. -/
def esAt (bs : List (Bucket E)) (i : ℕ) : List E :=
  match bs[i]? with
  | none => []
  | some b => b.es

theorem esAt_some {bs : List (Bucket E)} {i : ℕ} {b : Bucket E} (h : bs[i]? = some b) :
    esAt bs i = b.es := by simp [esAt, h]

theorem esAt_exists {bs : List (Bucket E)} {i : ℕ} (h : i < bs.length) :
    ∃ b, bs[i]? = some b ∧ esAt bs i = b.es :=
  ⟨_, List.getElem?_eq_getElem h, esAt_some (List.getElem?_eq_getElem h)⟩

theorem esAt_ne {bs : List (Bucket E)} {i : ℕ} (h : esAt bs i ≠ []) :
    ∃ b, bs[i]? = some b ∧ esAt bs i = b.es := by
  unfold esAt at h ⊢
  split at h
  · exact absurd rfl h
  · rename_i b hb
    exact ⟨b, hb, rfl⟩

theorem esAt_set {bs : List (Bucket E)} {i : ℕ} {b : Bucket E} (h : i < bs.length) (j : ℕ) :
    esAt (bs.set i b) j = if i = j then b.es else esAt bs j := by
  unfold esAt
  rw [List.getElem?_set]
  by_cases e : i = j
  · subst e
    simp [h]
  · simp [e]

theorem backAt_eq {bs : List (Bucket E)} (h : ∀ b ∈ bs, BOk c b) (i : ℕ) :
    backAt c bs i = (esAt bs i).getLast? := by
  unfold backAt esAt
  split
  · simp_all
  · rename_i b hb
    rw [getBack_eq (h b (List.mem_of_getElem? hb)), hb]

/-- All entries. -/
abbrev flat (bs : List (Bucket E)) : List E := bs.flatMap Bucket.es

theorem flat_set (w : E → M) {bs : List (Bucket E)} {i : ℕ} {b : Bucket E} (h : bs[i]? = some b)
    (b' : Bucket E) :
    wsum w (flat (bs.set i b')) + wsum w b.es = wsum w (flat bs) + wsum w b'.es := by
  induction bs generalizing i with
  | nil => simp at h
  | cons a bs ih =>
    cases i with
    | zero =>
      simp at h
      subst h
      simp only [List.set_cons_zero, List.flatMap_cons, wsum_append]
      rw [add_right_comm, add_comm (wsum w b'.es), add_right_comm]
    | succ i =>
      have := ih (i := i) (by simpa using h)
      simp only [List.set_cons_succ, List.flatMap_cons, wsum_append]
      rw [add_assoc, this, add_assoc]

/-- The total without one bucket, before and after that bucket is replaced. -/
theorem flat_split (w : E → M) {bs : List (Bucket E)} {i : ℕ} {b : Bucket E} (h : bs[i]? = some b)
    (b' : Bucket E) :
    ∃ r, wsum w (flat bs) = wsum w b.es + r ∧ wsum w (flat (bs.set i b')) = wsum w b'.es + r := by
  induction bs generalizing i with
  | nil => simp at h
  | cons a bs ih =>
    cases i with
    | zero =>
      simp at h
      subst h
      exact ⟨wsum w (flat bs), by simp [flat], by simp [flat]⟩
    | succ i =>
      obtain ⟨r, h1, h2⟩ := ih (i := i) (by simpa using h)
      refine ⟨wsum w a.es + r, ?_, ?_⟩
      · rw [flat, List.flatMap_cons, wsum_append, ← flat, h1, add_left_comm]
      · rw [List.set_cons_succ, flat, List.flatMap_cons, wsum_append, ← flat, h2, add_left_comm]

theorem flat_set_length {bs : List (Bucket E)} {i : ℕ} {b : Bucket E} (h : bs[i]? = some b)
    (b' : Bucket E) :
    (flat (bs.set i b')).length + b.es.length = (flat bs).length + b'.es.length := by
  have := flat_set (fun _ => (1 : ℕ)) h b'
  simpa [wsum] using this

theorem mem_flat {bs : List (Bucket E)} {x : E} : x ∈ flat bs ↔ ∃ i, x ∈ esAt bs i := by
  rw [List.mem_flatMap]
  constructor
  · rintro ⟨b, hb, hx⟩
    obtain ⟨i, hi⟩ := List.mem_iff_getElem?.mp hb
    exact ⟨i, by rwa [esAt_some hi]⟩
  · rintro ⟨i, hx⟩
    obtain ⟨b, h1, h2⟩ := esAt_ne (bs := bs) (i := i) (by intro e; rw [e] at hx; cases hx)
    exact ⟨b, List.mem_of_getElem? h1, by rwa [← h2]⟩

/-- The capacities: at least one bucket, none of capacity zero, each at least twice the one before, a
geometric sequence. -/
structure CapsOk (c : Conf E) (l : List ℕ) : Prop where
  ne : l ≠ []
  pos : ∀ x ∈ l, 1 ≤ x
  dbl : l.IsChain (fun a b => 2 * a ≤ b)
  geo : ∀ (i x : ℕ), l[i]? = some x → x = c.minBucketSize * c.geoBase ^ i

/-- The buckets are in order, `count` counts the entries with those in transit, and `T` is what all
of them weigh. -/
structure Data (c : Conf E) (w : E → M) (bs : List (Bucket E)) (count : ℕ) (pend : List E) (T : M) :
    Prop where
  caps : CapsOk c (bs.map Bucket.cap)
  ok : ∀ b ∈ bs, BOk c b
  count : count = (flat bs).length + pend.length
  weight : wsum w (flat bs) + wsum w pend = T

theorem map_cap_set {bs : List (Bucket E)} {i : ℕ} {b b' : Bucket E} (h : bs[i]? = some b)
    (hc : b'.cap = b.cap) : (bs.set i b').map Bucket.cap = bs.map Bucket.cap := by
  rw [List.map_set, hc]
  apply List.ext_getElem?
  intro j
  rw [List.getElem?_set]
  split
  · subst_vars
    split
    · rw [List.getElem?_map, h]; rfl
    · rename_i hl; rw [List.getElem?_eq_none (by omega)]
  · rfl

namespace Data
variable {w : E → M} {bs : List (Bucket E)} {count : ℕ} {pend : List E} {T : M}

theorem backAt (h : Data c w bs count pend T) (i : ℕ) : backAt c bs i = (esAt bs i).getLast? :=
  backAt_eq h.ok i

theorem at_ok (h : Data c w bs count pend T) {i : ℕ} {b : Bucket E} (hb : bs[i]? = some b) : BOk c b :=
  h.ok b (List.mem_of_getElem? hb)

/-- Change one bucket and what is in transit. -/
theorem set (h : Data c w bs count pend T) {i : ℕ} {b b' : Bucket E} (hb : bs[i]? = some b)
    (hcap : b'.cap = b.cap) (hok : BOk c b') {count' : ℕ} {pend' : List E}
    (hcount : count' + b.es.length + pend.length = count + b'.es.length + pend'.length)
    (hw : wsum w b'.es + wsum w pend' = wsum w b.es + wsum w pend) :
    Data c w (bs.set i b') count' pend' T := by
  refine ⟨?_, ?_, ?_, ?_⟩
  · rw [map_cap_set hb hcap]; exact h.caps
  · intro x hx
    rcases List.mem_or_eq_of_mem_set hx with hx | rfl
    · exact h.ok x hx
    · exact hok
  · have := flat_set_length hb b'
    have := h.count
    omega
  · obtain ⟨r, h1, h2⟩ := flat_split w hb b'
    rw [h2, add_right_comm, hw, add_right_comm, ← h1, h.weight]

theorem length_pos (h : Data c w bs count pend T) : 0 < bs.length := by
  have := h.caps.ne
  rw [List.length_pos_iff]
  intro e
  apply this
  rw [e]
  rfl

theorem cap_pos (h : Data c w bs count pend T) {i : ℕ} {b : Bucket E} (hb : bs[i]? = some b) :
    1 ≤ b.cap :=
  h.caps.pos _ (List.mem_map.mpr ⟨b, List.mem_of_getElem? hb, rfl⟩)

theorem cap_dbl (h : Data c w bs count pend T) {i : ℕ} {b b' : Bucket E} (hb : bs[i]? = some b)
    (hb' : bs[i + 1]? = some b') : 2 * b.cap ≤ b'.cap := by
  have h1 := (List.getElem?_eq_some_iff.mp hb)
  have h2 := (List.getElem?_eq_some_iff.mp hb')
  obtain ⟨l1, e1⟩ := h1
  obtain ⟨l2, e2⟩ := h2
  have := (List.isChain_iff_getElem.mp h.caps.dbl) i (by simpa using l2)
  simpa [e1, e2] using this

theorem cap_mono (h : Data c w bs count pend T) {i : ℕ} {b : Bucket E} (hb : bs[i]? = some b) :
    ∀ (k : ℕ) (b' : Bucket E), bs[i + k]? = some b' → b.cap ≤ b'.cap := by
  intro k
  induction k with
  | zero => intro b' hb'; rw [Nat.add_zero, hb] at hb'; cases hb'; exact le_refl _
  | succ k ih =>
    intro b' hb'
    have hl := (List.getElem?_eq_some_iff.mp hb').1
    obtain ⟨b'', hb''⟩ : ∃ b'', bs[i + k]? = some b'' := ⟨_, List.getElem?_eq_getElem (by omega)⟩
    have h1 := ih b'' hb''
    have h2 := h.cap_dbl hb'' (by rw [Nat.add_assoc]; exact hb')
    omega

theorem cap_tmp {s : State E} (h : Data c w s.buckets count pend T) {i : ℕ} {b : Bucket E}
    (hb : s.buckets[i]? = some b) : b.cap ≤ tmpCap s := by
  have hl := (List.getElem?_eq_some_iff.mp hb).1
  obtain ⟨b', hb'⟩ : ∃ b', s.buckets[s.buckets.length - 1]? = some b' :=
    ⟨_, List.getElem?_eq_getElem (by omega)⟩
  have := h.cap_mono hb (s.buckets.length - 1 - i) b' (by
    rw [show i + (s.buckets.length - 1 - i) = s.buckets.length - 1 by omega]; exact hb')
  rw [tmpCap, List.getLast?_eq_getElem?, hb']
  exact this

end Data

/-! ## Merging the last entries of two buckets -/

/-- Both lists have the same classes of entries. -/
def SameClasses (c : Conf E) (t t' : List E) : Prop :=
  (∀ y ∈ t, ∃ y' ∈ t', Same c y' y) ∧ (∀ y' ∈ t', ∃ y ∈ t, Same c y' y)

theorem SameClasses.refl (t : List E) : SameClasses c t t :=
  ⟨fun y hy => ⟨y, hy, Same.refl y⟩, fun y hy => ⟨y, hy, Same.refl y⟩⟩

theorem SameClasses.trans {t t' t'' : List E} (h : SameClasses c t t') (h' : SameClasses c t' t'') :
    SameClasses c t t'' := by
  constructor
  · intro y hy
    obtain ⟨y', h1, h2⟩ := h.1 y hy
    obtain ⟨y'', h3, h4⟩ := h'.1 y' h1
    exact ⟨y'', h3, h4.trans h2⟩
  · intro y hy
    obtain ⟨y', h1, h2⟩ := h'.2 y hy
    obtain ⟨y'', h3, h4⟩ := h.2 y' h1
    exact ⟨y'', h3, h2.trans h4⟩

theorem getLast?_set_last {l : List E} {d y : E} (h : l.getLast? = some y) :
    l.set (l.length - 1) d = l.dropLast ++ [d] := by
  obtain ⟨l', rfl⟩ := List.getLast?_eq_some_iff.mp h
  simp

/-- The last entry `x` of bucket `j` is merged with the last entry `y` of bucket `i` into `d`. -/
theorem Data.dedup {w : E → M} {bs : List (Bucket E)} {count : ℕ} {pend : List E} {T : M}
    (h : Data c w bs count pend T) {i j : ℕ} (hij : i ≠ j) {x y d : E}
    (hy : (esAt bs i).getLast? = some y) (hx : (esAt bs j).getLast? = some x) (hd : Same c d y)
    (hdx : Same c d x) (hw : w d = w y + w x) :
    ∃ bi bi' bj bj', bs[i]? = some bi ∧ bi.setEntry c (bi.es.length - 1) d = some bi' ∧
      (bs.set i bi')[j]? = some bj ∧ bj.popBack c = some bj' ∧
      bi'.es = (esAt bs i).dropLast ++ [d] ∧ bj'.es = (esAt bs j).dropLast ∧ bi'.cap = bi.cap ∧
      bj'.cap = bj.cap ∧
      Data c w ((bs.set i bi').set j bj') (count - 1) pend T ∧
      SameClasses c (flat bs) (flat ((bs.set i bi').set j bj')) := by
  have hne : ∀ {k : ℕ} {z : E}, (esAt bs k).getLast? = some z → esAt bs k ≠ [] := by
    intro k z hz e
    rw [e] at hz
    cases hz
  obtain ⟨bi, hbi, ei⟩ := esAt_ne (hne hy)
  obtain ⟨bj, hbj, ej⟩ := esAt_ne (hne hx)
  have li := (List.getElem?_eq_some_iff.mp hbi).1
  have lj := (List.getElem?_eq_some_iff.mp hbj).1
  rw [ei] at hy ⊢
  rw [ej] at hx ⊢
  have hyi : bi.es[bi.es.length - 1]? = some y := by rwa [← List.getLast?_eq_getElem?]
  obtain ⟨bi', s1, s2, s3, s4⟩ := setEntry_spec (h.at_ok hbi) hyi hd
  have hnj : bj.es ≠ [] := by rw [← ej]; exact hne (by rw [ej]; exact hx)
  obtain ⟨bj', p1, p2, p3, p4⟩ := popBack_spec (h.at_ok hbj) hnj
  have hbj' : (bs.set i bi')[j]? = some bj := by
    rw [List.getElem?_set_ne hij]; exact hbj
  rw [getLast?_set_last hy] at s2
  obtain ⟨li', eli⟩ := List.getLast?_eq_some_iff.mp hy
  obtain ⟨lj', elj⟩ := List.getLast?_eq_some_iff.mp hx
  rw [eli, List.dropLast_concat] at s2
  rw [elj, List.dropLast_concat] at p2
  have hlen : (flat bs).length ≥ 1 := by
    have : y ∈ flat bs := mem_flat.mpr ⟨i, by rw [ei, eli]; simp⟩
    exact List.length_pos_of_mem this
  have hflat : ∀ z, z ∈ flat ((bs.set i bi').set j bj') ↔ z ∈ li' ∨ z = d ∨ z ∈ lj' ∨
      ∃ k, k ≠ i ∧ k ≠ j ∧ z ∈ esAt bs k := by
    intro z
    rw [mem_flat]
    simp only [esAt_set (show j < (bs.set i bi').length by simpa using lj), esAt_set li]
    constructor
    · rintro ⟨k, hk⟩
      split at hk
      · rw [p2] at hk; tauto
      · split at hk
        · rw [s2] at hk
          simp at hk
          tauto
        · exact Or.inr (Or.inr (Or.inr ⟨k, fun e => by simp_all, fun e => by simp_all, hk⟩))
    · rintro (hk | rfl | hk | ⟨k, h1, h2, hk⟩)
      · exact ⟨i, by rw [if_neg (fun e => hij e.symm), if_pos rfl, s2]; simp [hk]⟩
      · exact ⟨i, by rw [if_neg (fun e => hij e.symm), if_pos rfl, s2]; simp⟩
      · exact ⟨j, by rw [if_pos rfl, p2]; exact hk⟩
      · exact ⟨k, by rw [if_neg (fun e => h2 e.symm), if_neg (fun e => h1 e.symm)]; exact hk⟩
  refine ⟨bi, bi', bj, bj', hbi, s1, hbj', p1, by rw [s2, eli]; simp, by rw [p2, elj]; simp, s3, p3, ?_, ?_⟩
  · have d1 : Data c w (bs.set j bj') count (x :: pend) T := by
      refine h.set hbj p3 p4 ?_ ?_
      · rw [p2, elj]
        simp
        omega
      · rw [p2, elj]
        simp [add_assoc]
    have hbi' : (bs.set j bj')[i]? = some bi := by
      rw [List.getElem?_set_ne (fun e => hij e.symm)]; exact hbi
    have d2 : Data c w ((bs.set j bj').set i bi') (count - 1) pend T := by
      refine d1.set hbi' s3 s4 ?_ ?_
      · have := h.count
        rw [s2, eli]
        simp
        omega
      · rw [s2, eli]
        simp [hw, add_assoc]
    rwa [List.set_comm _ _ (fun e => hij e.symm)] at d2
  · constructor
    · intro z hz
      obtain ⟨k, hk⟩ := mem_flat.mp hz
      by_cases ki : k = i
      · subst ki
        rw [ei, eli] at hk
        rcases List.mem_append.mp hk with hk | hk
        · exact ⟨z, (hflat z).mpr (Or.inl hk), Same.refl z⟩
        · simp at hk
          subst hk
          exact ⟨d, (hflat d).mpr (Or.inr (Or.inl rfl)), hd⟩
      · by_cases kj : k = j
        · subst kj
          rw [ej, elj] at hk
          rcases List.mem_append.mp hk with hk | hk
          · exact ⟨z, (hflat z).mpr (Or.inr (Or.inr (Or.inl hk))), Same.refl z⟩
          · simp at hk
            subst hk
            exact ⟨d, (hflat d).mpr (Or.inr (Or.inl rfl)), hdx⟩
        · exact ⟨z, (hflat z).mpr (Or.inr (Or.inr (Or.inr ⟨k, ki, kj, hk⟩))), Same.refl z⟩
    · intro z hz
      rcases (hflat z).mp hz with hk | rfl | hk | ⟨k, _, _, hk⟩
      · exact ⟨z, mem_flat.mpr ⟨i, by rw [ei, eli]; simp [hk]⟩, Same.refl z⟩
      · exact ⟨y, mem_flat.mpr ⟨i, by rw [ei, eli]; simp⟩, hd⟩
      · exact ⟨z, mem_flat.mpr ⟨j, by rw [ej, elj]; simp [hk]⟩, Same.refl z⟩
      · exact ⟨z, mem_flat.mpr ⟨k, hk⟩, Same.refl z⟩

end Verif.Geobucket
