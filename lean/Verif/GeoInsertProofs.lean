import Verif.GeoMergeProofs

/-!
# Helper lemmas about inserting into a `Geobucket`
-/

namespace Verif.Geobucket

variable {E M : Type} [AddCommMonoid M] {c : Conf E}

/-- The sizes that a configuration has to have (src/mathic/Geobucket.h:48-57). The documentation asks for
the first two; `insertFactor` must not be zero either, see `insertFactor_zero` in
`PropGeobucket.lean`. -/
structure Sane (c : Conf E) : Prop where
  min : 1 ≤ c.minBucketSize
  base : 2 ≤ c.geoBase
  factor : 1 ≤ c.insertFactor

/-! ## `addBucket` -/

theorem esAt_append_empty (bs : List (Bucket E)) (cap j : ℕ) :
    esAt (bs ++ [⟨cap, [], none⟩]) j = esAt bs j := by
  by_cases h : j < bs.length
  · unfold esAt
    rw [List.getElem?_append_left h]
  · have h1 : bs[j]? = none := List.getElem?_eq_none (by omega)
    by_cases e : j = bs.length
    · subst e
      rw [esAt_some (b := ⟨cap, [], none⟩) (by simp)]
      simp [esAt]
    · have h2 : (bs ++ [(⟨cap, [], none⟩ : Bucket E)])[j]? = none :=
        List.getElem?_eq_none (by simp; omega)
      simp [esAt, h1, h2]

theorem flat_append_empty (bs : List (Bucket E)) (cap : ℕ) : flat (bs ++ [⟨cap, [], none⟩]) = flat bs := by
  simp [flat]

theorem Link.addNull {f : Front} {live : List ℕ} (h : Link f live) :
    Link ⟨f.cached, f.slots, f.fend, f.pos ++ [.null]⟩ live := by
  refine ⟨h.fend, h.slot, ?_, ?_⟩
  · intro b i
    rw [← h.pos b i]
    simp only
    rw [List.getElem?_append]
    split
    · rfl
    · rename_i hb
      rw [List.getElem?_eq_none (by omega : f.pos.length ≤ b)]
      constructor
      · intro e
        have := List.mem_of_getElem? e
        simp at this
      · simp
  · intro b hb hn
    simp only [List.length_append, List.length_singleton] at hb ⊢
    rw [List.getElem?_append]
    split
    · exact h.null b (by assumption) hn
    · have : b - f.pos.length = 0 := by omega
      simp [this]

theorem length_le_of_nodup {l : List ℕ} {n : ℕ} (hn : l.Nodup) (h : ∀ x ∈ l, x < n) : l.length ≤ n := by
  have := List.Subperm.length_le (List.subperm_of_subset (l₂ := List.range n) hn
    (fun x hx => List.mem_range.mpr (h x hx)))
  simpa using this

theorem addBucket_ok (hs : Sane c) {w : E → M} {s : State E} {T : M} {pend : List E} (h : Good c w T pend s) :
    ∃ s' cap, addBucket c s = some s' ∧ Good c w T pend s' ∧ s'.buckets = s.buckets ++ [⟨cap, [], none⟩] ∧
      s'.count = s.count ∧ 2 * tmpCap s ≤ cap ∧ Uncached c s' := by
  obtain ⟨last, hlast⟩ := last_of_ne (List.ne_nil_of_length_pos h.data.length_pos)
  have hcap : 1 ≤ last.cap := h.data.caps.pos _ (List.mem_map.mpr ⟨last, List.mem_of_getLast? hlast, rfl⟩)
  have htmp : tmpCap s = last.cap := by simp [tmpCap, hlast]
  have hdata : Data c w (s.buckets ++ [⟨last.cap * c.geoBase, [], none⟩]) s.count pend T := by
    have hb := hs.base
    have h2 : 2 * last.cap ≤ last.cap * c.geoBase := by
      rw [Nat.mul_comm]
      exact Nat.mul_le_mul_left _ hb
    refine ⟨⟨?_, ?_, ?_, ?_⟩, ?_, ?_, ?_⟩
    · simp
    · intro x hx
      simp only [List.map_append, List.mem_append, List.map_cons, List.map_nil, List.mem_singleton] at hx
      rcases hx with hx | rfl
      · exact h.data.caps.pos x hx
      · show 1 ≤ last.cap * c.geoBase
        omega
    · rw [List.map_append, List.isChain_append]
      refine ⟨h.data.caps.dbl, by simp, ?_⟩
      intro x hx y hy
      simp at hy
      subst hy
      rw [List.getLast?_map, hlast] at hx
      simp at hx
      subst hx
      exact h2
    · intro i x hx
      rw [List.map_append, List.getElem?_append] at hx
      split at hx
      · exact h.data.caps.geo i x hx
      · rename_i hi
        simp only [List.length_map] at hi hx
        obtain ⟨hl, hx⟩ := List.getElem?_eq_some_iff.mp hx
        simp only [List.map_cons, List.map_nil, List.length_singleton] at hl
        have hi' : i = s.buckets.length := by omega
        have hlp := h.data.length_pos
        have hg := h.data.caps.geo (s.buckets.length - 1) last.cap (by
          rw [List.getElem?_map, ← List.getLast?_eq_getElem?, hlast]; rfl)
        simp only [hi', Nat.sub_self, List.map_cons, List.map_nil, List.getElem_cons_zero] at hx
        rw [← hx, hi', hg, Nat.mul_assoc, ← Nat.pow_succ, Nat.succ_eq_add_one, Nat.sub_add_cancel hlp]
    · intro b hb
      rcases List.mem_append.mp hb with hb | hb
      · exact h.data.ok b hb
      · simp at hb
        subst hb
        exact ⟨Nat.zero_le _, List.Pairwise.nil, fun _ h => absurd rfl h⟩
    · rw [flat_append_empty]; exact h.data.count
    · rw [flat_append_empty]; exact h.data.weight
  have h2 : 2 * tmpCap s ≤ last.cap * c.geoBase := by
    rw [htmp, Nat.mul_comm]
    exact Nat.mul_le_mul_left _ hs.base
  cases ht : c.trackFront with
  | false =>
    refine ⟨⟨s.buckets ++ [⟨last.cap * c.geoBase, [], none⟩], s.count,
      ⟨none, s.front.slots, s.front.fend, s.front.pos ++ [.null]⟩⟩, last.cap * c.geoBase, ?_, ⟨hdata, ?_⟩, rfl, rfl, h2, fun _ => rfl⟩
    · simp [addBucket, hlast, ht]
    · intro h
      rw [ht] at h
      cases h
  | true =>
    obtain ⟨live, hf⟩ := h.front ht
    have hle : live.length ≤ s.buckets.length := by
      apply length_le_of_nodup hf.link.nodup
      intro x hx
      rw [← hf.len]
      exact hf.link.mem_lt hx
    obtain ⟨f', k1, k2, k3, _, _⟩ := reserveCapacity_spec hf.link.addNull (n := s.buckets.length + 1) (by omega)
    refine ⟨⟨s.buckets ++ [⟨last.cap * c.geoBase, [], none⟩], s.count, f'⟩, last.cap * c.geoBase, ?_,
      ⟨hdata, fun _ => ⟨live, k2, ?_, ?_, ?_⟩⟩, rfl, rfl, h2, ?_⟩
    · simp only [addBucket, hlast, ht, if_true, List.length_append, List.length_singleton, k1, Option.map_some]
    · rw [k3]
      simp [hf.len]
    · intro b
      rw [esAt_append_empty]
      exact hf.mem b
    · refine List.Pairwise.imp ?_ hf.ord
      intro i j hij
      exact geK_congr (esAt_append_empty _ _ _) (esAt_append_empty _ _ _) hij
    · intro h
      rw [ht] at h
      cases h

/-- The constructor. -/
theorem mk_spec (hs : Sane c) (w : E → M) :
    ∃ s, mk c = some s ∧ Good c w 0 [] s ∧ Uncached c s ∧ flat s.buckets = [] := by
  have hdata : Data c w [⟨c.minBucketSize, [], none⟩] 0 [] 0 := by
    refine ⟨⟨by simp, ?_, by simp, ?_⟩, ?_, by simp [flat], by simp [flat]⟩
    · simpa using hs.min
    · intro i x hx
      obtain ⟨hl, hx⟩ := List.getElem?_eq_some_iff.mp hx
      simp at hl
      subst hl
      simpa using hx.symm
    · intro b hb
      simp at hb
      subst hb
      exact ⟨Nat.zero_le _, List.Pairwise.nil, fun _ h => absurd rfl h⟩
  cases ht : c.trackFront with
  | false =>
    refine ⟨⟨[⟨c.minBucketSize, [], none⟩], 0, ⟨none, [], 0, [.null]⟩⟩, ?_, ⟨hdata, ?_⟩, fun _ => rfl, by simp [flat]⟩
    · simp [mk, addBucket, ht]
    · intro h
      rw [ht] at h
      cases h
  | true =>
    refine ⟨⟨[⟨c.minBucketSize, [], none⟩], 0, ⟨none, [none], 0, [.null]⟩⟩, ?_, ⟨hdata, ?_⟩, ?_, by simp [flat]⟩
    · simp [mk, addBucket, ht, reserveCapacity]
    · intro _
      refine ⟨[], ⟨rfl, by simp, ?_, ?_⟩, rfl, ?_, List.Pairwise.nil⟩
      · intro b i
        cases b <;> simp
      · intro b hb _
        simp at hb
        subst hb
        rfl
      · intro b
        cases b <;> simp [esAt]
    · intro h
      exact absurd (ht.symm.trans h) (by simp)

/-! ## Without premerge -/

/-- Merging `acc` entries into these buckets, one after the other, ends at one that holds them. -/
def Room (acc : ℕ) : List (Bucket E) → Prop
  | [] => False
  | b :: l => acc + b.es.length ≤ b.cap ∨ Room (acc + b.es.length) l

theorem Room.mono {l : List (Bucket E)} : ∀ {acc acc' : ℕ}, acc' ≤ acc → Room acc l → Room acc' l := by
  induction l with
  | nil => intro _ _ _ h; exact h
  | cons b l ih =>
    intro acc acc' hle h
    rcases h with h | h
    · left; omega
    · right; exact ih (by omega) h

/-- `s'` is `s` with at most some empty buckets added. -/
def Grown (s s' : State E) : Prop :=
  s'.buckets = s.buckets ∨ ∃ cap, s'.buckets = s.buckets ++ [⟨cap, [], none⟩]

theorem Grown.esAt {s s' : State E} (h : Grown s s') (j : ℕ) : esAt s'.buckets j = esAt s.buckets j := by
  rcases h with h | ⟨cap, h⟩
  · rw [h]
  · rw [h, esAt_append_empty]

theorem Grown.get {s s' : State E} (h : Grown s s') {j : ℕ} {b : Bucket E} (hb : s.buckets[j]? = some b) :
    s'.buckets[j]? = some b := by
  have hl := (List.getElem?_eq_some_iff.mp hb).1
  rcases h with h | ⟨cap, h⟩
  · rw [h]; exact hb
  · rw [h, List.getElem?_append_left hl]; exact hb

theorem reserveLoop_ok (hs : Sane c) {w : E → M} {T : M} {pend : List E} :
    ∀ (n i acc : ℕ) (s : State E) (pb : Bucket E), Good c w T pend s → s.buckets[i]? = some pb →
    acc ≤ 2 * pb.cap → s.buckets.length ≤ n + i →
    ∃ s', reserveLoop c n (i + 1) acc s = some s' ∧ Good c w T pend s' ∧ Grown s s' ∧
      Room acc (s'.buckets.drop (i + 1)) := by
  intro n
  induction n with
  | zero =>
    intro i acc s pb h hpb _ hn
    have := (List.getElem?_eq_some_iff.mp hpb).1
    omega
  | succ n ih =>
    intro i acc s pb h hpb hacc hn
    have hil := (List.getElem?_eq_some_iff.mp hpb).1
    by_cases hi : i + 1 = s.buckets.length
    · obtain ⟨s', cap, a1, a2, a3, a4, a5, _⟩ := addBucket_ok hs h
      have hb : s'.buckets[i + 1]? = some ⟨cap, [], none⟩ := by
        rw [a3, hi]
        simp
      have hcap := h.data.cap_tmp hpb
      refine ⟨s', ?_, a2, Or.inr ⟨cap, a3⟩, ?_⟩
      · simp only [reserveLoop, if_pos hi, a1, Option.bind_eq_bind, Option.bind_some, hb, List.length_nil]
        rw [if_pos (by omega)]
      · rw [a3, hi]
        simp [Room]
        omega
    · obtain ⟨b, hb⟩ : ∃ b, s.buckets[i + 1]? = some b := ⟨_, List.getElem?_eq_getElem (by omega)⟩
      have hdbl := h.data.cap_dbl hpb hb
      have hfits := (h.data.at_ok hb).fits
      have hdrop : ∀ {bs : List (Bucket E)}, bs[i + 1]? = some b → bs.drop (i + 1) = b :: bs.drop (i + 1 + 1) := by
        intro bs h
        obtain ⟨h1, h2⟩ := List.getElem?_eq_some_iff.mp h
        rw [List.drop_eq_getElem_cons h1, h2]
      simp only [reserveLoop, if_neg hi, Option.bind_eq_bind, Option.bind_some, hb]
      by_cases hfit : acc + b.es.length ≤ b.cap
      · rw [if_pos hfit]
        refine ⟨s, rfl, h, Or.inl rfl, ?_⟩
        rw [hdrop hb]
        exact Or.inl hfit
      · rw [if_neg hfit]
        obtain ⟨s', k1, k2, k3, k4⟩ := ih (i + 1) (acc + b.es.length) s b h hb (by omega) (by omega)
        refine ⟨s', k1, k2, k3, ?_⟩
        rw [hdrop (k3.get hb)]
        exact Or.inr k4

theorem drop_cons_of {bs : List (Bucket E)} {i : ℕ} {b : Bucket E} (h : bs[i]? = some b) :
    bs.drop i = b :: bs.drop (i + 1) := by
  obtain ⟨h1, h2⟩ := List.getElem?_eq_some_iff.mp h
  rw [List.drop_eq_getElem_cons h1, h2]

/-- From `Room` behind bucket `i`, there is a next bucket. -/
theorem Room.next {bs : List (Bucket E)} {i acc : ℕ} (h : Room acc (bs.drop i)) : ∃ b, bs[i]? = some b := by
  by_cases hi : i < bs.length
  · exact ⟨_, List.getElem?_eq_getElem hi⟩
  · rw [List.drop_eq_nil_of_le (by omega)] at h
    exact absurd h (by simp [Room])

theorem cascadeLoop_ok (hc : c.Lawful) {w : E → M} (hw : c.Weight w) {T : M} :
    ∀ (n i : ℕ) (l : List E) (s : State E) (b : Bucket E), Good c w T l s → s.buckets[i]? = some b →
    b.es ≠ [] → Asc c l → l.length ≤ b.cap → Room l.length (s.buckets.drop i) → s.buckets.length ≤ n + i →
    ∃ s', cascadeLoop c n i l s = some s' ∧ Good c w T [] s' ∧ Uncached c s' := by
  intro n
  induction n with
  | zero =>
    intro i l s b _ hb _ _ _ _ hn
    have := (List.getElem?_eq_some_iff.mp hb).1
    omega
  | succ n ih =>
    intro i l s b h hb hbn hl hfit hroom hn
    simp only [cascadeLoop, hb, Option.bind_eq_bind, Option.bind_some]
    by_cases hf : l.length + b.es.length ≤ b.cap
    · rw [if_pos hf]
      exact mergeToNonEmpty_ok hc hw h hb hbn hl (by omega)
    · rw [if_neg hf]
      rw [drop_cons_of hb] at hroom
      have hroom' : Room (l.length + b.es.length) (s.buckets.drop (i + 1)) := by
        rcases hroom with h | h
        · exact absurd h hf
        · exact h
      obtain ⟨nb, hnb⟩ := hroom'.next
      have hdbl := h.data.cap_dbl hb hnb
      have hfits := (h.data.at_ok hb).fits
      simp only [hnb, Option.bind_some]
      by_cases hne : nb.es = []
      · rw [if_pos hne]
        exact mergeToEmpty_ok hc hw h (by omega) hb hnb hbn hne hl (by omega)
      · rw [if_neg hne]
        obtain ⟨l', s', k1, k2, k3, k4, k5, k6⟩ := mergeToTmp_ok hc hw h hb hbn hl hnb hfit
        rw [k1]
        simp only [Option.bind_some]
        refine ih (i + 1) l' s' nb k2 ?_ hne k4 (by omega) ?_ ?_
        · rw [k6, List.getElem?_set_ne (by omega)]; exact hnb
        · rw [k6, List.drop_set_of_lt (by omega)]
          exact hroom'.mono k5
        · rw [k6, List.length_set]
          omega

theorem insertNoPremerge_ok (hs : Sane c) (hc : c.Lawful) {w : E → M} (hw : c.Weight w) {T : M} {s : State E}
    {l : List E} {i : ℕ} {b : Bucket E} (h : Good c w T l s) (hb : s.buckets[i]? = some b)
    (hl : Asc c l) (hfit : l.length ≤ b.cap) (hne : c.trackFront = true → l ≠ []) :
    ∃ s', insertNoPremerge c s i l = some s' ∧ Good c w T [] s' ∧ Uncached c s' := by
  simp only [insertNoPremerge, hb, Option.bind_eq_bind, Option.bind_some]
  have hfits := (h.data.at_ok hb).fits
  by_cases hbn : b.es = []
  · rw [if_pos hbn]
    exact assignNew_ok hc h hb hbn hl hfit hne
  · rw [if_neg hbn]
    by_cases hf : b.es.length + l.length ≤ b.cap
    · rw [if_pos hf]
      exact mergeToNonEmpty_ok hc hw h hb hbn hl hf
    · rw [if_neg hf]
      obtain ⟨s₁, r1, r2, r3, r4⟩ := reserveLoop_ok hs (s.buckets.length + 1) i (b.es.length + l.length) s b h hb
        (by omega) (by omega)
      rw [r1]
      have hb₁ := r3.get hb
      obtain ⟨nb, hnb⟩ := r4.next
      have hdbl := r2.data.cap_dbl hb₁ hnb
      simp only [Option.bind_some, hnb]
      by_cases hnn : nb.es = []
      · rw [if_pos hnn]
        exact mergeToEmpty_ok hc hw r2 (by omega) hb₁ hnb hbn hnn hl (by omega)
      · rw [if_neg hnn]
        obtain ⟨l', s', k1, k2, k3, k4, k5, k6⟩ := mergeToTmp_ok hc hw r2 hb₁ hbn hl hnb hfit
        rw [k1]
        simp only [Option.bind_some]
        refine cascadeLoop_ok hc hw _ (i + 1) l' s' nb k2 ?_ hnn k4 (by omega) ?_ (by omega)
        · rw [k6, List.getElem?_set_ne (by omega)]; exact hnb
        · rw [k6, List.drop_set_of_lt (by omega)]
          exact r4.mono (by omega)

/-! ## With premerge -/

theorem premergeRange_ok (hs : Sane c) {w : E → M} {T : M} {pend : List E} :
    ∀ (n r incoming : ℕ) (s : State E) (b : Bucket E), Good c w T pend s → s.buckets[r]? = some b →
    incoming ≤ b.cap → s.buckets.length ≤ n + r →
    ∃ r' s' b', premergeRange c n r incoming s = some (r', s') ∧ Good c w T pend s' ∧ Grown s s' ∧ r ≤ r' ∧
      s'.buckets[r']? = some b' ∧ (∀ j, r ≤ j → j < r' → esAt s.buckets j ≠ []) ∧
      (r' = r → b'.es.length + incoming ≤ b'.cap) ∧
      (r < r' → b'.es.length + (esAt s.buckets (r' - 1)).length ≤ b'.cap) := by
  intro n
  induction n with
  | zero =>
    intro r incoming s b _ hb _ hn
    have := (List.getElem?_eq_some_iff.mp hb).1
    omega
  | succ n ih =>
    intro r incoming s b h hb hin hn
    have hrl := (List.getElem?_eq_some_iff.mp hb).1
    simp only [premergeRange, hb, Option.bind_eq_bind, Option.bind_some]
    by_cases hf : b.es.length + incoming ≤ b.cap
    · rw [if_pos hf]
      exact ⟨r, s, b, rfl, h, Or.inl rfl, le_refl _, hb, fun j _ _ => by omega, fun _ => hf, fun h => by omega⟩
    · rw [if_neg hf]
      have hbn : esAt s.buckets r ≠ [] := by
        rw [esAt_some hb]
        intro e
        rw [e] at hf
        simp at hf
        omega
      have hfits := (h.data.at_ok hb).fits
      by_cases hlast : r + 1 = s.buckets.length
      · rw [if_pos hlast]
        obtain ⟨s', cap, a1, a2, a3, a4, a5, _⟩ := addBucket_ok hs h
        have hcap := h.data.cap_tmp hb
        refine ⟨r + 1, s', ⟨cap, [], none⟩, by rw [a1]; rfl, a2, Or.inr ⟨cap, a3⟩, by omega, ?_, ?_, fun h => by omega, ?_⟩
        · rw [a3, hlast]; simp
        · intro j h1 h2
          rw [show j = r by omega]
          exact hbn
        · intro _
          simp only [List.length_nil, Nat.add_sub_cancel]
          rw [esAt_some hb]
          omega
      · rw [if_neg hlast]
        obtain ⟨nb, hnb⟩ : ∃ nb, s.buckets[r + 1]? = some nb := ⟨_, List.getElem?_eq_getElem (by omega)⟩
        have hdbl := h.data.cap_dbl hb hnb
        obtain ⟨r', s', b', k1, k2, k3, k4, k5, k6, k7, k8⟩ := ih (r + 1) b.es.length s nb h hnb (by omega) (by omega)
        refine ⟨r', s', b', k1, k2, k3, by omega, k5, ?_, fun h => by omega, ?_⟩
        · intro j h1 h2
          by_cases e : j = r
          · rw [e]; exact hbn
          · exact k6 j (by omega) h2
        · intro _
          by_cases e : r' = r + 1
          · have := k7 e
            rw [e, Nat.add_sub_cancel, esAt_some hb]
            exact this
          · exact k8 (by omega)

theorem moveLoop_ok {w : E → M} {T : M} {pend : List E} :
    ∀ (n r : ℕ) (s : State E), Good c w T pend s → n ≤ r → r < s.buckets.length → esAt s.buckets r = [] →
    (∀ j, r - n ≤ j → j < r → esAt s.buckets j ≠ []) →
    ∃ s', moveLoop c n r s = some s' ∧ Good c w T pend s' ∧ SameCaps s s' ∧ esAt s'.buckets (r - n) = [] := by
  intro n
  induction n with
  | zero =>
    intro r s h _ _ he _
    exact ⟨s, rfl, h, rfl, he⟩
  | succ n ih =>
    intro r s h hnr hr he hne
    obtain ⟨db, hd, ed⟩ := esAt_exists hr
    obtain ⟨sb, hsb, es⟩ := esAt_ne (hne (r - 1) (by omega) (by omega))
    have hcap := h.data.cap_mono hsb 1 db (by rw [show r - 1 + 1 = r by omega]; exact hd)
    have hfits := (h.data.at_ok hsb).fits
    obtain ⟨s₁, k1, k2, k3, k4, k5⟩ := moveToEmpty_ok h (by omega : r - 1 ≠ r) hsb hd
      (by rw [← es]; exact hne (r - 1) (by omega) (by omega)) (by rw [← ed]; exact he) (by omega)
    obtain ⟨s', m1, m2, m3, m4⟩ := ih (r - 1) s₁ k2 (by omega) (by rw [k3.length]; omega) k4 (by
      intro j h1 h2
      rw [k5 j (by omega) (by omega)]
      exact hne j (by omega) (by omega))
    refine ⟨s', ?_, m2, m3.trans k3, ?_⟩
    · simp only [moveLoop, k1, Option.bind_eq_bind, Option.bind_some, m1]
    · rw [show r - (n + 1) = r - 1 - n by omega]
      exact m4

theorem premerges_ok (hc : c.Lawful) {w : E → M} (hw : c.Weight w) {T : M} {pend : List E} {s : State E}
    {i r : ℕ} {rb : Bucket E} (h : Good c w T pend s) (hir : i < r) (hr : s.buckets[r]? = some rb)
    (hne : ∀ j, i ≤ j → j < r → esAt s.buckets j ≠ [])
    (hfit : rb.es.length + (esAt s.buckets (r - 1)).length ≤ rb.cap) :
    ∃ s', premerges c s i r = some s' ∧ Good c w T pend s' ∧ SameCaps s s' ∧ esAt s'.buckets i = [] := by
  have hrl := (List.getElem?_eq_some_iff.mp hr).1
  rw [premerges, if_pos (by omega)]
  simp only [hr, Option.bind_eq_bind, Option.bind_some]
  by_cases hrn : rb.es ≠ []
  · rw [if_pos hrn]
    obtain ⟨sb, hsb, es⟩ := esAt_ne (hne (r - 1) (by omega) (by omega))
    obtain ⟨s₁, k1, k2, k3, k4, k5⟩ := mergeBuckets_ok hc hw h (by omega : r - 1 ≠ r) hsb hr
      (by rw [← es]; exact hne (r - 1) (by omega) (by omega)) hrn (by rw [← es]; exact hfit)
    obtain ⟨s', m1, m2, m3, m4⟩ := moveLoop_ok (r - 1 - i) (r - 1) s₁ k2 (by omega) (by rw [k3.length]; omega) k4 (by
      intro j h1 h2
      rw [k5 j (by omega) (by omega)]
      exact hne j (by omega) (by omega))
    refine ⟨s', ?_, m2, m3.trans k3, ?_⟩
    · simp only [k1, Option.bind_some, m1]
    · rwa [show r - 1 - (r - 1 - i) = i by omega] at m4
  · rw [if_neg hrn]
    obtain ⟨s', m1, m2, m3, m4⟩ := moveLoop_ok (r - i) r s h (by omega) hrl (by
      rw [esAt_some hr]; simpa using hrn) (by
      intro j h1 h2
      exact hne j (by omega) h2)
    refine ⟨s', m1, m2, m3, ?_⟩
    rwa [show r - (r - i) = i by omega] at m4

theorem insertPremerge_ok (hs : Sane c) (hc : c.Lawful) {w : E → M} (hw : c.Weight w) {T : M} {s : State E}
    {l : List E} {i : ℕ} {b : Bucket E} (h : Good c w T l s) (hb : s.buckets[i]? = some b)
    (hl : Asc c l) (hfit : l.length ≤ b.cap) (hne : c.trackFront = true → l ≠ []) :
    ∃ s', insertPremerge c s i l = some s' ∧ Good c w T [] s' ∧ Uncached c s' := by
  obtain ⟨r, s₁, rb, k1, k2, k3, k4, k5, k6, k7, k8⟩ := premergeRange_ok hs (s.buckets.length + 1) i l.length s b h hb
    hfit (by omega)
  simp only [insertPremerge, k1, Option.bind_eq_bind, Option.bind_some]
  have hb₁ := k3.get hb
  by_cases hir : i = r
  · subst hir
    rw [hb₁] at k5
    cases k5
    have hf := k7 rfl
    simp only [premerges, ne_eq, not_true, if_false, Option.bind_some, hb₁]
    by_cases hbn : b.es = []
    · rw [if_pos hbn]
      exact assignNew_ok hc k2 hb₁ hbn hl hfit hne
    · rw [if_neg hbn]
      exact mergeToNonEmpty_ok hc hw k2 hb₁ hbn hl hf
  · obtain ⟨s₂, m1, m2, m3, m4⟩ := premerges_ok hc hw (i := i) (r := r) k2 (by omega) k5 (by
        intro j h1 h2
        rw [k3.esAt]
        exact k6 j h1 h2) (by
        rw [k3.esAt]
        exact k8 (by omega))
    obtain ⟨b₂, hb₂, hcap⟩ := m3.cap hb₁
    rw [esAt_some hb₂] at m4
    simp only [m1, Option.bind_some, hb₂]
    rw [if_pos m4]
    exact assignNew_ok hc m2 hb₂ m4 hl (by omega) hne

theorem insert_ok (hs : Sane c) (hc : c.Lawful) {w : E → M} (hw : c.Weight w) {T : M} {s : State E}
    {l : List E} {i : ℕ} {b : Bucket E} (h : Good c w T l s) (hb : s.buckets[i]? = some b)
    (hl : Asc c l) (hfit : l.length ≤ b.cap) (hne : c.trackFront = true → l ≠ []) :
    ∃ s', insert c s i l = some s' ∧ Good c w T [] s' ∧ Uncached c s' := by
  unfold insert
  split
  · exact insertPremerge_ok hs hc hw h hb hl hfit hne
  · exact insertNoPremerge_ok hs hc hw h hb hl hfit hne

/-! ## The search of `push` -/

/-- Where a search may end. -/
def Place.Right (c : Conf E) (es : List E) (e : E) : Place → Prop
  | .insertAt i => i ≤ es.length ∧ (∀ y ∈ es.take i, c.lt e y = false) ∧ ∀ y ∈ es.drop i, c.lt y e = false
  | .dup i => c.supportDedup = true ∧ ∃ m, es[i]? = some m ∧ c.eq e m = true

theorem Asc.before (hc : StrictWeak c.lt) {es : List E} (ha : Asc c es) {i : ℕ} {m e : E} (hm : es[i]? = some m)
    (h : c.lt e m = false) : ∀ y ∈ es.take (i + 1), c.lt e y = false := by
  intro y hy
  obtain ⟨j, hj⟩ := List.mem_iff_getElem?.mp hy
  rw [List.getElem?_take] at hj
  split at hj
  · obtain ⟨j1, j2⟩ := List.getElem?_eq_some_iff.mp hj
    obtain ⟨i1, i2⟩ := List.getElem?_eq_some_iff.mp hm
    by_cases e' : j = i
    · subst e'
      rw [hm] at hj
      cases hj
      exact h
    · have := (List.pairwise_iff_getElem.mp ha) j i j1 i1 (by omega)
      rw [j2, i2] at this
      exact hc.ge_trans h this
  · cases hj

theorem Asc.after (hc : StrictWeak c.lt) {es : List E} (ha : Asc c es) {i : ℕ} {m e : E} (hm : es[i]? = some m)
    (h : c.lt m e = false) : ∀ y ∈ es.drop i, c.lt y e = false := by
  intro y hy
  obtain ⟨j, hj⟩ := List.mem_iff_getElem?.mp hy
  rw [List.getElem?_drop] at hj
  obtain ⟨j1, j2⟩ := List.getElem?_eq_some_iff.mp hj
  obtain ⟨i1, i2⟩ := List.getElem?_eq_some_iff.mp hm
  by_cases e' : j = 0
  · subst e'
    rw [Nat.add_zero, hm] at hj
    cases hj
    exact h
  · have := (List.pairwise_iff_getElem.mp ha) i (i + j) i1 j1 (by omega)
    rw [j2, i2] at this
    exact hc.ge_trans this h

theorem binarySearch_spec (hc : StrictWeak c.lt) {es : List E} (ha : Asc c es) (e : E) (start range : ℕ)
    (hle : start + range ≤ es.length) (h1 : ∀ y ∈ es.take start, c.lt e y = false)
    (h2 : ∀ y ∈ es.drop (start + range), c.lt y e = false) :
    ∃ p, binarySearch c es e start range = some p ∧ p.Right c es e := by
  induction range using Nat.strong_induction_on generalizing start with
  | _ range ih =>
    rw [binarySearch]
    by_cases hr : range = 0
    · rw [if_pos hr]
      exact ⟨_, rfl, by omega, h1, by simpa [hr] using h2⟩
    · rw [if_neg hr]
      obtain ⟨m, hm⟩ : ∃ m, es[start + range / 2]? = some m := ⟨_, List.getElem?_eq_getElem (by omega)⟩
      rw [hm]
      simp only
      cases hlt : c.lt e m with
      | true =>
        rw [if_pos rfl]
        exact ih (range / 2) (by omega) start (by omega) h1 (ha.after hc hm (hc.asymm hlt))
      | false =>
        rw [if_neg (by simp)]
        by_cases hde : (!c.supportDedup || !c.eq e m) = true
        · rw [if_pos hde]
          refine ih (range - (range / 2 + 1)) (by omega) _ (by omega) ?_ ?_
          · exact ha.before hc hm hlt
          · rw [show start + range / 2 + 1 + (range - (range / 2 + 1)) = start + range by omega]
            exact h2
        · rw [if_neg hde]
          exact ⟨_, rfl, by simpa using (by simpa using hde : c.supportDedup = true ∧ c.eq e m = true).1, m, hm,
            (by simpa using hde : c.supportDedup = true ∧ c.eq e m = true).2⟩

theorem linearSearch_spec (hc : StrictWeak c.lt) (e : E) : ∀ (l₂ l₁ : List E), Asc c (l₁ ++ l₂) →
    (∀ y ∈ l₁, c.lt e y = false) → (linearSearch c e l₁.length l₂).Right c (l₁ ++ l₂) e := by
  intro l₂
  induction l₂ with
  | nil =>
    intro l₁ ha h1
    refine ⟨by simp, ?_, by simp⟩
    simpa using h1
  | cons m l₂ ih =>
    intro l₁ ha h1
    have hm : (l₁ ++ m :: l₂)[l₁.length]? = some m := by simp
    simp only [linearSearch]
    cases hlt : c.lt e m with
    | true =>
      rw [if_pos rfl]
      exact ⟨by simp, by simpa using h1, ha.after hc hm (hc.asymm hlt)⟩
    | false =>
      rw [if_neg (by simp)]
      by_cases hde : (c.supportDedup && c.eq e m) = true
      · rw [if_pos hde]
        have : c.supportDedup = true ∧ c.eq e m = true := by simpa using hde
        exact ⟨this.1, m, hm, this.2⟩
      · rw [if_neg hde]
        have := ih (l₁ ++ [m]) (by simpa using ha) (by
          intro y hy
          rcases List.mem_append.mp hy with hy | hy
          · exact h1 y hy
          · simp at hy
            subst hy
            exact hlt)
        simpa using this

theorem search_spec (hc : StrictWeak c.lt) {es : List E} (ha : Asc c es) (e : E) :
    ∃ p, search c es e = some p ∧ p.Right c es e := by
  unfold search
  split
  · exact binarySearch_spec hc ha e 0 es.length (by omega) (by simp) (by simp)
  · exact ⟨_, rfl, by simpa using linearSearch_spec hc e es [] ha (by simp)⟩

end Verif.Geobucket
