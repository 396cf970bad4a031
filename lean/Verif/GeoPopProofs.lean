import Verif.GeoKeyProofs

/-!
# Helper lemmas about finding and removing the maximum of a `Geobucket`
-/

namespace Verif.Geobucket

variable {E M : Type} [AddCommMonoid M] {c : Conf E}

/-- The last entries of two versions of a bucket compare alike. -/
def SameLast (c : Conf E) (l' l : List E) : Prop :=
  ∀ x', l'.getLast? = some x' → ∃ x, l.getLast? = some x ∧ Same c x' x

theorem SameLast.refl (l : List E) : SameLast c l l := fun x hx => ⟨x, hx, Same.refl x⟩

theorem geK_same {bs bs' : List (Bucket E)} {i j : ℕ} (hi : SameLast c (esAt bs' i) (esAt bs i))
    (hj : SameLast c (esAt bs' j) (esAt bs j)) (h : geK c bs i j) : geK c bs' i j := by
  intro x y hx hy
  obtain ⟨x', h1, h2⟩ := hi x hx
  obtain ⟨y', h3, h4⟩ := hj y hy
  rw [(h2 _).1, (h4 _).2]
  exact h x' y' h1 h3

/-- Bucket `j` goes down. -/
theorem geK_down (hc : StrictWeak c.lt) {bs bs' : List (Bucket E)} {i j : ℕ} {y : E}
    (hi : SameLast c (esAt bs' i) (esAt bs i)) (hy : (esAt bs j).getLast? = some y)
    (hj : ∀ y', (esAt bs' j).getLast? = some y' → c.lt y y' = false)
    (h : geK c bs i j) : geK c bs' i j := by
  intro x y' hx hy'
  obtain ⟨x', h1, h2⟩ := hi x hx
  rw [(h2 _).1]
  exact hc.ge_trans (h x' y h1 hy) (hj y' hy')

theorem last_dropLast {l : List E} {y y' : E} (hc : StrictWeak c.lt) (ha : Asc c l)
    (hy : l.getLast? = some y) (hy' : l.dropLast.getLast? = some y') : c.lt y y' = false :=
  ha.le_last hc hy y' (List.dropLast_subset l (List.mem_of_getLast? hy'))

/-- What merging the last entries of buckets `i` and `j` does to the order. -/
theorem dedup_keys (hc : StrictWeak c.lt) {w : E → M} {bs bs' : List (Bucket E)} {count : ℕ} {pend : List E}
    {T : M} (h : Data c w bs count pend T) {i j : ℕ} {x y d : E}
    (hy : (esAt bs i).getLast? = some y) (hx : (esAt bs j).getLast? = some x) (hd : Same c d y)
    (h1 : esAt bs' i = (esAt bs i).dropLast ++ [d]) (h2 : esAt bs' j = (esAt bs j).dropLast)
    (h3 : ∀ k, k ≠ i → k ≠ j → esAt bs' k = esAt bs k) :
    (∀ k, k ≠ j → SameLast c (esAt bs' k) (esAt bs k)) ∧
    (∀ y', (esAt bs' j).getLast? = some y' → c.lt x y' = false) := by
  constructor
  · intro k hk
    by_cases e : k = i
    · subst e
      intro x' hx'
      rw [h1] at hx'
      simp at hx'
      subst hx'
      exact ⟨y, hy, hd⟩
    · rw [h3 k e hk]
      exact SameLast.refl _
  · intro y' hy'
    rw [h2] at hy'
    obtain ⟨b, hb, eb⟩ := esAt_ne (bs := bs) (i := j) (by intro e; rw [e] at hx; cases hx)
    rw [eb] at hx hy'
    exact last_dropLast hc (h.at_ok hb).asc hx hy'

/-! ## `keyDecreased` -/

theorem decLoop_spec (hc : c.Lawful) {w : E → M} (hw : c.Weight w) (T : M) (b : ℕ) :
    ∀ (B A : List ℕ) (s : State E), Data c w s.buckets s.count [] T →
    Link (fillHole s.front A.length b) (A ++ b :: B) → s.front.pos.length = s.buckets.length →
    (∀ z, z ∈ A ++ b :: B ↔ esAt s.buckets z ≠ []) → (A ++ B).Pairwise (geK c s.buckets) →
    (∀ a ∈ A, geK c s.buckets a b) →
    ∃ s', decLoop c b B.length A.length s = some s' ∧ Data c w s'.buckets s'.count [] T ∧
      FrontOk c s'.buckets s'.front := by
  intro B
  induction B with
  | nil =>
    intro A s hd hl hlen hmem hord hA
    have hle := hl.le
    have e1 : (fillHole s.front A.length b).slots.length = s.front.slots.length := by simp [fillHole]
    have e2 : (A ++ [b]).length = A.length + 1 := by simp
    have hbl : b < s.front.pos.length := by
      have := hl.mem_lt (b := b) (by simp)
      simpa [fillHole] using this
    refine ⟨⟨s.buckets, s.count, fillHole s.front A.length b⟩, ?_, hd, fun _ => ⟨A ++ [b], ?_⟩⟩
    · simp only [List.length_nil, decLoop]
      rw [settle_some (by omega) hbl]
      rfl
    · exact Fr.join hl (by simpa [fillHole] using hlen) hmem hord hA (by simp)
  | cons q B ih =>
    intro A s hd hl hlen hmem hord hA
    have hle := hl.le
    have e1 : (fillHole s.front A.length b).slots.length = s.front.slots.length := by simp [fillHole]
    have e2 : (A ++ b :: q :: B).length = A.length + B.length + 2 := by simp; omega
    have hbl : b < s.front.pos.length := by
      have := hl.mem_lt (b := b) (by simp)
      simpa [fillHole] using this
    obtain ⟨x, hx⟩ := last_of_ne ((hmem b).mp (by simp))
    obtain ⟨y, hy⟩ := last_of_ne ((hmem q).mp (by simp))
    obtain ⟨g1, f', g2, g3, g4, g5⟩ := hl.holeUp
    obtain ⟨f₁, m1, m2⟩ := Option.bind_eq_some_iff.mp g2
    have hnd := hl.nodup
    rw [List.nodup_append] at hnd
    have hnd2 := List.nodup_cons.mp hnd.2.1
    have hbq : b ≠ q := fun e => hnd2.1 (by simp [e])
    have hbB : b ∉ B := fun h => hnd2.1 (by simp [h])
    have hbA : b ∉ A := fun h => hnd.2.2 b h b (by simp) rfl
    have happ : A ++ [q] ++ B = A ++ q :: B := by simp
    have hlen' : (A ++ [q]).length = A.length + 1 := by simp
    -- the step to the next cell, from a state with the same front
    have next : ∀ s₁ : State E, s₁.front = s.front → s₁.buckets.length = s.buckets.length →
        Data c w s₁.buckets s₁.count [] T →
        (∀ z, z ∈ A ++ b :: q :: B ↔ esAt s₁.buckets z ≠ []) →
        (A ++ q :: B).Pairwise (geK c s₁.buckets) → (∀ a ∈ A, geK c s₁.buckets a b) →
        geK c s₁.buckets q b →
        ∃ s', decLoop c b B.length (A.length + 1) ⟨s₁.buckets, s₁.count, f'⟩ = some s' ∧
          Data c w s'.buckets s'.count [] T ∧ FrontOk c s'.buckets s'.front := by
      intro s₁ hf hbl hd₁ hm₁ ho₁ ha₁ hq₁
      have := ih (A ++ [q]) ⟨s₁.buckets, s₁.count, f'⟩ hd₁ (by rw [hlen']; simpa using g3)
        (by simp only; omega) (by
          intro z
          rw [← hm₁ z]
          simp only [List.mem_append, List.mem_cons, List.not_mem_nil, or_false]
          tauto) (by rw [happ]; exact ho₁) (by
          intro a ha
          rcases List.mem_append.mp ha with ha | ha
          · exact ha₁ a ha
          · simp at ha; subst ha; exact hq₁)
      rwa [hlen'] at this
    simp only [List.length_cons, decLoop, g1, hd.backAt, hx, hy, Option.bind_eq_bind, Option.bind_some]
    cases hlt : c.lt x y with
    | true =>
      simp only [if_true, m1, m2, Option.bind_some]
      refine next s rfl rfl hd hmem hord hA ?_
      intro y' x' hy' hx'
      rw [hy] at hy'
      rw [hx] at hx'
      cases hy'
      cases hx'
      exact hc.weak.asymm hlt
    | false =>
      by_cases hde : (!c.supportDedup || !c.eq x y) = true
      · rw [if_neg (by simp), if_pos hde]
        refine ⟨⟨s.buckets, s.count, fillHole s.front A.length b⟩, ?_, hd, fun _ => ⟨A ++ b :: q :: B, ?_⟩⟩
        · rw [settle_some (by omega) hbl]
          rfl
        · refine Fr.join hl (by simpa [fillHole] using hlen) hmem hord hA ?_
          have hbq' : geK c s.buckets b q := by
            intro x' y' hx' hy'
            rw [hx] at hx'
            rw [hy] at hy'
            cases hx'
            cases hy'
            exact hlt
          intro j hj
          rcases List.mem_cons.mp hj with rfl | hj
          · exact hbq'
          · refine geK_trans hc.weak ((hmem q).mp (by simp)) hbq' ?_
            exact (List.pairwise_cons.mp (List.pairwise_append.mp hord).2.1).1 j hj
      · rw [if_neg (by simp), if_neg hde]
        have hde' : c.supportDedup = true ∧ c.eq x y = true := by simpa using hde
        have hdy := dedup_same_right hc hde'.2
        have hdx := dedup_same_left hc hde'.2
        obtain ⟨bi, bi', bj, bj', d1, d2, d3, d4, d5, d6, d7, d8, d9, _⟩ :=
          hd.dedup (i := q) (j := b) (fun e => hbq e.symm) hy hx hdy hdx
            (by rw [hw hde'.1 x y hde'.2, add_comm])
        have lq := (List.getElem?_eq_some_iff.mp d1).1
        have lb : b < (s.buckets.set q bi').length := (List.getElem?_eq_some_iff.mp d3).1
        have hinto : dedupInto c s b q x y =
            some ⟨(s.buckets.set q bi').set b bj', s.count - 1, s.front⟩ := by
          simp only [dedupInto, d1, d2, State.setBucket, Option.bind_eq_bind, Option.bind_some, d3, d4]
        have es1 : ∀ z, esAt ((s.buckets.set q bi').set b bj') z =
            if b = z then bj'.es else if q = z then bi'.es else esAt s.buckets z := by
          intro z
          rw [esAt_set lb, esAt_set lq]
        have hk := dedup_keys hc.weak hd hy hx hdy (bs' := (s.buckets.set q bi').set b bj')
          (by rw [es1, if_neg hbq, if_pos rfl, d5]) (by rw [es1, if_pos rfl, d6])
          (by intro k k1 k2; rw [es1, if_neg (fun e => k2 e.symm), if_neg (fun e => k1 e.symm)])
        have hbj : ((s.buckets.set q bi').set b bj')[b]? = some bj' := by
          rw [List.getElem?_set_self lb]
        rw [hinto]
        simp only [Option.bind_some, hbj]
        have hord' : (A ++ q :: B).Pairwise (geK c ((s.buckets.set q bi').set b bj')) := by
          refine List.Pairwise.imp_of_mem ?_ hord
          intro i j hi hj hij
          have hbm : b ∉ A ++ q :: B := by simp [hbA, hbB, hbq]
          exact geK_same (hk.1 i (fun e => hbm (e ▸ hi))) (hk.1 j (fun e => hbm (e ▸ hj))) hij
        by_cases hemp : bj'.es = []
        · rw [if_pos hemp]
          obtain ⟨f₂, r1, r2, r3⟩ := removeT_hole (A := A) (B := q :: B) (b := b)
            (f := ⟨s.front.cached, s.front.slots, s.front.fend, s.front.pos.set b (.slot A.length)⟩)
            (by
              refine hl.congr rfl (fun _ _ => rfl) ?_
              intro z
              simp [fillHole]) (by simp [hbl])
          refine ⟨⟨(s.buckets.set q bi').set b bj', s.count - 1, f₂⟩, ?_, d9, fun _ => ⟨A ++ q :: B, r2, ?_, ?_, hord'⟩⟩
          · rw [setPos_some hbl]
            simp only [Option.bind_some, r1]
          · rw [r3]
            simpa using hlen
          · intro z
            rw [es1]
            by_cases e : b = z
            · subst e
              simp [hemp, hbA, hbB, hbq]
            · rw [if_neg e]
              by_cases e' : q = z
              · subst e'
                simp [d5]
              · rw [if_neg e', ← hmem z]
                have : z ≠ b := fun h => e h.symm
                simp [this]
        · rw [if_neg hemp]
          simp only [m1, m2, Option.bind_some]
          refine next ⟨(s.buckets.set q bi').set b bj', s.count - 1, s.front⟩ rfl (by simp) d9 ?_ hord' ?_ ?_
          · intro z
            rw [es1]
            by_cases e : b = z
            · subst e
              simp [hemp]
            · rw [if_neg e]
              by_cases e' : q = z
              · subst e'
                simp [d5]
              · rw [if_neg e', ← hmem z]
          · intro a ha
            exact geK_down hc.weak (hk.1 a (fun e => hbA (e ▸ ha))) hx hk.2 (hA a ha)
          · refine geK_down hc.weak (hk.1 q (fun e => hbq e.symm)) hx hk.2 ?_
            intro y' x' hy' hx'
            rw [hy] at hy'
            rw [hx] at hx'
            cases hy'
            cases hx'
            exact (eq_true hc hde'.2).2

/-- `keyDecreased` for the bucket at the head of the front. -/
theorem keyDecreased_spec (hc : c.Lawful) {w : E → M} (hw : c.Weight w) {T : M} {s : State E} {b : ℕ}
    {bs : List (Bucket E)} (hd : Data c w s.buckets s.count [] T) (hlen : s.buckets.length = bs.length)
    (hf : c.trackFront = true → ∃ B, Fr c bs s.front (b :: B)) (hbl : b < bs.length)
    (hes : ∀ j, j ≠ b → esAt s.buckets j = esAt bs j) :
    ∃ s', keyDecreased c s b = some s' ∧ Data c w s'.buckets s'.count [] T ∧
      FrontOk c s'.buckets s'.front ∧ (c.trackFront = false → s'.front.cached = none) := by
  cases ht : c.trackFront with
  | false =>
    refine ⟨⟨s.buckets, s.count, ⟨none, s.front.slots, s.front.fend, s.front.pos⟩⟩,
      by rw [keyDecreased, ht, if_neg (by simp)], hd, ?_, fun _ => rfl⟩
    intro h
    rw [ht] at h
    cases h
  | true =>
    obtain ⟨B, h⟩ := hf ht
    have hB : b ∉ B := (List.nodup_cons.mp h.link.nodup).1
    obtain ⟨bb, hbb, ebb⟩ := esAt_exists (bs := s.buckets) (i := b) (by omega)
    have hordB : B.Pairwise (geK c s.buckets) :=
      pairwise_other hB hes (List.pairwise_cons.mp h.ord).2
    rw [keyDecreased, ht, if_pos rfl, hbb]
    simp only
    by_cases hemp : bb.es = []
    · rw [if_pos hemp]
      obtain ⟨f', k1, k2, k3⟩ := removeT_spec (A := []) h.link
      refine ⟨⟨s.buckets, s.count, f'⟩, by rw [k1]; rfl, hd, fun _ => ⟨B, k2, by rw [k3, h.len, hlen], ?_, hordB⟩, nofun⟩
      intro z
      by_cases e : z = b
      · subst e
        rw [ebb]
        simp [hemp, hB]
      · rw [hes z e, ← h.mem]
        simp [e]
    · rw [if_neg hemp]
      have hb0 : (b :: B)[0]? = some b := rfl
      have hp := (h.link.pos b 0).mpr hb0
      have hfe := h.link.fend
      rw [hp]
      simp only
      rw [if_pos (by rw [hfe]; simp), show s.front.fend - (0 + 1) = B.length by rw [hfe]; simp]
      obtain ⟨s', k1, k2, k3⟩ := decLoop_spec hc hw T b B [] s hd (h.link.fill hb0) (by rw [h.len, hlen]) (by
          intro z
          by_cases e : z = b
          · subst e
            rw [ebb]
            simp [hemp]
          · rw [hes z e, ← h.mem]
            simp) hordB (by simp)
      exact ⟨s', k1, k2, k3, nofun⟩

/-! ## `getMax` -/

theorem maxLoop_spec (hc : c.Lawful) {w : E → M} (hw : c.Weight w) (T : M) :
    ∀ (n m it : ℕ) (s : State E), Data c w s.buckets s.count [] T → it + n = s.buckets.length → m < it →
    esAt s.buckets m ≠ [] → (∀ j, j < it → geK c s.buckets m j) →
    ∃ m' s', maxLoop c n m it s = some (m', s') ∧ Data c w s'.buckets s'.count [] T ∧
      s'.buckets.length = s.buckets.length ∧ s'.front = s.front ∧ m' < s.buckets.length ∧
      esAt s'.buckets m' ≠ [] ∧ (∀ j, geK c s'.buckets m' j) ∧
      SameClasses c (flat s.buckets) (flat s'.buckets) ∧
      (c.supportDedup = false → s'.buckets = s.buckets) := by
  intro n
  induction n with
  | zero =>
    intro m it s hd hit hm hne hge
    refine ⟨m, s, rfl, hd, rfl, rfl, by omega, hne, ?_, SameClasses.refl _, fun _ => rfl⟩
    intro j
    by_cases hj : j < it
    · exact hge j hj
    · intro x y _ hy
      rw [esAt, List.getElem?_eq_none (by omega)] at hy
      cases hy
  | succ n ih =>
    intro m it s hd hit hm hne hge
    obtain ⟨ib, hib, eib⟩ := esAt_exists (bs := s.buckets) (i := it) (by omega)
    obtain ⟨mb, hmb, emb⟩ := esAt_exists (bs := s.buckets) (i := m) (by omega)
    obtain ⟨y, hy⟩ := last_of_ne hne
    have go : geK c s.buckets m it → ∃ m' s', maxLoop c n m (it + 1) s = some (m', s') ∧
        Data c w s'.buckets s'.count [] T ∧
        s'.buckets.length = s.buckets.length ∧ s'.front = s.front ∧ m' < s.buckets.length ∧
        esAt s'.buckets m' ≠ [] ∧ (∀ j, geK c s'.buckets m' j) ∧
        SameClasses c (flat s.buckets) (flat s'.buckets) ∧
        (c.supportDedup = false → s'.buckets = s.buckets) := by
      intro h
      apply ih m (it + 1) s hd (by omega) (by omega) hne
      intro j hj
      by_cases e : j = it
      · subst e; exact h
      · exact hge j (by omega)
    simp only [maxLoop, hib, Option.bind_eq_bind, Option.bind_some]
    by_cases hemp : ib.es = []
    · rw [if_pos hemp]
      apply go
      intro x' y' _ hy'
      rw [eib, hemp] at hy'
      cases hy'
    · rw [if_neg hemp]
      obtain ⟨x, hx⟩ := last_of_ne (l := esAt s.buckets it) (by rw [eib]; exact hemp)
      have gx : ib.getBack c = some x := by rw [getBack_eq (hd.at_ok hib), ← eib]; exact hx
      have gy : mb.getBack c = some y := by rw [getBack_eq (hd.at_ok hmb), ← emb]; exact hy
      simp only [hmb, Option.bind_some, gx, gy]
      have hkey : ∀ x' y', (esAt s.buckets m).getLast? = some y' → (esAt s.buckets it).getLast? = some x' →
          y' = y ∧ x' = x := by
        intro x' y' h1 h2
        rw [hy] at h1
        rw [hx] at h2
        cases h1
        cases h2
        exact ⟨rfl, rfl⟩
      cases hlt : c.lt x y with
      | true =>
        rw [if_pos rfl]
        apply go
        intro y' x' hy' hx'
        obtain ⟨rfl, rfl⟩ := hkey x' y' hy' hx'
        exact hc.weak.asymm hlt
      | false =>
        rw [if_neg (by simp)]
        by_cases hde : (c.supportDedup && c.eq x y) = true
        · rw [if_pos hde]
          have hde1 : c.supportDedup = true ∧ c.eq x y = true := by simpa using hde
          have hcmp := eq_true hc hde1.2
          have heq : c.eq y x = true := by rw [hc.eq_iff]; simp [hcmp.1, hcmp.2]
          obtain ⟨bi, bi', bj, bj', d1, d2, d3, d4, d5, d6, d7, d8, d9, d10⟩ :=
            hd.dedup (i := m) (j := it) (by omega) hy hx (dedup_same_left hc heq) (dedup_same_right hc heq)
              (by rw [hw hde1.1 y x heq])
          rw [hmb] at d1
          cases d1
          have lm : m < s.buckets.length := by omega
          have lit : it < (s.buckets.set m bi').length := (List.getElem?_eq_some_iff.mp d3).1
          simp only [State.setBucket, d2, d3, d4, Option.bind_some]
          have es1 : ∀ z, esAt ((s.buckets.set m bi').set it bj') z =
              if it = z then bj'.es else if m = z then bi'.es else esAt s.buckets z := by
            intro z
            rw [esAt_set lit, esAt_set lm]
          have hk := dedup_keys hc.weak hd hy hx (dedup_same_left hc heq)
            (bs' := (s.buckets.set m bi').set it bj')
            (by rw [es1, if_neg (by omega), if_pos rfl, d5]) (by rw [es1, if_pos rfl, d6])
            (by intro k k1 k2; rw [es1, if_neg (fun e => k2 e.symm), if_neg (fun e => k1 e.symm)])
          obtain ⟨m', s', r1, r2, r3, r4, r5, r6, r7, r8, r9⟩ := ih m (it + 1)
            ⟨(s.buckets.set m bi').set it bj', s.count - 1, s.front⟩ d9 (by simp; omega) (by omega)
            (by simp only; rw [es1, if_neg (by omega), if_pos rfl, d5]; simp) (by
              intro j hj
              by_cases e : j = it
              · subst e
                refine geK_down hc.weak (hk.1 m (by omega)) hx hk.2 ?_
                intro y' x' hy' hx'
                obtain ⟨rfl, rfl⟩ := hkey x' y' hy' hx'
                exact hcmp.2
              · exact geK_same (hk.1 m (by omega)) (hk.1 j e) (hge j (by omega)))
          refine ⟨m', s', r1, r2, by simpa using r3, r4, by simpa using r5, r6, r7, d10.trans r8, ?_⟩
          intro hn
          rw [hde1.1] at hn
          cases hn
        · rw [if_neg hde]
          have hm_it : geK c s.buckets it m := by
            intro x' y' hx' hy'
            obtain ⟨rfl, rfl⟩ := hkey x' y' hy' hx'
            exact hlt
          apply ih it (it + 1) s hd (by omega) (by omega) (by rw [eib]; exact hemp)
          intro j hj
          by_cases e : j = it
          · subst e; exact geK_refl hc.weak _ _
          · exact geK_trans hc.weak hne hm_it (hge j (by omega))

/-- The bucket noted as maximal is. -/
def CacheOk (c : Conf E) (s : State E) : Prop :=
  c.trackFront = false → ∀ m, s.front.cached = some m → esAt s.buckets m ≠ [] ∧ ∀ j, geK c s.buckets m j

theorem getMax_spec (hc : c.Lawful) {w : E → M} (hw : c.Weight w) {T : M} {s : State E}
    (hd : Data c w s.buckets s.count [] T) (hf : FrontOk c s.buckets s.front) (hca : CacheOk c s)
    (hne : flat s.buckets ≠ []) :
    ∃ m s', getMax c s = some (m, s') ∧ Data c w s'.buckets s'.count [] T ∧
      FrontOk c s'.buckets s'.front ∧ CacheOk c s' ∧
      esAt s'.buckets m ≠ [] ∧ (∀ j, geK c s'.buckets m j) ∧
      (c.trackFront = true → ∃ B, Fr c s'.buckets s'.front (m :: B)) ∧
      SameClasses c (flat s.buckets) (flat s'.buckets) ∧
      ((c.supportDedup && !c.trackFront) = false → s'.buckets = s.buckets) := by
  obtain ⟨x, hx⟩ := List.exists_mem_of_ne_nil _ hne
  obtain ⟨k, hk⟩ := mem_flat.mp hx
  have hkne : esAt s.buckets k ≠ [] := List.ne_nil_of_mem hk
  cases ht : c.trackFront with
  | true =>
    obtain ⟨live, h⟩ := hf ht
    have hl0 : live ≠ [] := List.ne_nil_of_mem ((h.mem k).mpr hkne)
    obtain ⟨m, B, rfl⟩ := List.exists_cons_of_ne_nil hl0
    have hfe := h.link.fend
    refine ⟨m, s, ?_, hd, hf, hca, (h.mem m).mp (by simp), ?_, fun _ => ⟨B, h⟩, SameClasses.refl _, fun _ => rfl⟩
    · rw [getMax, ht, if_pos rfl, if_neg (by rw [hfe]; simp), h.link.rd (i := 0) (b := m) rfl]
      rfl
    · intro j
      by_cases hj : j ∈ m :: B
      · rcases List.mem_cons.mp hj with rfl | hj
        · exact geK_refl hc.weak _ _
        · exact (List.pairwise_cons.mp h.ord).1 j hj
      · intro x' y' _ hy'
        rw [h.mem, not_not] at hj
        rw [hj] at hy'
        cases hy'
  | false =>
    rw [getMax, ht, if_neg (by simp)]
    rcases hcach : s.front.cached with _ | m
    · simp only
      have hfi : ∃ m, s.buckets.findIdx? (fun b => !b.es.isEmpty) = some m := by
        by_contra h1
        have h0 : s.buckets.findIdx? (fun b => !b.es.isEmpty) = none := by
          rw [Option.eq_none_iff_forall_ne_some]
          exact fun m hm => h1 ⟨m, hm⟩
        · rw [List.findIdx?_eq_none_iff] at h0
          obtain ⟨b, hb, eb⟩ := esAt_ne hkne
          have := h0 b (List.mem_of_getElem? hb)
          rw [eb] at hkne
          simp at this
          exact absurd this hkne
      obtain ⟨m, hm⟩ := hfi
      rw [hm]
      rw [List.findIdx?_eq_some_iff_getElem] at hm
      obtain ⟨hml, hm1, hm2⟩ := hm
      have hmne : esAt s.buckets m ≠ [] := by
        rw [esAt_some (List.getElem?_eq_getElem hml)]
        simpa using hm1
      obtain ⟨m', s', r1, r2, r3, r4, r5, r6, r7, r8, r9⟩ := maxLoop_spec hc hw T
        (s.buckets.length - (m + 1)) m (m + 1) s hd (by omega) (by omega) hmne (by
          intro j hj
          by_cases e : j = m
          · subst e; exact geK_refl hc.weak _ _
          · intro x' y' _ hy'
            have := hm2 j (by omega)
            rw [esAt_some (List.getElem?_eq_getElem (by omega : j < s.buckets.length))] at hy'
            simp at this
            rw [this] at hy'
            cases hy')
      refine ⟨m', ⟨s'.buckets, s'.count, ⟨some m', s'.front.slots, s'.front.fend, s'.front.pos⟩⟩, ?_, r2, ?_, ?_, r6, r7, nofun, r8, ?_⟩
      · simp only [r1, Option.map_some]
      · intro h
        rw [ht] at h
        cases h
      · intro _ k hk
        cases hk
        exact ⟨r6, r7⟩
      · simpa [ht] using r9
    · have := hca ht m hcach
      refine ⟨m, s, rfl, hd, hf, hca, this.1, this.2, nofun, SameClasses.refl _, fun _ => rfl⟩

end Verif.Geobucket
